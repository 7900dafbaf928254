import Mathlib.Algebra.BigOperators.Ring.Finset
import Mathlib.LinearAlgebra.Matrix.NonsingularInverse
import Mathlib.Data.Real.Basic

/-!
# NumPy substrate

The fragment of NumPy / SciPy / Python that the modelled code uses.

* Exceptions are values: `Py α = Except PyErr α`.
* A NumPy array of static rank is a record of its sizes and a *total* access function; entries outside
  the sizes are meaningless and no specification talks about them.
* Internal arrays whose shape is fixed by the code are plain functions `ℕ → ℝ`, `ℕ → ℕ → ℝ`.
* Floats are modelled by real numbers.
-/

namespace Pydisort

/-- Python exceptions which the modelled code can raise. -/
inductive PyErr where
  /-- `ValueError`, with an identifier of the message. -/
  | valueError (msg : String)
  /-- NumPy shape mismatch (`ValueError: operands could not be broadcast together`). -/
  | shapeError
  /-- `IndexError`. -/
  | indexError
  /-- `TypeError`. -/
  | typeError
  /-- `numpy.linalg.LinAlgError` (singular matrix). -/
  | linAlgError
  deriving DecidableEq, Repr

/-- A Python computation: a value or an exception. -/
abbrev Py (α : Type) := Except PyErr α

/-- Rank-1 array. -/
structure A1 (α : Type*) where
  n : ℕ
  get : ℕ → α

/-- Rank-2 array. -/
structure A2 (α : Type*) where
  r : ℕ
  c : ℕ
  get : ℕ → ℕ → α

/-- Rank-3 array. -/
structure A3 (α : Type*) where
  d0 : ℕ
  d1 : ℕ
  d2 : ℕ
  get : ℕ → ℕ → ℕ → α

abbrev Vec := ℕ → ℝ
abbrev Mat := ℕ → ℕ → ℝ

/-- NumPy broadcasting of one dimension: equal sizes, or one of them is 1. -/
def bdim (a b : ℕ) : Py ℕ :=
  if a = b then .ok a else if a = 1 then .ok b else if b = 1 then .ok a else .error .shapeError

/-- The index actually read in a dimension of size `n` by a broadcast access at `i`. -/
def bix (n i : ℕ) : ℕ := if n = 1 then 0 else i

/-- Elementwise binary operation on rank-1 arrays with broadcasting. -/
def A1.bin {α β γ : Type} (f : α → β → γ) (a : A1 α) (b : A1 β) : Py (A1 γ) := do
  let n ← bdim a.n b.n
  return ⟨n, fun i => f (a.get (bix a.n i)) (b.get (bix b.n i))⟩

/-- Elementwise binary operation on rank-2 arrays with broadcasting. -/
def A2.bin {α β γ : Type} (f : α → β → γ) (a : A2 α) (b : A2 β) : Py (A2 γ) := do
  let r ← bdim a.r b.r
  let c ← bdim a.c b.c
  return ⟨r, c, fun i j => f (a.get (bix a.r i) (bix a.c j)) (b.get (bix b.r i) (bix b.c j))⟩

/-- Assignment of a rank-1 array into a rank-1 slice of length `n`
(`dst[...] = src`; a source of length one is repeated). -/
def assign1 {α : Type} (n : ℕ) (src : A1 α) : Py (ℕ → α) :=
  if src.n = n then .ok src.get else if src.n = 1 then .ok (fun _ => src.get 0)
  else .error .shapeError

/-- `v[None, :]`. -/
def A1.row {α : Type*} (v : A1 α) : A2 α := ⟨1, v.n, fun _ j => v.get j⟩
/-- `v[:, None]`. -/
def A1.col {α : Type*} (v : A1 α) : A2 α := ⟨v.n, 1, fun i _ => v.get i⟩

/-- Elementwise map. -/
def A1.map {α β : Type*} (f : α → β) (v : A1 α) : A1 β := ⟨v.n, fun i => f (v.get i)⟩
/-- Elementwise map. -/
def A2.map {α β : Type*} (f : α → β) (v : A2 α) : A2 β := ⟨v.r, v.c, fun i j => f (v.get i j)⟩

/-- Two rank-1 arrays hold the same data. -/
def A1.Same {α : Type*} (a b : A1 α) : Prop := a.n = b.n ∧ ∀ i < a.n, a.get i = b.get i
/-- Two rank-2 arrays hold the same data. -/
def A2.Same {α : Type*} (a b : A2 α) : Prop :=
  a.r = b.r ∧ a.c = b.c ∧ ∀ i < a.r, ∀ j < a.c, a.get i j = b.get i j

/-- Arrays of arbitrary rank, for `squeeze` and `atleast_2d_append`. -/
structure ND (α : Type*) where
  shape : List ℕ
  get : List ℕ → α

/-- `np.squeeze`: drop the axes of size one. An index of the result is completed with zeros. -/
def squeezeIx : List ℕ → List ℕ → List ℕ
  | [], _ => []
  | d :: ds, ix => if d = 1 then 0 :: squeezeIx ds ix
      else match ix with
        | [] => 0 :: squeezeIx ds []
        | i :: is => i :: squeezeIx ds is

/-- `np.squeeze`. -/
def ND.squeeze {α : Type*} (a : ND α) : ND α :=
  ⟨a.shape.filter (· ≠ 1), fun ix => a.get (squeezeIx a.shape ix)⟩

/-- `for i in range(n): s = f(i, s)`. -/
def forRange {σ : Type*} (n : ℕ) (f : ℕ → σ → σ) (s : σ) : σ :=
  match n with
  | 0 => s
  | n + 1 => f n (forRange n f s)

/-- `v[a:b] = w`. -/
def setSlice (v : Vec) (a b : ℕ) (w : Vec) : Vec :=
  fun i => if a ≤ i ∧ i < b then w (i - a) else v i

/-- `v[a:b] += w`. -/
def addSlice (v : Vec) (a b : ℕ) (w : Vec) : Vec :=
  fun i => if a ≤ i ∧ i < b then v i + w (i - a) else v i

/-- `M[i0:i1, j0:j1] = B`. -/
def setBlock (M : Mat) (i0 i1 j0 j1 : ℕ) (B : Mat) : Mat :=
  fun i j => if (i0 ≤ i ∧ i < i1) ∧ (j0 ≤ j ∧ j < j1) then B (i - i0) (j - j0) else M i j

/-- `dst[idx] = vals` for an integer index list (`vals` indexed by position). -/
def scatter {α : Type*} : List ℕ → (ℕ → α) → (ℕ → α) → (ℕ → α)
  | [], _, g => g
  | i :: is, v, g => scatter is (fun k => v (k + 1)) (Function.update g i (v 0))

/-- `A @ x` for an `n`-column matrix. -/
def mulVec (n : ℕ) (A : Mat) (x : Vec) : Vec := fun i => ∑ j ∈ Finset.range n, A i j * x j

/-- `A @ B` with inner dimension `n`. -/
def matMul (n : ℕ) (A B : Mat) : Mat := fun i k => ∑ j ∈ Finset.range n, A i j * B j k

/-- `np.cumsum` of a rank-1 array. -/
def cumsum (v : Vec) : Vec := fun i => ∑ j ∈ Finset.range (i + 1), v j

/-- The leading `n × n` part as a Mathlib matrix. -/
def toM (n : ℕ) (A : Mat) : Matrix (Fin n) (Fin n) ℝ := fun i j => A i j
/-- The leading part as a `Fin`-indexed vector. -/
def toV (n : ℕ) (x : Vec) : Fin n → ℝ := fun i => x i
/-- Back from a `Fin`-indexed vector. -/
def ofV (n : ℕ) (x : Fin n → ℝ) : Vec := fun i => if h : i < n then x ⟨i, h⟩ else 0
/-- Back from a Mathlib matrix. -/
def ofM (n : ℕ) (A : Matrix (Fin n) (Fin n) ℝ) : Mat :=
  fun i j => if h : i < n ∧ j < n then A ⟨i, h.1⟩ ⟨j, h.2⟩ else 0

open Classical in
/-- `np.linalg.solve(A, b)` for one `n × n` system: exact solution, `LinAlgError` if singular. -/
noncomputable def npSolve (n : ℕ) (A : Mat) (b : Vec) : Py Vec :=
  if (toM n A).det = 0 then .error .linAlgError
  else .ok (ofV n ((toM n A)⁻¹.mulVec (toV n b)))

open Classical in
/-- `np.linalg.inv(A)` for one `n × n` matrix. -/
noncomputable def npInv (n : ℕ) (A : Mat) : Py Mat :=
  if (toM n A).det = 0 then .error .linAlgError else .ok (ofM n (toM n A)⁻¹)

open Classical in
/-- Batched `np.linalg.solve` on `k` systems: raises if any is singular. -/
noncomputable def npSolveBatch (k n : ℕ) (A : ℕ → Mat) (b : ℕ → Vec) : Py (ℕ → Vec) :=
  if ∃ t < k, (toM n (A t)).det = 0 then .error .linAlgError
  else .ok (fun t => ofV n ((toM n (A t))⁻¹.mulVec (toV n (b t))))

open Classical in
/-- Batched `np.linalg.inv` on `k` matrices: raises if any is singular. -/
noncomputable def npInvBatch (k n : ℕ) (A : ℕ → Mat) : Py (ℕ → Mat) :=
  if ∃ t < k, (toM n (A t)).det = 0 then .error .linAlgError
  else .ok (fun t => ofM n (toM n (A t))⁻¹)

end Pydisort

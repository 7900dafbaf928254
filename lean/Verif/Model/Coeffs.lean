import Verif.NumPy
import Verif.Model.MathscrV
import Mathlib.Analysis.SpecialFunctions.Exp
import Mathlib.Analysis.SpecialFunctions.Trigonometric.Basic

/-!
# Model of `_solve_for_coeffs.py`
-/

namespace Pydisort
open Finset

/-- A Dirichlet boundary condition as supplied by the caller: a scalar, a rank-1 or a rank-2 array. -/
inductive BCv where
  | scalar (x : ℝ)
  | vec (v : A1 ℝ)
  | mat (v : A2 ℝ)

/-- Value returned by a BDRF function: a scalar or a rank-2 array. (Simplification: a BDRF function
returning an array of another rank is not modelled.) -/
inductive BOut where
  | scalar (x : ℝ)
  | arr (v : A2 ℝ)

/-- One element of `BDRF_Fourier_modes`: a number or a function of `(mu, -mu_p)`. -/
inductive BDRFMode where
  | scalar (rho : ℝ)
  | func (f : A1 ℝ → A1 ℝ → BOut)

/-- Arguments of `_solve_for_coeffs` (lines 8-29). `NQuad` is `2 * N`, `NBDRF` is the length of `bdrf`,
`is_atmos_multilayered` is `NLayers > 1` (`pydisort.py` 217), `useBanded` is
`NLayers >= use_banded_solver_NLayers` (line 79). -/
structure CoefIn where
  NFourier : ℕ
  G : ℕ → ℕ → Mat
  K : ℕ → ℕ → Vec
  B : ℕ → ℕ → Vec
  Gim : ℕ → Vec
  tau0 : Vec
  mu : Vec
  muW : Vec
  N : ℕ
  NLayers : ℕ
  bdrf : List BDRFMode
  mu0 : ℝ
  I0div4pi : ℝ
  beam : Bool
  bpos : BCv
  bneg : BCv
  bposScalar : Bool
  bnegScalar : Bool
  bposVector : Bool
  bnegVector : Bool
  Nscoeffs : ℕ
  s : Mat
  iso : Bool
  useBanded : Bool

/-- Lines 142-149 (and 151-158) together with the assignment into a slice of length `N` (161, 163):
the boundary condition of mode `m`. Assigning an array into a rank-1 slice drops leading axes of size
one and then broadcasts. -/
def bcMode (N m : ℕ) (isScalar isVector : Bool) (b : BCv) : Py Vec :=
  if isScalar = true ∧ m = 0 then
    match b with
    | .scalar x => .ok fun _ => x
    | .vec v => assign1 N v
    | .mat v => if v.r = 1 then assign1 N ⟨v.c, v.get 0⟩ else .error .shapeError
  else if isVector = true ∧ m = 0 then
    match b with
    | .scalar x => .ok fun _ => x
    | .vec v => assign1 N v
    | .mat v => if v.r = 1 then assign1 N ⟨v.c, v.get 0⟩ else .error .shapeError
  else if (isScalar = true ∨ isVector = true) ∧ m ≠ 0 then .ok fun _ => 0
  else
    match b with
    | .scalar _ => .error .typeError
    | .vec _ => .error .indexError
    | .mat v => if m < v.c then assign1 N ⟨v.r, fun i => v.get i m⟩ else .error .indexError

/-- Lines 121-130, `R` of mode `m`: `none` when there is no BDRF mode. `1 + m_equals_0 * 1` is 2 for
`m = 0` and 1 otherwise. A value of shape `(r, c)` is used in `R @ …` and then combined with arrays of
`N` rows; every combination of `r`, `c` outside `{1, N}` fails somewhere with a shape error. -/
def coefR (I : CoefIn) (m : ℕ) : Py (Option Mat) :=
  match I.bdrf[m]? with
  | none => .ok none
  | some (.scalar rho) => .ok (some fun _ j => ((1 + if m = 0 then 1 else 0) * rho) * I.muW j)
  | some (.func f) =>
    match f ⟨I.N, I.mu⟩ ⟨I.N, I.mu⟩ with
    | .scalar x => .ok (some fun _ j => ((1 + if m = 0 then 1 else 0) * x) * I.muW j)
    | .arr v =>
      if (v.r = 1 ∨ v.r = I.N) ∧ (v.c = 1 ∨ v.c = I.N) then
        .ok (some fun i j => ((1 + if m = 0 then 1 else 0) * v.get (bix v.r i) (bix v.c j)) * I.muW j)
      else .error .shapeError

/-- Lines 126-134, `mathscr_X_pos` of mode `m` (only evaluated with a beam and a BDRF mode). Indexing a
scalar result with `[:, 0]` (132-134) raises. -/
noncomputable def coefX (I : CoefIn) (m : ℕ) : Py Vec :=
  if I.beam = true then
    match I.bdrf[m]? with
    | none => .ok fun _ => 0
    | some (.scalar rho) => .ok fun _ => (I.mu0 * I.I0div4pi * 4) * rho
    | some (.func f) =>
      match f ⟨I.N, I.mu⟩ ⟨1, fun _ => I.mu0⟩ with
      | .scalar _ => .error .typeError
      | .arr v =>
        if v.c = 0 then .error .indexError
        else if v.r = 1 ∨ v.r = I.N then .ok fun i => (I.mu0 * I.I0div4pi * 4) * v.get (bix v.r i) 0
        else .error .shapeError
  else .ok fun _ => 0

namespace CoefIn
variable (I : CoefIn)

/-- Line 80. -/
def dim : ℕ := I.NLayers * (2 * I.N)

/-- `_mathscr_v` for layer `l` at depth `tau`, row `q` of the full eigenvector matrix. The calls on
lines 170-231 select rows `N:` or `:N` and single layers or ranges of layers. -/
noncomputable def vIso (l : ℕ) (tau : ℝ) (q : ℕ) : ℝ :=
  mathscrV (2 * I.N) I.Nscoeffs (I.s l) (I.G 0 l) (I.K 0 l) (I.Gim l) tau q

/-- Lines 160-166. -/
def rhsBC (bneg bpos : Vec) (r : Vec) : Vec :=
  setSlice (setSlice (setSlice r 0 I.N bneg) (I.dim - I.N) I.dim bpos) I.N (I.dim - I.N) (fun _ => 0)

/-- Lines 168-232. In `.ravel(order='F')` of a `(NQuad, NLayers-1)` array entry `r` is
`[r % NQuad, r / NQuad]`. -/
noncomputable def rhsIso (R : Option Mat) (r : Vec) : Vec :=
  let r := addSlice r 0 I.N (fun i => -I.vIso 0 0 (I.N + i))
  let r := if I.NLayers > 1 then
      addSlice r I.N (I.dim - I.N) (fun i =>
        I.vIso (i / (2 * I.N) + 1) (I.tau0 (i / (2 * I.N) + 1)) (i % (2 * I.N))
        - I.vIso (i / (2 * I.N)) (I.tau0 (i / (2 * I.N) + 1)) (i % (2 * I.N)))
    else r
  let r := addSlice r (I.dim - I.N) I.dim (fun i => -I.vIso (I.NLayers - 1) (I.tau0 I.NLayers) i)
  match R with
  | none => r
  | some R => addSlice r (I.dim - I.N) I.dim (fun i => ∑ q ∈ range I.N, R i q *
      I.vIso (I.NLayers - 1) (I.tau0 I.NLayers) (I.N + q))

/-- Lines 234-254. In `.ravel()` of a `(NLayers-1, NQuad)` array entry `r` is
`[r / NQuad, r % NQuad]`. -/
noncomputable def rhsBeam (m : ℕ) (R : Option Mat) (X : Vec) (r : Vec) : Vec :=
  let r := addSlice r 0 I.N (fun i => -I.B m 0 (I.N + i))
  let r := if I.NLayers > 1 then
      addSlice r I.N (I.dim - I.N) (fun i =>
        (I.B m (i / (2 * I.N) + 1) (i % (2 * I.N)) - I.B m (i / (2 * I.N) + 1 - 1) (i % (2 * I.N)))
          * Real.exp (-I.tau0 (i / (2 * I.N) + 1) / I.mu0))
    else r
  match R with
  | some R => addSlice r (I.dim - I.N) I.dim (fun i =>
      (X i + ∑ q ∈ range I.N, R i q * I.B m (I.NLayers - 1) (I.N + q) - I.B m (I.NLayers - 1) i)
        * Real.exp (-I.tau0 I.NLayers / I.mu0))
  | none => addSlice r (I.dim - I.N) I.dim (fun i =>
      -(I.B m (I.NLayers - 1) i * Real.exp (-I.tau0 I.NLayers / I.mu0)))

/-- Lines 160-254: the right-hand side of mode `m`, written over the previous content `r`. -/
noncomputable def rhs (m : ℕ) (bneg bpos : Vec) (R : Option Mat) (X : Vec) (r : Vec) : Vec :=
  let r := I.rhsBC bneg bpos r
  let r := if m = 0 ∧ I.iso = true then I.rhsIso R r else r
  if I.beam = true then I.rhsBeam m R X r else r

/-- Line 264: `E_01`. -/
noncomputable def E01 (m : ℕ) : Vec := fun j => Real.exp (I.K m 0 j * I.tau0 1)
/-- Lines 271-273: `E_Lm1L`. -/
noncomputable def ELm1L (m : ℕ) : Vec := fun j =>
  Real.exp (I.K m (I.NLayers - 1) j * (I.tau0 I.NLayers - I.tau0 (I.NLayers - 1)))
/-- Lines 311 and 368: `E_lm1l`. -/
noncomputable def Elm1l (m l : ℕ) : Vec := fun j =>
  Real.exp (I.K m l (I.N + j) * (I.tau0 l - I.tau0 (l + 1)))
/-- Lines 312 and 369: `E_llp1`. -/
noncomputable def Ellp1 (m l : ℕ) : Vec := fun j =>
  Real.exp (I.K m (l + 1) (I.N + j) * (I.tau0 (l + 1) - I.tau0 (l + 2)))

/-- Lines 288-293 and 344-349: the two bottom blocks, left. -/
noncomputable def botL (m : ℕ) (R : Option Mat) : Mat := fun i j =>
  match R with
  | some R => (I.G m (I.NLayers - 1) i j
      - ∑ q ∈ range I.N, R i q * I.G m (I.NLayers - 1) (I.N + q) j) * I.ELm1L m j
  | none => I.G m (I.NLayers - 1) i j * I.ELm1L m j
/-- Lines 288-293 and 344-349: the two bottom blocks, right. -/
noncomputable def botR (m : ℕ) (R : Option Mat) : Mat := fun i j =>
  match R with
  | some R => I.G m (I.NLayers - 1) i (I.N + j)
      - ∑ q ∈ range I.N, R i q * I.G m (I.NLayers - 1) (I.N + q) (I.N + j)
  | none => I.G m (I.NLayers - 1) i (I.N + j)

/-- Lines 353-380: one iteration of the interlayer loop, dense storage. -/
noncomputable def denseInter (m l : ℕ) (A : Mat) : Mat :=
  let N := I.N
  let sr := N + l * (2 * N)
  let sc := l * (2 * N)
  let A := setBlock A sr (N + sr) sc (N + sc) (fun i j => I.G m l i j * I.Elm1l m l j)
  let A := setBlock A (N + sr) (2 * N + sr) sc (N + sc) (fun i j => I.G m l (N + i) j * I.Elm1l m l j)
  let A := setBlock A sr (2 * N + sr) (N + sc) (2 * N + sc) (fun i j => I.G m l i (N + j))
  let A := setBlock A sr (2 * N + sr) (2 * N + sc) (3 * N + sc) (fun i j => -I.G m (l + 1) i j)
  let A := setBlock A sr (N + sr) (3 * N + sc) (4 * N + sc)
    (fun i j => -I.G m (l + 1) i (N + j) * I.Ellp1 m l j)
  setBlock A (N + sr) (2 * N + sr) (3 * N + sc) (4 * N + sc)
    (fun i j => -I.G m (l + 1) (N + i) (N + j) * I.Ellp1 m l j)

/-- Lines 340-380: the matrix of mode `m`, written over the previous content `A`. -/
noncomputable def dense (m : ℕ) (R : Option Mat) (A : Mat) : Mat :=
  let N := I.N
  let A := setBlock A 0 N 0 N (fun i j => I.G m 0 (N + i) j)
  let A := setBlock A 0 N N (2 * N) (fun i j => I.G m 0 (N + i) (N + j) * I.E01 m j)
  let A := setBlock A (I.dim - N) I.dim (I.dim - 2 * N) (I.dim - N) (I.botL m R)
  let A := setBlock A (I.dim - N) I.dim (I.dim - N) I.dim (I.botR m R)
  forRange (I.NLayers - 1) (fun l A => I.denseInter m l A) A

/-- Number of rows of `LHS_dof` (line 89), its leading dimension in memory (`order="F"`). -/
def ld : ℤ := 6 * (I.N : ℤ) - 1

/-- Start of a Python slice `a:…` of an axis of length `n`. -/
def pyStart (a n : ℤ) : ℤ := if a < 0 then max (a + n) 0 else min a n

/-- Lines 93-105: address (in elements, from the start of `LHS_dof`) of entry `[p, q]` of
`_view_slanted(i0, j0, nrows)`: the base pointer is that of the slice `LHS_dof[r0:, j0:]`, the strides
are `s0` (one element) and `s1 - s0` (`ld - 1` elements). -/
def slantAddr (i0 j0 : ℕ) (p q : ℕ) : ℤ :=
  pyStart (3 * (I.N : ℤ) - 1 + i0 - j0) I.ld + pyStart j0 I.dim * I.ld + p + q * (I.ld - 1)

open Classical in
/-- Lines 93-105: `_view_slanted(i0, j0, nrows)[:] = V`. Raw memory is addressed by integers; an
out-of-bounds address is a memory error in the real program. -/
noncomputable def writeSlanted (mem : ℤ → ℝ) (i0 j0 nrows : ℕ) (V : Mat) : ℤ → ℝ := fun a =>
  if h : ∃ pq : ℕ × ℕ, pq.1 < nrows ∧ pq.2 < I.N ∧ I.slantAddr i0 j0 pq.1 pq.2 = a
  then V h.choose.1 h.choose.2 else mem a

/-- Lines 297-323: one iteration of the interlayer loop, banded storage. -/
noncomputable def bandInter (m l : ℕ) (A : ℤ → ℝ) : ℤ → ℝ :=
  let N := I.N
  let sr := N + l * (2 * N)
  let sc := l * (2 * N)
  let A := I.writeSlanted A sr sc N (fun i j => I.G m l i j * I.Elm1l m l j)
  let A := I.writeSlanted A (sr + N) sc N (fun i j => I.G m l (N + i) j * I.Elm1l m l j)
  let A := I.writeSlanted A sr (sc + N) (2 * N) (fun i j => I.G m l i (N + j))
  let A := I.writeSlanted A sr (sc + 2 * N) (2 * N) (fun i j => -I.G m (l + 1) i j)
  let A := I.writeSlanted A sr (sc + 3 * N) N (fun i j => -I.G m (l + 1) i (N + j) * I.Ellp1 m l j)
  I.writeSlanted A (sr + N) (sc + 3 * N) N (fun i j => -I.G m (l + 1) (N + i) (N + j) * I.Ellp1 m l j)

/-- Lines 280-323: the banded matrix of mode `m`, written over the previous memory `A`. -/
noncomputable def band (m : ℕ) (R : Option Mat) (A : ℤ → ℝ) : ℤ → ℝ :=
  let N := I.N
  let A := I.writeSlanted A 0 0 N (fun i j => I.G m 0 (N + i) j)
  let A := I.writeSlanted A 0 N N (fun i j => I.G m 0 (N + i) (N + j) * I.E01 m j)
  let A := I.writeSlanted A (I.dim - N) (I.dim - 2 * N) N (I.botL m R)
  let A := I.writeSlanted A (I.dim - N) (I.dim - N) N (I.botR m R)
  forRange (I.NLayers - 1) (fun l A => I.bandInter m l A) A

/-- `scipy.linalg.solve_banded((u, u), ab, b)`, `u = 3N - 1`: the matrix it solves with has
entry `ab[u + i - j, j]` at `(i, j)` for `|i - j| ≤ u` and zero elsewhere. -/
def bandMat (mem : ℤ → ℝ) : Mat := fun i j =>
  if (i : ℤ) - j ≤ 3 * (I.N : ℤ) - 1 ∧ (j : ℤ) - i ≤ 3 * (I.N : ℤ) - 1 then
    mem (3 * (I.N : ℤ) - 1 + i - j + j * I.ld) else 0

end CoefIn

/-- State of the loop over modes: `RHS` and `C_collect` are created by `np.empty`; `LHS` (or `LHS_dof`)
is zero-initialised and reused for every mode (lines 81-108). -/
structure CoefState where
  RHS : Vec
  LHS : Mat
  dof : ℤ → ℝ
  C : ℕ → Vec

/-- Lines 111-388: one pass through the loop over Fourier modes. `solve_banded` is called with
`overwrite_ab=False, overwrite_b=True` (lines 326-333), so `RHS` afterwards is arbitrary: `junk m`. -/
noncomputable def coefBody (I : CoefIn) (junk : ℕ → Vec) (m : ℕ) (st : CoefState) : Py CoefState := do
  let R ← coefR I m
  let X ← coefX I m
  let bpos ← bcMode I.N m I.bposScalar I.bposVector I.bpos
  let bneg ← bcMode I.N m I.bnegScalar I.bnegVector I.bneg
  let r := I.rhs m bneg bpos R X st.RHS
  if I.useBanded = true then
    let A := I.band m R st.dof
    let x ← npSolve I.dim (I.bandMat A) r
    return { st with RHS := junk m, dof := A, C := Function.update st.C m x }
  else
    let A := I.dense m R st.LHS
    let x ← npSolve I.dim A r
    return { st with RHS := r, LHS := A, C := Function.update st.C m x }

/-- `for i in range(n)` with exceptions. -/
def forRangeM {σ : Type} (n : ℕ) (f : ℕ → σ → Py σ) (s : σ) : Py σ :=
  match n with
  | 0 => .ok s
  | n + 1 => do f n (← forRangeM n f s)

/-- `_solve_for_coeffs`: returns `GC_collect` (line 390). `j` holds the uninitialised buffers. -/
noncomputable def solveCoeffs (I : CoefIn) (j : CoefState) (junk : ℕ → Vec) : Py (ℕ → ℕ → Mat) := do
  let st ← forRangeM I.NFourier (coefBody I junk) ⟨j.RHS, fun _ _ => 0, fun _ => 0, j.C⟩
  return fun m l i k => I.G m l i k * st.C m (l * (2 * I.N) + k)

end Pydisort

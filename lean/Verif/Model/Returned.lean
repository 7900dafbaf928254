import Verif.Model.Pydisort

/-!
# The arrays that the returned functions hand to the caller

The evaluation functions of `Solved` give arrays before the final `np.squeeze`, for `autograd_compatible = False`. Here the last steps are
modelled literally, for both values of `autograd_compatible`: the squeezes, the sum of squeezed arrays with NumPy's broadcasting, in-place
additions to slices (`autograd_compatible = False`) or concatenations (`autograd_compatible = True`), and the tests
that skip an addition.

`autograd_compatible = True` also replaces `numpy` by `autograd.numpy`, whose functions are assumed to compute what NumPy's compute.
-/

namespace Pydisort
open Finset

/-! ## NumPy -/

/-- Broadcasting of two shapes given in reverse order: axes are aligned from the right. -/
def bshapeRev : List ℕ → List ℕ → Py (List ℕ)
  | [], ys => .ok ys
  | x :: xs, [] => .ok (x :: xs)
  | x :: xs, y :: ys => do
    let d ← bdim x y
    let ds ← bshapeRev xs ys
    return d :: ds

/-- The index that a broadcast access at `ix` reads in an array of shape `s`. -/
def bread (s ix : List ℕ) : List ℕ := List.zipWith bix s (ix.drop (ix.length - s.length))

/-- Elementwise binary operation with broadcasting. -/
def ND.bin {α β γ : Type} (f : α → β → γ) (a : ND α) (b : ND β) : Py (ND γ) := do
  let s ← bshapeRev a.shape.reverse b.shape.reverse
  return ⟨s.reverse, fun ix => f (a.get (bread a.shape ix)) (b.get (bread b.shape ix))⟩

/-- Elementwise map. -/
def ND.map {α β : Type} (f : α → β) (a : ND α) : ND β := ⟨a.shape, fun ix => f (a.get ix)⟩

/-- A rank-1 array. -/
def A1.toND {α : Type} (a : A1 α) : ND α := ⟨[a.n], fun ix => a.get (ix.getD 0 0)⟩
/-- A rank-2 array. -/
def A2.toND {α : Type} (a : A2 α) : ND α := ⟨[a.r, a.c], fun ix => a.get (ix.getD 0 0) (ix.getD 1 0)⟩
/-- A rank-3 array. -/
def A3.toND {α : Type} (a : A3 α) : ND α :=
  ⟨[a.d0, a.d1, a.d2], fun ix => a.get (ix.getD 0 0) (ix.getD 1 0) (ix.getD 2 0)⟩

/-- Elementwise binary operation on rank-3 arrays with broadcasting. -/
def A3.bin {α β γ : Type} (f : α → β → γ) (a : A3 α) (b : A3 β) : Py (A3 γ) := do
  let d0 ← bdim a.d0 b.d0
  let d1 ← bdim a.d1 b.d1
  let d2 ← bdim a.d2 b.d2
  return ⟨d0, d1, d2, fun i j k =>
    f (a.get (bix a.d0 i) (bix a.d1 j) (bix a.d2 k)) (b.get (bix b.d0 i) (bix b.d1 j) (bix b.d2 k))⟩

/-- `a[lo:hi, :, :]` (for `hi` at most the length). -/
def A3.rows {α : Type} (a : A3 α) (lo hi : ℕ) : A3 α := ⟨hi - lo, a.d1, a.d2, fun i => a.get (lo + i)⟩

/-- `np.concatenate((a, b), axis=0)`: the other axes must have the same lengths. -/
def A3.cat {α : Type} (a b : A3 α) : Py (A3 α) :=
  if a.d1 = b.d1 ∧ a.d2 = b.d2 then
    .ok ⟨a.d0 + b.d0, a.d1, a.d2, fun i => if i < a.d0 then a.get i else b.get (i - a.d0)⟩
  else .error .shapeError

/-- `a[lo:hi, :, :] += b`: in place, so that the shape of the slice must not change. -/
def A3.addRows (a : A3 ℝ) (lo hi : ℕ) (b : A3 ℝ) : Py (A3 ℝ) := do
  let c ← A3.bin (fun x y => x + y) (a.rows lo hi) b
  if c.d0 = hi - lo ∧ c.d1 = a.d1 ∧ c.d2 = a.d2 then
    return ⟨a.d0, a.d1, a.d2, fun i => if lo ≤ i ∧ i < hi then c.get (i - lo) else a.get i⟩
  else .error .shapeError

/-- Addition of `b` to the first `n` rows: `np.concatenate((a[:n] + b, a[n:]), axis=0)` with `autograd_compatible`, `a[:n] += b` without. -/
def A3.addFirst (ag : Bool) (a : A3 ℝ) (n : ℕ) (b : A3 ℝ) : Py (A3 ℝ) :=
  if ag = true then do
    let x ← A3.bin (fun x y => x + y) (a.rows 0 n) b
    A3.cat x (a.rows n a.d0)
  else a.addRows 0 n b

/-- Addition of `b` to the rows from the `n`-th on: `np.concatenate((a[:n], a[n:] + b), axis=0)` with `autograd_compatible`, `a[n:] += b` without. -/
def A3.addLast (ag : Bool) (a : A3 ℝ) (n : ℕ) (b : A3 ℝ) : Py (A3 ℝ) :=
  if ag = true then do
    let x ← A3.bin (fun x y => x + y) (a.rows n a.d0) b
    A3.cat (a.rows 0 n) x
  else a.addRows n a.d0 b

/-! ## The corrections -/

namespace NTIn
variable (I : NTIn)

/-- Lines 484-487: the contribution of the layer itself. -/
noncomputable def tmsSelf (tau : A1 ℝ) (nu : A2 ℝ) (anti : Bool) (l : ℕ → ℕ) : A3 ℝ :=
  ⟨2 * I.N, tau.n, nu.c, fun i t p => I.tmsB i (l t) (nu.get i p) * I.tmsOwn anti (l t) (I.st (l t) (tau.get t)) i⟩

/-- Lines 538-541: `tmp`. -/
noncomputable def tmsBelow (tau : A1 ℝ) (nu : A2 ℝ) (anti : Bool) (l : ℕ → ℕ) : A3 ℝ :=
  ⟨I.N, tau.n, nu.c, fun i t p => I.Rpos anti i (l t) * Real.exp (I.M_inv i * (I.st (l t) (tau.get t) - I.tau0 (l t + 1)))
    * I.tmsB i (l t) (nu.get i p)⟩

/-- Lines 581-584: `tmp`. -/
noncomputable def tmsAbove (tau : A1 ℝ) (nu : A2 ℝ) (anti : Bool) (l : ℕ → ℕ) : A3 ℝ :=
  ⟨I.N, tau.n, nu.c, fun i t p => I.Rneg anti i (l t) * Real.exp (I.M_inv i * (I.tau0 (l t) - I.st (l t) (tau.get t)))
    * I.tmsB (I.N + i) (l t) (nu.get (I.N + i) p)⟩

open Classical in
/-- Lines 409-596: `TMS_correction` with the tests `any_pos = l.min() < NLayers - 1` and `any_neg = l.max() > 0` (490-491) and the two ways of
adding the contributions of the other layers (543-546, 586-589). -/
noncomputable def tmsLit (ag : Bool) (tau phi : A1 ℝ) (anti : Bool) (l : ℕ → ℕ) : Py (A3 ℝ) := do
  let nu ← I.nuTMS phi
  if tau.n = 0 then .error (.valueError "need at least one array to concatenate")
  else if I.NLayers > 1 then
    (if ∃ t < tau.n, l t < I.NLayers - 1 then A3.addFirst ag (I.tmsSelf tau nu anti l) I.N (I.tmsBelow tau nu anti l)
      else .ok (I.tmsSelf tau nu anti l) : Py (A3 ℝ)) >>= fun sol =>
    if ∃ t < tau.n, 0 < l t then A3.addLast ag sol I.N (I.tmsAbove tau nu anti l) else .ok sol
  else .ok (I.tmsSelf tau nu anti l)

/-- Lines 661-687. -/
noncomputable def corrLit (ag : Bool) (tau phi : A1 ℝ) (anti : Bool) (l : ℕ → ℕ) : Py (A3 ℝ) := do
  let a ← I.tmsLit ag tau phi anti l
  let b ← I.ims tau phi anti
  A3.addLast ag a I.N b

end NTIn

/-! ## The intensity -/

namespace AsmIn
variable (I : AsmIn)

/-- Lines 205-254 of `_assemble_intensity_and_fluxes.py`: `um`, axes mode, `mu`, `tau`. -/
noncomputable def umLit (ag : Bool) (S : Sols) (tau : A1 ℝ) (anti : Bool) : Py (A3 ℝ) :=
  let um : A3 ℝ := ⟨I.NFourier, 2 * I.N, tau.n, fun m i t =>
    if anti = true then I.umAnti S m i (tau.get t) else I.umPlain S m i (tau.get t)⟩
  if I.iso = true then do
    let v ← I.isoPart S tau anti 0 (2 * I.N)
    if I.NFourier = 1 then A3.bin (fun x y => x + y) um ⟨1, v.r, v.c, fun _ => v.get⟩
    else A3.addFirst ag um 1 ⟨1, v.r, v.c, fun _ => v.get⟩
  else .ok um

/-- Lines 170-262 of `_assemble_intensity_and_fluxes.py`, with the squeeze on line 262. -/
noncomputable def uLit (ag : Bool) (S : Sols) (tau phi : A1 ℝ) (anti : Bool) : Py (ND ℝ) := do
  I.checkTau tau
  let um ← I.umLit ag S tau anti
  let u : A3 ℝ := ⟨um.d1, um.d2, phi.n, fun i t p =>
    ∑ m ∈ range um.d0, um.get m i t * Real.cos ((m : ℝ) * (I.phi0 - phi.get p))⟩
  return u.toND.squeeze.map fun x => I.rescale * x

end AsmIn

namespace Solved
variable (R : Solved)

/-- What `u(tau, phi, is_antiderivative_wrt_tau)` returns for `autograd_compatible = ag`: lines 375-726 of `pydisort.py`, in particular 643-694. -/
noncomputable def uReturned (ag : Bool) (tau phi : A1 ℝ) (anti : Bool) : Py (ND ℝ) :=
  if R.onlyFlux = true then .error .typeError
  else match R.nt with
    | some n => do
      let x ← R.I.uLit ag R.S tau phi anti
      let c ← n.corrLit ag tau phi anti (fun t => R.I.layer (tau.get t))
      ND.bin (fun x y => x + y) x (c.toND.squeeze.map fun y => R.I.rescale * y)
    | none => R.I.uLit ag R.S tau phi anti

/-- What `u0(tau, is_antiderivative_wrt_tau)` returns: line 425 of `_assemble_intensity_and_fluxes.py`. -/
noncomputable def u0Returned (tau : A1 ℝ) (anti : Bool) : Py (ND ℝ) := do
  let a ← R.u0 tau anti
  return a.toND.squeeze

/-- What `flux_up(tau, is_antiderivative_wrt_tau)` returns: line 524 of `_assemble_intensity_and_fluxes.py`. -/
noncomputable def fluxUpReturned (tau : A1 ℝ) (anti : Bool) : Py (ND ℝ) := do
  let a ← R.fluxUp tau anti
  return a.toND.squeeze

/-- What `flux_down(tau, is_antiderivative_wrt_tau)` returns: lines 610-613 of `_assemble_intensity_and_fluxes.py`. (Without a beam
the direct flux is a scalar.) -/
noncomputable def fluxDownReturned (tau : A1 ℝ) (anti : Bool) : Py (ND ℝ × ND ℝ) := do
  let a ← R.fluxDown tau anti
  return (a.1.toND.squeeze, if a.2.2 = true then a.2.1.toND.squeeze else ⟨[], fun _ => a.2.1.get 0⟩)

end Solved
end Pydisort

import Verif.Model.Pydisort

/-!
# Model: Legendre coefficients passed as integers

`np.atleast_2d(Leg_coeffs_all)` (line 186 of `pydisort.py`) keeps the dtype of the coefficients. Everything the package computes from them is a float, with one exception: `Leg_coeffs_residue` is a copy
of the caller's array (line 605), and the fractions `f_arr` are assigned to its columns (line 606). An assignment to an array of integers truncates.
-/

namespace Pydisort
open Finset

/-- Conversion of a float to an integer when it is assigned to an element of an integer array: towards zero. -/
noncomputable def truncZ (x : ℝ) : ℤ := if 0 ≤ x then ⌊x⌋ else ⌈x⌉

/-- The arguments with the Legendre coefficients replaced by the values of integers. -/
def Args.withIntLeg (a : Args) (L : A2 ℤ) : Args := { a with leg := ⟨L.r, L.c, fun i j => (L.get i j : ℝ)⟩ }

namespace NTIn
variable (I : NTIn)

/-- Lines 605-610 of `pydisort.py`, as in `residueAvg`, for an integer array `Leg_coeffs_all`: the columns assigned on line 606 hold truncated fractions, the other columns hold integers already. -/
noncomputable def residueAvgInt (j : ℕ) : ℝ :=
  (∑ k ∈ range I.NLayers, (if j < I.NLeg then (truncZ (I.f k) : ℝ) else I.legAll k j) * I.omega k * I.tauArr k) / I.sum2

/-- Lines 630-638, as in `imsFac`. -/
noncomputable def imsFacInt (nu : ℝ) : ℝ :=
  I.I0div4pi * (I.omegaAvg * I.fAvg) ^ 2 / (1 - I.omegaAvg * I.fAvg)
    * legSeries I.NLegAll (fun k => (2 * (k : ℝ) + 1) * (2 * I.residueAvgInt k - I.residueAvgInt k ^ 2)) nu

/-- Lines 613-638, as in `ims`. -/
noncomputable def imsInt (tau phi : A1 ℝ) (anti : Bool) : Py (A3 ℝ) := do
  let nu ← I.nuIMS phi
  let r ← bdim nu.r I.N
  return ⟨r, tau.n, nu.c, fun i t p =>
    I.imsFacInt (nu.get (bix nu.r i) p) * imsChi anti (I.mu (bix I.N i)) I.scaledMu0 (tau.get t)⟩

/-- Lines 661-687, as in `corr`. -/
noncomputable def corrInt (tau phi : A1 ℝ) (anti : Bool) (l : ℕ → ℕ) : Py (A3 ℝ) := do
  let a ← I.tms tau phi anti l
  let b ← I.imsInt tau phi anti
  let r ← bdim b.d0 I.N
  let c ← bdim b.d2 a.d2
  if r = I.N ∧ c = a.d2 then
    return ⟨a.d0, a.d1, a.d2, fun i t p =>
      if i < I.N then a.get i t p else a.get i t p + b.get (bix b.d0 (i - I.N)) t (bix b.d2 p)⟩
  else .error .shapeError

end NTIn

namespace Solved
variable (R : Solved)

/-- Lines 643-694 of `pydisort.py`: `u_corrected` after a call with integer Legendre coefficients. -/
noncomputable def uCorrectedIntLeg (n : NTIn) (tau phi : A1 ℝ) (anti : Bool) : Py (A3 ℝ) := do
  let x ← R.uUncorrected tau phi anti
  let c ← n.corrInt tau phi anti (fun t => R.I.layer (tau.get t))
  addSqueezed R.I.rescale x c

/-- The returned function `u` after a call with integer Legendre coefficients. -/
noncomputable def uIntLeg (tau phi : A1 ℝ) (anti : Bool) : Py (A3 ℝ) :=
  if R.onlyFlux = true then .error .typeError
  else match R.nt with
    | some n => R.uCorrectedIntLeg n tau phi anti
    | none => R.uUncorrected tau phi anti

end Solved
end Pydisort

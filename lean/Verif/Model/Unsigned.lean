import Verif.Model.Pydisort

/-!
# Model: layer boundaries passed as unsigned integers

`np.atleast_1d(tau_arr)` (line 184 of `pydisort.py`) keeps the dtype. `np.diff` (line 212) subtracts neighbouring entries, and for unsigned integers the difference is an unsigned integer of the same
width: it wraps around where the depths decrease. `prepend` converts to floats afterwards, and everything else that is done with `tau_arr` gives floats or compares. Hence `thickness_arr` is the only
quantity that differs from what the same depths give as floats. Simplifications: the depths at which the returned functions are evaluated are floats; the depths are exact as floats.
-/

namespace Pydisort
open Finset

/-- The difference `x - y` of unsigned integers of `w` bits. -/
def subU (w x y : ℕ) : ℕ := (x + (2 ^ w - y)) % 2 ^ w

/-- The depths as floats. Entries beyond the array are immaterial; the last entry is repeated. -/
def floatDepths (tau : A1 ℕ) : A1 ℝ := ⟨tau.n, fun k => (tau.get (min k (tau.n - 1)) : ℝ)⟩

namespace Args

/-- The arguments with the depths. -/
def withDepths (a : Args) (tau : A1 ℝ) : Args := { a with tauArr := tau }

variable (w : ℕ) (tau : A1 ℕ) (a : Args)

/-- Line 212, as `thick`. Entries beyond the array are immaterial. -/
def thickU (k : ℕ) : ℝ :=
  if k = 0 then tau.get 0 else if k < tau.n then (subU w (tau.get (k - 1 + 1)) (tau.get (k - 1)) : ℝ) else 0

/-- Lines 223-244, as `checks1`: the second check looks at `thickness_arr`. -/
def checks1U : List (Prop × String) :=
  (a.withDepths (floatDepths tau)).checks1.set 1 (∀ k < tau.n, 0 < thickU w tau k, "Layer thicknesses cannot be non-positive.")

/-- Lines 207-291, as `validate`. -/
noncomputable def validateU : Py Unit :=
  if tau.n = 0 then .error .indexError
  else do
    runChecks (checks1U w tau a)
    runChecks (a.withDepths (floatDepths tau)).checks2

/-- Lines 319-320, as `tau0`. -/
noncomputable def tau0U (k : ℕ) : ℝ := if k = 0 then 0 else cumsum (fun j => a.scale j * thickU w tau j) (k - 1)

/-- Line 325, as `translation`. -/
noncomputable def translationU (k : ℕ) : ℝ :=
  tau0U w tau a k - a.scale k * (if k = 0 then 0 else (floatDepths tau).get (k - 1))

open Classical in
/-- Lines 316-338, as `optics`. Without delta-M scaling `thickness_arr` is not used. -/
noncomputable def opticsU : Py Optics :=
  if ∃ k < a.fArr.n, 0 < a.fArr.get k then do
    let s1 ← affineTransform a.s ⟨tau.n, a.scale⟩ ⟨tau.n, translationU w tau a⟩
    let s2 ← A2.bin (fun x y => x / y) s1 (A1.col ⟨tau.n, a.scale⟩)
    let s3 ← A2.bin (fun x y => x * y) s2 (A1.col ⟨tau.n, fun k => 1 - a.omega.get k⟩)
    return ⟨a.scale, tau0U w tau a, fun k => a.scale k * thickU w tau k,
      fun k => (1 - a.fArr.get k) / a.scale k * a.omega.get k,
      fun l k => ((a.withDepths (floatDepths tau)).legFix l k - a.fArr.get l) / (1 - a.fArr.get l) * (2 * (k : ℝ) + 1), s3⟩
  else (a.withDepths (floatDepths tau)).optics

end Args

/-- Lines 184-371, as `prepare`. -/
noncomputable def prepareU (E : Ext) (w : ℕ) (tau : A1 ℕ) (a : Args) : Py (AsmIn × NTIn) := do
  Args.validateU w tau a
  let q ← (a.withDepths (floatDepths tau)).quad E
  let O ← Args.opticsU w tau a
  let r ← (a.withDepths (floatDepths tau)).rescaleFactor O
  return ((a.withDepths (floatDepths tau)).asmIn q.1.get q.2.get O r, (a.withDepths (floatDepths tau)).ntIn q.1.get O r)

open Classical in
/-- `pydisort` (lines 12-726), as `pydisort`, with `tau_arr` an array of unsigned integers of `w` bits. -/
noncomputable def pydisortU (E : Ext) (J : Junk) (w : ℕ) (tau : A1 ℕ) (a : Args) : Py Solved := do
  let p ← prepareU E w tau a
  let S ← solveAll E J p.1
  return ⟨p.1, S, if (a.withDepths (floatDepths tau)).NTGate then some p.2 else none, a.onlyFlux⟩

end Pydisort

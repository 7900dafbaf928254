import Verif.Model.Pydisort

/-!
# Model of the warnings issued by `pydisort` (`pydisort.py`)
-/

namespace Pydisort
open Finset

/-- The calls of `warnings.warn` in `pydisort.py`. -/
inductive Warning
  /-- Line 247. -/
  | firstCoefficient
  /-- Line 261. -/
  | manyModes
  /-- Line 341. -/
  | albedo
  /-- Lines 343-344. -/
  | coefficients
  deriving DecidableEq

namespace Args
variable (a : Args)

open Classical in
/-- Lines 321 and 336: `scaled_Leg_coeffs`. -/
noncomputable def scaledLeg : Mat := fun l k =>
  if ∃ k < a.fArr.n, 0 < a.fArr.get k then (a.legFix l k - a.fArr.get l) / (1 - a.fArr.get l) else a.legFix l k

open Classical in
/-- `if p: warnings.warn(w)`. -/
noncomputable def _root_.Pydisort.warnIf (p : Prop) (w : Warning) : List Warning := if p then [w] else []

/-- Lines 340-344. The array `scaled_Leg_coeffs` has shape `(NLayers, NLeg)`, `scaled_omega_arr` has length `NLayers`. -/
noncomputable def warnOptics (O : Optics) : List Warning :=
  warnIf (∃ l < a.NLayers, O.omega l > 1 - 1 / 10 ^ 6) .albedo ++
  warnIf ((∃ l < a.NLayers, ∃ k < a.nLeg.toNat, 1 ≤ k ∧ -(95 / 100) > a.scaledLeg l k) ∨
    (∃ l < a.NLayers, ∃ k < a.nLeg.toNat, 1 ≤ k ∧ a.scaledLeg l k > 95 / 100)) .coefficients

/-- The warnings issued by a call of `pydisort`, in order. An exception ends the call, so that the warnings of later lines are not issued:
lines 246-248 come after the checks of lines 223-244, lines 260-261 after the first five checks of lines 249-258, lines 340-344 after all
checks and after the scaling. -/
noncomputable def warnings (E : Ext) : List Warning :=
  if a.tauArr.n = 0 then []
  else match runChecks a.checks1 with
    | .error _ => []
    | .ok _ =>
      warnIf (¬ ∀ l < a.NLayers, a.omega.get l * a.leg.get l 0 = a.omega.get l) .firstCoefficient ++
      match runChecks (a.checks2.take 5) with
      | .error _ => []
      | .ok _ =>
        warnIf (a.nFourier > 64 ∧ a.onlyFlux = false) .manyModes ++
        match runChecks (a.checks2.drop 5) with
        | .error _ => []
        | .ok _ =>
          match a.quad E with
          | .error _ => []
          | .ok _ =>
            match a.optics with
            | .error _ => []
            | .ok O => a.warnOptics O

end Args
end Pydisort

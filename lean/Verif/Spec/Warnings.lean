import Verif.Spec.Problem
import Verif.Model.Warnings

/-!
# Specification: when the caller has to be warned
-/

namespace Pydisort.Spec

/-- What each warning says. -/
def Deserved (a : Args) : Warning → Prop
  /- a zeroth Legendre coefficient of a scattering layer is not 1 -/
  | .firstCoefficient => ∃ l < a.tauArr.n, a.omega.get l ≠ 0 ∧ a.leg.get l 0 ≠ 1
  /- more than 64 Fourier modes are used -/
  | .manyModes => 64 < nFourier a
  /- a delta-M scaled single-scattering albedo is very close to one -/
  | .albedo => ∃ l < a.tauArr.n, 1 - 1 / 10 ^ 6 < omegaStar a l
  /- a delta-M scaled Legendre coefficient in use, other than the zeroth, has a magnitude very close to one -/
  | .coefficients => ∃ l < a.tauArr.n, ∃ k, 1 ≤ k ∧ k < nLeg a ∧ 95 / 100 < |legStar a l k|

end Pydisort.Spec

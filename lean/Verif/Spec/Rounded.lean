import Verif.Spec.Float
import Verif.Spec.Validation

/-!
# Specification: inputs given as floating-point numbers
-/

namespace Pydisort.Spec

/-- The optical depths, albedos, peak fractions and Legendre coefficients are numbers of the format. -/
structure Representable (F : Format) (a : Args) : Prop where
  tau : ∀ l < a.tauArr.n, F.Rep (a.tauArr.get l)
  omega : ∀ l < a.tauArr.n, F.Rep (a.omega.get l)
  peak : ∀ l < a.fArr.n, F.Rep (a.fArr.get l)
  leg : ∀ l < a.tauArr.n, ∀ k < a.leg.c, F.Rep (a.leg.get l k)

/-- The unit roundoff of a directed rounding. -/
noncomputable def Format.ulp (F : Format) : ℝ := (2 : ℝ) ^ (1 - (F.p : ℤ))

/-- The smallest positive number of the format. -/
noncomputable def Format.tiny (F : Format) : ℝ := (2 : ℝ) ^ F.emin

end Pydisort.Spec

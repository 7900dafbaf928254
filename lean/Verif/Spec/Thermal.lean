import Verif.Subroutines.Thermal
import Verif.Spec.Tools
import Mathlib.MeasureTheory.Integral.IntervalIntegral.Basic

/-!
# Vocabulary for the thermal helpers
-/

namespace Pydisort.Spec
open Finset

/-- Planck's law for wavenumbers, `c₁ ν³ / (exp(c₂ ν / T) - 1)` with `c₁ = 2·10⁸ h c²`, `c₂ = 100 h c / k`, and its limit 0 at
absolute zero. -/
noncomputable def planckLaw (T nu : ℝ) : ℝ :=
  if T = 0 then 0
  else 2e8 * (6.62607015e-34 * 299792458 ^ 2) * nu ^ 3 / (Real.exp (100 * (6.62607015e-34 * 299792458 / 1.380649e-23) * nu / T) - 1)

/-- Emission in the band `[lo, hi]` at temperature `T`. -/
noncomputable def bandEmission (T lo hi : ℝ) : ℝ := ∫ nu in lo..hi, planckLaw T nu

/-- Contract of `quad_vec`: for an integrand with `n` entries, each continuous on `[lo, hi]`, it returns the integrals. -/
def QuadContract (Q : QuadVec) : Prop :=
  ∀ (f : ℝ → A1 ℝ) (lo hi : ℝ) (n : ℕ), lo ≤ hi → (∀ x, (f x).n = n) → (∀ i < n, ContinuousOn (fun x => (f x).get i) (Set.Icc lo hi)) →
    (Q f lo hi).n = n ∧ ∀ i < n, (Q f lo hi).get i = ∫ x in lo..hi, (f x).get i

/-- The value at `x` of the polynomial in row `l` of an array of coefficients. -/
noncomputable def rowValue (A : A2 ℝ) (l : ℕ) (x : ℝ) : ℝ := polyVal A.c (A.get l) x

end Pydisort.Spec

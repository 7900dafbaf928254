import Verif.Spec.FullSky

/-!
# Specification: averages over azimuth and fluxes of the intensity in all directions
-/

namespace Pydisort.Spec

/-- The intensity `w t μ φ`, averaged over azimuth. -/
noncomputable def azMean (w : ℝ → ℝ → ℝ → ℝ) (t y : ℝ) : ℝ := 1 / (2 * Real.pi) * ∫ ph in (0 : ℝ)..(2 * Real.pi), w t y ph

/-- `∫_0^1 ∫_0^{2π} μ w(μ, φ) dφ dμ`: the energy that crosses a horizontal unit area upwards. -/
noncomputable def upEnergy (w : ℝ → ℝ → ℝ) : ℝ := ∫ y in (0 : ℝ)..1, ∫ ph in (0 : ℝ)..(2 * Real.pi), y * w y ph

/-- `∫_0^1 ∫_0^{2π} μ w(-μ, φ) dφ dμ`: the energy of the diffuse light that crosses a horizontal unit area downwards. -/
noncomputable def downEnergy (w : ℝ → ℝ → ℝ) : ℝ := ∫ y in (0 : ℝ)..1, ∫ ph in (0 : ℝ)..(2 * Real.pi), y * w (-y) ph

end Pydisort.Spec

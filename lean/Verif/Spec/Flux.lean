import Verif.Spec.Field

/-!
# Specification: fluxes

Sections 1.2 and 3.8 of the Comprehensive Documentation.
-/

namespace Pydisort.Spec
open Finset

/-- `flux_down` succeeds; its first entry is the array with values `diffuse`, and its second entry has the value
`direct`, either as an array of the same length or (flag `false`) as a single number. -/
def ReturnsFluxes (x : Py (A1 ℝ × A1 ℝ × Bool)) (n : ℕ) (diffuse direct : ℕ → ℝ) : Prop :=
  ∃ F D flag, x = .ok (F, D, flag) ∧ F.n = n ∧ (∀ t < n, F.get t = diffuse t) ∧
    D.n = (if flag = true then n else 1) ∧ ∀ t < n, D.get (if flag = true then t else 0) = direct t

/-- Hemispheric flux carried by intensities `v i` at the nodes of one hemisphere, `2π Σ_i μ_i w_i v_i`. -/
noncomputable def hemiFlux (a : Args) (mu w : Vec) (v : ℕ → ℝ) : ℝ :=
  2 * Real.pi * ∑ i ∈ range (nHalf a), mu i * w i * v i

/-- Solid-angle integral of the azimuthally averaged intensity `v`, `2π Σ_i w_i v_i` over all streams. -/
noncomputable def actinic (a : Args) (w : Vec) (v : ℕ → ℝ) : ℝ :=
  2 * Real.pi * ∑ i ∈ range (2 * nHalf a), streamW (nHalf a) w i * v i

open Classical in
/-- The delta-M scaled albedo, or zero where scattering is negligible. -/
noncomputable def effAlbedo (a : Args) (l : ℕ) : ℝ :=
  if Significant (omegaStar a l) (nLeg a) (legStar a l) 0 then omegaStar a l else 0

end Pydisort.Spec

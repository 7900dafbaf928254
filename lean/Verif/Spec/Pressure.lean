import Verif.Spec.Flux

/-!
# Specification: radiation pressure
-/

namespace Pydisort.Spec
open Finset

/-- Second moment of the azimuthally averaged intensity `v` over direction, `2π Σ_i w_i μ_i² v_i` over all streams: the flow of
vertical momentum carried by the diffuse light. -/
noncomputable def pressure (a : Args) (mu w : Vec) (v : ℕ → ℝ) : ℝ :=
  2 * Real.pi * ∑ i ∈ range (2 * nHalf a), streamW (nHalf a) w i * (stream (nHalf a) mu i ^ 2 * v i)

open Classical in
/-- Delta-M scaled albedo times scaled asymmetry parameter: the part of the vertical momentum that scattering keeps. Zero where
scattering is negligible and where the expansion of the phase function stops before the asymmetry parameter. -/
noncomputable def effForward (a : Args) (l : ℕ) : ℝ :=
  if Significant (omegaStar a l) (nLeg a) (legStar a l) 0 ∧ 1 < nLeg a then omegaStar a l * legStar a l 1 else 0

end Pydisort.Spec

import Verif.Spec.Bounds

/-!
# Specification: reciprocity and exchange of energy
-/

namespace Pydisort.Spec
open Finset

/-- The sources consist of illumination of the boundaries only. -/
structure BoundaryOnly (a : Args) (S : Sources) : Prop where
  noBeam : S.I0 = 0
  noSource : ∀ l < a.tauArr.n, ∀ t, InLayer a l t → source (under a S) l t = 0

/-- The light of the sources `S`, weighted with the light `u` (azimuthal average at depth `t`, stream `i`) that leaves the atmosphere
through the same boundary in the opposite direction, `Σ_i w_i μ_i (b⁻_i u_i(0) + b⁺_i u_{-i}(τ))`. -/
noncomputable def response (a : Args) (mu w : Vec) (S : Sources) (u : ℝ → ℕ → ℝ) : ℝ :=
  ∑ i ∈ range (nHalf a), w i * mu i * (bcVal S.bneg 0 i * u 0 i + bcVal S.bpos 0 i * u (bottom a) (nHalf a + i))

/-- The surface returns at most what it receives, from each downward direction and from the beam. -/
def LossySurface (a : Args) (mu w : Vec) (rho : ℝ → ℝ → ℝ) : Prop :=
  (∀ j < nHalf a, 2 * ∑ i ∈ range (nHalf a), w i * mu i * rho (mu i) (mu j) ≤ 1) ∧
    2 * ∑ i ∈ range (nHalf a), w i * mu i * rho (mu i) a.mu0 ≤ 1

end Pydisort.Spec

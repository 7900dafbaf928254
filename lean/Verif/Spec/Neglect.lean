import Verif.Spec.Bounds

/-!
# Specification: the equation of the azimuthal mean without the threshold for scattering
-/

namespace Pydisort.Spec
open Finset

/-- `rteUser` of mode zero in which scattering and beam source are never ignored, however weak (compare `Significant`):
`μ_i du_i/dτ = (1 - ω f) (u_i - Σ_j w_j D(μ_i, μ_j) u_j - X(μ_i) e^{-τ*/μ₀}) - (1 - ω) S(τ)`. -/
noncomputable def rteExact (a : Args) (mu w : Vec) (l : ℕ) (t : ℝ) (u : ℕ → ℝ) (i : ℕ) : ℝ :=
  scale a l * rteRHS (nHalf a) mu w (scatD (omegaStar a l) (nLeg a) (legStar a l) 0) (beamX (omegaStar a l) (nLeg a) (legStar a l) a.I0 a.mu0 0)
    a.mu0 0 (tauStar a l t) u i - (1 - a.omega.get l) * source a l t

/-- `V t i` (depth `t`, stream `i`) is a solution for the azimuthal mean in which no scattering is ignored. -/
structure IsExactSolution (a : Args) (mu w : Vec) (rho : ℝ → ℝ → ℝ) (V : ℝ → ℕ → ℝ) : Prop where
  cont : ∀ i < 2 * nHalf a, ContinuousOn (fun t => V t i) (Set.Icc 0 (bottom a))
  ode : ∀ l < a.tauArr.n, ∀ t, bdry a.tauArr.get l < t → t < bdry a.tauArr.get (l + 1) → ∀ i < 2 * nHalf a,
    ∃ d, HasDerivAt (fun x => V x i) d t ∧ stream (nHalf a) mu i * d = rteExact a mu w l t (V t) i
  top : ∀ i < nHalf a, V 0 (nHalf a + i) = bcVal a.bneg 0 i
  bot : ∀ i < nHalf a, V (bottom a) i = bcVal a.bpos 0 i
    + if 0 < a.bdrf.length then reflected a mu w rho 0 (mu i) (fun j => V (bottom a) (nHalf a + j)) else 0

/-- Bound of the error made by ignoring weak scattering, if `B` bounds the intensities: `NLeg 1e-8 (2 B + I₀ / 2π)`. -/
noncomputable def neglected (a : Args) (B : ℝ) : ℝ := (nLeg a : ℝ) / 10 ^ 8 * (2 * B + a.I0 / (2 * Real.pi))

end Pydisort.Spec

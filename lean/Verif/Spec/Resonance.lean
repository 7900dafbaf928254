import Verif.Spec.Solvable

/-!
# Specification: resonance of the beam with the atmosphere
-/

namespace Pydisort.Spec
open Finset

/-- Resonance in Fourier mode `m` of layer `l`: without any source, light can decay with depth exactly as the direct beam does. That is,
`v_i e^{-τ/μ₀}` with some `v ≠ 0` solves `μ_i du_i/dτ = u_i - Σ_j w_j D^m(μ_i, μ_j) u_j`. -/
def Resonant (a : Args) (mu w : Vec) (m l : ℕ) : Prop :=
  Significant (omegaStar a l) (nLeg a) (legStar a l) m ∧ ∃ v : ℕ → ℝ, (∃ i < 2 * nHalf a, v i ≠ 0) ∧
    ∀ i < 2 * nHalf a, stream (nHalf a) mu i * (-(1 / a.mu0) * v i)
      = v i - ∑ j ∈ range (2 * nHalf a), streamW (nHalf a) w j
          * kernel a m l (stream (nHalf a) mu i) (stream (nHalf a) mu j) * v j

/-- The directions `μ₀` from which a beam is resonant in some mode and layer. -/
def resonances (a : Args) (mu w : Vec) : Set ℝ :=
  {x | (0 < x ∧ x ≤ 1) ∧ ∃ m < nFourier a, ∃ l < a.tauArr.n, Resonant { a with mu0 := x } mu w m l}

/-- The same atmosphere without the beam. -/
def withoutBeam (a : Args) : Args := { a with I0 := 0, NTcor := false }

/-- The beam of `a`, apart from resonances, is one that the code supports. -/
structure BeamInRange (E : Ext) (a : Args) : Prop where
  intensity : 0 < a.I0
  direction : 0 < a.mu0 ∧ a.mu0 ≤ 1
  azimuth : 0 ≤ a.phi0 ∧ a.phi0 < 2 * Real.pi
  /-- the quadrature angles keep away from the beam if corrections are requested -/
  angles : a.NTcor = true → ∀ i < nHalf a, 1 / 10 ^ 8 ≤ |node E a i - a.mu0|

end Pydisort.Spec

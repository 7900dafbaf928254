import Verif.Spec.Bounds
import Mathlib.MeasureTheory.Integral.IntervalIntegral.Basic

/-!
# Specification: the transfer equation with all azimuths

The equation of the introduction of the Comprehensive Documentation, before the expansion into Fourier modes: the
polar angle is discretised, the azimuth is continuous.
-/

namespace Pydisort.Spec
open Finset

/-- Cosine of the angle between the directions `(x, φ)` and `(y, φ')`, where `x` and `y` are the cosines of the polar angles. -/
noncomputable def cosAngle (x ph y ph' : ℝ) : ℝ :=
  x * y + Real.sqrt (1 - x ^ 2) * Real.sqrt (1 - y ^ 2) * Real.cos (ph - ph')

/-- The delta-M scaled phase function of layer `l`, truncated to the Legendre coefficients in use, `Σ_ℓ (2ℓ+1) g*_ℓ P_ℓ(ν)`. -/
noncomputable def phase (a : Args) (l : ℕ) (nu : ℝ) : ℝ :=
  ∑ k ∈ range (nLeg a), (2 * (k : ℝ) + 1) * legStar a l k * (legendreP k).eval nu

/-- Right-hand side of the transfer equation in layer `l` at the caller's depth `t` for the intensity `u j φ` (stream `j`,
azimuth `φ`), in stream `i` and azimuth `ph`:
`(1 - ω f) (u - ω*/(4π) ∫∫ p*(ν) u - ω* I₀/(4π) p*(ν₀) e^{-τ*/μ₀}) - (1 - ω) S(τ)`. -/
noncomputable def fullRHS (a : Args) (mu w : Vec) (l : ℕ) (t : ℝ) (u : ℕ → ℝ → ℝ) (i : ℕ) (ph : ℝ) : ℝ :=
  scale a l * (u i ph
    - omegaStar a l / (4 * Real.pi) * (∑ j ∈ range (2 * nHalf a), streamW (nHalf a) w j *
        ∫ ph' in (0 : ℝ)..(2 * Real.pi), phase a l (cosAngle (stream (nHalf a) mu i) ph (stream (nHalf a) mu j) ph') * u j ph')
    - omegaStar a l * a.I0 / (4 * Real.pi) * phase a l (cosAngle (stream (nHalf a) mu i) ph (-a.mu0) a.phi0)
        * Real.exp (-tauStar a l t / a.mu0))
    - (1 - a.omega.get l) * source a l t

/-- The BDRF whose Fourier modes are the supplied ones, `Σ_m ρ^m(x, y) cos (m (φ - φ'))`. -/
noncomputable def bdrfOf (a : Args) (rho : ℕ → ℝ → ℝ → ℝ) (x y dph : ℝ) : ℝ :=
  ∑ m ∈ range a.bdrf.length, rho m x y * Real.cos (m * dph)

/-- Light reflected by the surface into direction `(x, ph)` when the downward intensity is `d j φ'`:
`(1/π) ∫∫ ρ μ' d + μ₀ I₀ / π ρ e^{-τ*/μ₀}`. -/
noncomputable def fullReflected (a : Args) (mu w : Vec) (rho : ℕ → ℝ → ℝ → ℝ) (x ph : ℝ) (d : ℕ → ℝ → ℝ) : ℝ :=
  1 / Real.pi * (∑ j ∈ range (nHalf a), w j * mu j *
      ∫ ph' in (0 : ℝ)..(2 * Real.pi), bdrfOf a rho x (mu j) (ph - ph') * d j ph')
    + a.mu0 * a.I0 / Real.pi * bdrfOf a rho x a.mu0 (ph - a.phi0) * Real.exp (-bdryStar a a.tauArr.n / a.mu0)

/-- The code neglects no scattering: in every layer the coefficients `ω*/2 (2ℓ+1) g*_ℓ` from some `ℓ` on may all be zero,
but they must not all be at most `1e-8` in magnitude without being zero. -/
def NothingNeglected (a : Args) : Prop :=
  ∀ l < a.tauArr.n, ∀ k < nLeg a,
    (∀ k', k ≤ k' → k' < nLeg a → |omegaStar a l / 2 * ((2 * (k' : ℝ) + 1) * legStar a l k')| ≤ 1 / 10 ^ 8) →
    omegaStar a l * legStar a l k = 0

/-- The delta-M scaled and truncated phase function is nowhere negative. -/
def NonnegPhase (a : Args) : Prop := ∀ l < a.tauArr.n, ∀ nu, -1 ≤ nu → nu ≤ 1 → 0 ≤ phase a l nu

/-- The BDRF is nowhere negative, and the surface reflects at most all of a uniform illumination. -/
structure FairBDRF (a : Args) (mu w : Vec) (rho : ℕ → ℝ → ℝ → ℝ) : Prop where
  nonneg : ∀ i < nHalf a, ∀ j < nHalf a, ∀ dph, 0 ≤ bdrfOf a rho (mu i) (mu j) dph
  beam : ∀ i < nHalf a, ∀ dph, 0 ≤ bdrfOf a rho (mu i) a.mu0 dph
  bounded : ∀ i < nHalf a, reflectance a mu w (rho 0) (mu i) ≤ 1

/-- No internal emission and no boundary value is negative. -/
structure NonnegEmission (a : Args) : Prop where
  inner : ∀ l < a.tauArr.n, ∀ t, InLayer a l t → 0 ≤ source a l t
  top : ∀ i < nHalf a, 0 ≤ bcVal a.bneg 0 i
  bottom : ∀ i < nHalf a, 0 ≤ bcVal a.bpos 0 i

end Pydisort.Spec

import Verif.Spec.Azimuth
import Verif.Spec.Continuum

/-!
# Specification: the transfer equation for a continuum of polar and azimuthal angles

The equation of the introduction of the Comprehensive Documentation (`/repo/docs/Pythonic-DISORT.ipynb`) with nothing discretised: the direction is the pair of the cosine `μ` of the
polar angle and the azimuth `φ`, scattered and reflected light are integrals over all directions. Neither streams nor Fourier modes enter.
-/

namespace Pydisort.Spec
open Finset

/-- `∫_{-1}^{1} ∫_0^{2π} p*(ν) w(μ', φ') dφ' dμ'`, with `ν` the cosine of the angle between `(y, ph)` and `(μ', φ')`. -/
noncomputable def skyScatter (a : Args) (l : ℕ) (w : ℝ → ℝ → ℝ) (y ph : ℝ) : ℝ :=
  ∫ z in (-1 : ℝ)..1, ∫ ph' in (0 : ℝ)..(2 * Real.pi), phase a l (cosAngle y ph z ph') * w z ph'

/-- Right-hand side of `μ ∂w/∂τ = …` in layer `l` at the caller's depth `t`:
`(1 - ω f) (w - ω*/(4π) ∫∫ p*(ν) w - ω* I₀/(4π) p*(ν₀) e^{-τ*/μ₀}) - (1 - ω) S(τ)`. -/
noncomputable def skyRHS (a : Args) (l : ℕ) (t : ℝ) (w : ℝ → ℝ → ℝ) (y ph : ℝ) : ℝ :=
  scale a l * (w y ph - omegaStar a l / (4 * Real.pi) * skyScatter a l w y ph
      - omegaStar a l * a.I0 / (4 * Real.pi) * phase a l (cosAngle y ph (-a.mu0) a.phi0) * Real.exp (-tauStar a l t / a.mu0))
    - (1 - a.omega.get l) * source a l t

/-- Light reflected by the surface into direction `(y, ph)`: `(1/π) ∫_0^1 ∫_0^{2π} ρ μ' w(-μ', φ') dφ' dμ' + μ₀ I₀ / π ρ e^{-τ*/μ₀}`. -/
noncomputable def skyReflect (a : Args) (rho : ℕ → ℝ → ℝ → ℝ) (w : ℝ → ℝ → ℝ) (y ph : ℝ) : ℝ :=
  1 / Real.pi * (∫ z in (0 : ℝ)..1, z * ∫ ph' in (0 : ℝ)..(2 * Real.pi), bdrfOf a rho y z (ph - ph') * w (-z) ph')
    + a.mu0 * a.I0 / Real.pi * bdrfOf a rho y a.mu0 (ph - a.phi0) * Real.exp (-bdryStar a a.tauArr.n / a.mu0)

/-- `w t μ φ` is an intensity field that solves the transfer equation of the atmosphere. `down` is the illumination of the top and `up` what the surface emits, as functions of the
cosine of the zenith angle. Nothing is asked of `μ = 0`. -/
structure SkySolution (a : Args) (rho : ℕ → ℝ → ℝ → ℝ) (up down : ℝ → ℝ) (w : ℝ → ℝ → ℝ → ℝ) : Prop where
  bounded : ∃ M, ∀ t ∈ Set.Icc 0 (bottom a), ∀ y ∈ Set.Icc (-1 : ℝ) 1, y ≠ 0 → ∀ ph, |w t y ph| ≤ M
  cont : ContinuousOn (fun p : ℝ × ℝ × ℝ => w p.1 p.2.1 p.2.2) (Set.Icc 0 (bottom a) ×ˢ (Set.Icc (-1) 1 \ {0}) ×ˢ Set.univ)
  periodic : ∀ t ∈ Set.Icc 0 (bottom a), ∀ y ∈ Set.Icc (-1 : ℝ) 1, y ≠ 0 → ∀ ph, w t y (ph + 2 * Real.pi) = w t y ph
  ode : ∀ l < a.tauArr.n, ∀ t, bdry a.tauArr.get l < t → t < bdry a.tauArr.get (l + 1) → ∀ y ∈ Set.Icc (-1 : ℝ) 1, y ≠ 0 → ∀ ph,
    ∃ d, HasDerivAt (fun x => w x y ph) d t ∧ y * d = skyRHS a l t (w t) y ph
  top : ∀ y ∈ Set.Ioc (0 : ℝ) 1, ∀ ph, w 0 (-y) ph = down y
  bot : ∀ y ∈ Set.Ioc (0 : ℝ) 1, ∀ ph, w (bottom a) y ph = up y + skyReflect a rho (w (bottom a)) y ph

/-- The BDRF is continuous and nowhere negative, and a uniformly lit surface absorbs some fraction of what it receives. -/
structure AbsorbingBDRF (a : Args) (rho : ℕ → ℝ → ℝ → ℝ) : Prop where
  cont : ∀ m < a.bdrf.length, ContinuousOn (fun p : ℝ × ℝ => rho m p.1 p.2) (Set.Icc 0 1 ×ˢ Set.Icc 0 1)
  nonneg : ∀ x ∈ Set.Icc (0 : ℝ) 1, ∀ y ∈ Set.Icc (0 : ℝ) 1, ∀ dph, 0 ≤ bdrfOf a rho x y dph
  absorbs : ∃ κ > 0, ∀ x ∈ Set.Icc (0 : ℝ) 1, 1 / Real.pi * (∫ z in (0 : ℝ)..1, z * ∫ ph' in (0 : ℝ)..(2 * Real.pi), bdrfOf a rho x z (0 - ph')) ≤ 1 - κ

/-- `down` or `up`: a continuous bounded function of the cosine of the zenith angle. -/
structure Tame (f : ℝ → ℝ) : Prop where
  cont : ContinuousOn f (Set.Ioc 0 1)
  bdd : ∃ M, ∀ y ∈ Set.Ioc (0 : ℝ) 1, |f y| ≤ M

/-- `b` is a call that asks for the whole intensity of the atmosphere described by `a`: the same sun, all Fourier modes, no correction of the intensities, and as boundary values the
samples of `up` and `down` at its own quadrature angles. The number of streams is free. -/
structure AsksForSky (E : Ext) (a : Args) (rho : ℕ → ℝ → ℝ → ℝ) (up down : ℝ → ℝ) (b : Args) : Prop where
  same : SameAtmosphere a b
  sun : b.phi0 = a.phi0
  intensities : b.onlyFlux = false
  modes : nFourier b = nLeg b
  uncorrected : b.NTcor = false
  surface : SurfaceIs b rho
  sampled : Sampled b (node E b) up down
  bpos : Azimuthless b.bpos
  bneg : Azimuthless b.bneg
  rescalable : Rescalable b
  sound : Sound E b

end Pydisort.Spec

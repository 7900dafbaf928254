import Verif.Spec.Full
import Verif.Spec.Sky

/-!
# Specification: the transfer equation with the whole phase function, in all directions

Equation (1) of the Comprehensive Documentation (`/repo/docs/Pythonic-DISORT.ipynb`) before any approximation: a continuum of polar angles and azimuths, all Legendre coefficients of the
phase functions, and no delta-M scaling. Only the layers, the albedos, the internal source, the beam and the number of modes of the BDRF are taken from the arguments of the call.
-/

namespace Pydisort.Spec
open Finset

/-- The phase function `Σ_k (2k+1) g_k P_k(ν)`, as a function of the cosine `ν` of the scattering angle. -/
noncomputable def wholePhase (g : ℕ → ℝ) (nu : ℝ) : ℝ := ∑' k : ℕ, (2 * (k : ℝ) + 1) * g k * (legendreP k).eval nu

/-- `∫_{-1}^{1} ∫_0^{2π} p(ν) w(μ', φ') dφ' dμ'`, with `ν` the cosine of the angle between `(y, ph)` and `(μ', φ')`. -/
noncomputable def wholeScatter (g : ℕ → ℝ) (w : ℝ → ℝ → ℝ) (y ph : ℝ) : ℝ :=
  ∫ z in (-1 : ℝ)..1, ∫ ph' in (0 : ℝ)..(2 * Real.pi), wholePhase g (cosAngle y ph z ph') * w z ph'

/-- Right-hand side of `μ ∂w/∂τ = …` in layer `l` at depth `t`: `w - ω/(4π) ∫∫ p(ν) w - ω I₀/(4π) p(ν₀) e^{-τ/μ₀} - (1 - ω) S(τ)`. -/
noncomputable def wholeRHS (a : Args) (g : ℕ → ℕ → ℝ) (l : ℕ) (t : ℝ) (w : ℝ → ℝ → ℝ) (y ph : ℝ) : ℝ :=
  w y ph - a.omega.get l / (4 * Real.pi) * wholeScatter (g l) w y ph
    - a.omega.get l * a.I0 / (4 * Real.pi) * wholePhase (g l) (cosAngle y ph (-a.mu0) a.phi0) * Real.exp (-t / a.mu0)
    - (1 - a.omega.get l) * source a l t

/-- Light reflected by the surface into direction `(y, ph)`: `(1/π) ∫_0^1 ∫_0^{2π} ρ μ' w(-μ', φ') dφ' dμ' + μ₀ I₀ / π ρ e^{-τ/μ₀}`. -/
noncomputable def wholeReflect (a : Args) (rho : ℕ → ℝ → ℝ → ℝ) (w : ℝ → ℝ → ℝ) (y ph : ℝ) : ℝ :=
  1 / Real.pi * (∫ z in (0 : ℝ)..1, z * ∫ ph' in (0 : ℝ)..(2 * Real.pi), bdrfOf a rho y z (ph - ph') * w (-z) ph')
    + a.mu0 * a.I0 / Real.pi * bdrfOf a rho y a.mu0 (ph - a.phi0) * Real.exp (-bottom a / a.mu0)

/-- `w t μ φ` is an intensity field that solves the transfer equation with the phase functions `g l`. `down` is the illumination of the top and `up` what the surface emits, as functions of the
cosine of the zenith angle. Nothing is asked of `μ = 0`. -/
structure WholeSolution (a : Args) (g : ℕ → ℕ → ℝ) (rho : ℕ → ℝ → ℝ → ℝ) (up down : ℝ → ℝ) (w : ℝ → ℝ → ℝ → ℝ) : Prop where
  bounded : ∃ M, ∀ t ∈ Set.Icc 0 (bottom a), ∀ y ∈ Set.Icc (-1 : ℝ) 1, y ≠ 0 → ∀ ph, |w t y ph| ≤ M
  cont : ContinuousOn (fun p : ℝ × ℝ × ℝ => w p.1 p.2.1 p.2.2) (Set.Icc 0 (bottom a) ×ˢ (Set.Icc (-1) 1 \ {0}) ×ˢ Set.univ)
  periodic : ∀ t ∈ Set.Icc 0 (bottom a), ∀ y ∈ Set.Icc (-1 : ℝ) 1, y ≠ 0 → ∀ ph, w t y (ph + 2 * Real.pi) = w t y ph
  ode : ∀ l < a.tauArr.n, ∀ t, bdry a.tauArr.get l < t → t < bdry a.tauArr.get (l + 1) → ∀ y ∈ Set.Icc (-1 : ℝ) 1, y ≠ 0 → ∀ ph,
    ∃ d, HasDerivAt (fun x => w x y ph) d t ∧ y * d = wholeRHS a g l t (w t) y ph
  top : ∀ y ∈ Set.Ioc (0 : ℝ) 1, ∀ ph, w 0 (-y) ph = down y
  bot : ∀ y ∈ Set.Ioc (0 : ℝ) 1, ∀ ph, w (bottom a) y ph = up y + wholeReflect a rho (w (bottom a)) y ph

/-- The phase functions of all layers are nowhere negative. -/
def NonnegWhole (a : Args) (g : ℕ → ℕ → ℝ) : Prop := ∀ l < a.tauArr.n, ∀ nu ∈ Set.Icc (-1 : ℝ) 1, 0 ≤ wholePhase (g l) nu

end Pydisort.Spec

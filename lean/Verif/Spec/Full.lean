import Verif.Spec.Continuum
import Mathlib.Topology.Algebra.InfiniteSum.Basic
import Mathlib.Analysis.Normed.Group.InfiniteSum

/-!
# Specification: the transfer equation with the whole phase function

The code keeps `NLeg` Legendre coefficients of every phase function and, if asked to, replaces the forward peak by a delta function (delta-M scaling). Here is the equation before either
approximation: all the coefficients, no scaling, and a continuum of directions (equation (1) of the Comprehensive Documentation, averaged over azimuth). Only the layers, the albedos, the
internal source, the beam and the presence of a surface are taken from the arguments of the call. Their Legendre coefficients, peaks and numbers of streams do not enter.
-/

namespace Pydisort.Spec
open Finset

/-- `g` are the Legendre coefficients of a phase function `Σ_k (2k+1) g_k P_k`: normalised, and absolutely convergent. -/
structure PhaseSeries (g : ℕ → ℝ) : Prop where
  normalised : g 0 = 1
  summable : Summable fun k : ℕ => (2 * (k : ℝ) + 1) * |g k|

/-- The phase function averaged over azimuth, between the directions `y` and `z`: `Σ_k (2k+1) g_k P_k(y) P_k(z)`. -/
noncomputable def meanPhase (g : ℕ → ℝ) (y z : ℝ) : ℝ :=
  ∑' k : ℕ, (2 * (k : ℝ) + 1) * g k * (legendreP k).eval y * (legendreP k).eval z

/-- Right-hand side of the equation for direction `y` in layer `l` at depth `t`:
`μ dv/dτ = v(μ) - ω/2 ∫ p(μ, μ') v(μ') dμ' - ω I₀/(4π) p(μ, -μ₀) e^{-τ/μ₀} - (1 - ω) S(τ)`. -/
noncomputable def rteFull (a : Args) (g : ℕ → ℕ → ℝ) (l : ℕ) (t : ℝ) (v : ℝ → ℝ) (y : ℝ) : ℝ :=
  v y - a.omega.get l / 2 * (∫ z in (-1 : ℝ)..1, meanPhase (g l) y z * v z)
    - a.omega.get l * a.I0 / (4 * Real.pi) * meanPhase (g l) y (-a.mu0) * Real.exp (-t / a.mu0) - (1 - a.omega.get l) * source a l t

/-- `v t μ` is an azimuthally averaged intensity field that solves the transfer equation with the phase functions `g l`. `down` is the illumination of the top and `up` what the surface
emits. Nothing is asked of `μ = 0`. -/
structure FullSolution (a : Args) (g : ℕ → ℕ → ℝ) (rho : ℝ → ℝ → ℝ) (up down : ℝ → ℝ) (v : ℝ → ℝ → ℝ) : Prop where
  bounded : ∃ M, ∀ t ∈ Set.Icc 0 (bottom a), ∀ y ∈ Set.Icc (-1 : ℝ) 1, y ≠ 0 → |v t y| ≤ M
  cont : ContinuousOn (fun p : ℝ × ℝ => v p.1 p.2) (Set.Icc 0 (bottom a) ×ˢ (Set.Icc (-1) 1 \ {0}))
  ode : ∀ l < a.tauArr.n, ∀ t, bdry a.tauArr.get l < t → t < bdry a.tauArr.get (l + 1) → ∀ y ∈ Set.Icc (-1 : ℝ) 1, y ≠ 0 →
    ∃ d, HasDerivAt (fun x => v x y) d t ∧ y * d = rteFull a g l t (v t) y
  top : ∀ y ∈ Set.Ioc (0 : ℝ) 1, v 0 (-y) = down y
  bot : ∀ y ∈ Set.Ioc (0 : ℝ) 1, v (bottom a) y = up y
    + if 0 < a.bdrf.length then reflectExact rho (v (bottom a)) y
        + a.mu0 * a.I0 / Real.pi * rho y a.mu0 * Real.exp (-bottom a / a.mu0) else 0

/-- Averaged over azimuth, the phase functions of all layers are non-negative. -/
def NonnegMean (a : Args) (g : ℕ → ℕ → ℝ) : Prop :=
  ∀ l < a.tauArr.n, ∀ x ∈ Set.Icc (-1 : ℝ) 1, ∀ y ∈ Set.Icc (-1 : ℝ) 1, 0 ≤ meanPhase (g l) x y

/-- A layer scatters not at all, or its albedo exceeds the smallest one that the code does not treat as zero. -/
def VisibleScattering (a : Args) : Prop := ∀ l < a.tauArr.n, a.omega.get l = 0 ∨ 2 / 10 ^ 8 < a.omega.get l

/-- `b` describes the same layers, source, beam and presence of a surface as `a`, and the Legendre coefficients that it uses are the leading ones of `g`. The number of coefficients, the
delta-M peaks, the number of streams, the boundary values and the remaining options are free. -/
structure Truncates (a : Args) (g : ℕ → ℕ → ℝ) (b : Args) : Prop where
  tau : b.tauArr = a.tauArr
  omega : b.omega = a.omega
  source : b.s = a.s
  beam : b.I0 = a.I0
  angle : b.mu0 = a.mu0
  surface : 0 < b.bdrf.length ↔ 0 < a.bdrf.length
  leg : ∀ l < a.tauArr.n, ∀ k, 0 < k → k < nLeg b → b.leg.get l k = g l k

end Pydisort.Spec

import Verif.Spec.Bounds
import Verif.Spec.Flux
import Mathlib.MeasureTheory.Integral.IntervalIntegral.Basic

/-!
# Specification: the transfer equation for a continuum of directions

`pydisort` computes intensities in finitely many directions. Here is the equation they approximate: the azimuthally averaged, delta-M scaled transfer equation in which
the direction cosine `μ` runs through `[-1, 1]` and the scattered and reflected light are integrals, not quadrature sums. Written from sections 1 and 2 of the
Comprehensive Documentation (`/repo/docs/Pythonic-DISORT.ipynb`). No number of streams enters.
-/

namespace Pydisort.Spec
open Finset

/-- `∫_{-1}^{1} D(μ, μ') v(μ') dμ'`: light scattered into direction `y` in layer `l`. -/
noncomputable def scatterExact (a : Args) (l : ℕ) (v : ℝ → ℝ) (y : ℝ) : ℝ :=
  ∫ z in (-1 : ℝ)..1, scatD (omegaStar a l) (nLeg a) (legStar a l) 0 y z * v z

/-- Right-hand side of the equation for direction `y` in layer `l` at depth `t`:
`μ dv/dτ = (1 - ω f) (v(μ) - ∫ D(μ, μ') v(μ') dμ' - X(μ) e^{-τ*/μ₀}) - (1 - ω) S(τ)`. -/
noncomputable def rteAll (a : Args) (l : ℕ) (t : ℝ) (v : ℝ → ℝ) (y : ℝ) : ℝ :=
  scale a l * (v y - scatterExact a l v y
      - beamX (omegaStar a l) (nLeg a) (legStar a l) a.I0 a.mu0 0 y * Real.exp (-tauStar a l t / a.mu0))
    - (1 - a.omega.get l) * source a l t

/-- `2 ∫_0^1 ρ(μ, μ') v(-μ') μ' dμ'`: diffuse light reflected by the surface into the upward direction `y`. -/
noncomputable def reflectExact (rho : ℝ → ℝ → ℝ) (v : ℝ → ℝ) (y : ℝ) : ℝ :=
  2 * ∫ z in (0 : ℝ)..1, z * rho y z * v (-z)

/-- `v t μ` is an azimuthally averaged intensity field, at depth `t` in direction `μ`, that solves the transfer equation of the atmosphere for all directions. `down` is the
illumination of the top and `up` what the surface emits, as functions of the cosine of the zenith angle. Nothing is asked of `μ = 0`. -/
structure ExactSolution (a : Args) (rho : ℝ → ℝ → ℝ) (up down : ℝ → ℝ) (v : ℝ → ℝ → ℝ) : Prop where
  bounded : ∃ M, ∀ t ∈ Set.Icc 0 (bottom a), ∀ y ∈ Set.Icc (-1 : ℝ) 1, y ≠ 0 → |v t y| ≤ M
  cont : ContinuousOn (fun p : ℝ × ℝ => v p.1 p.2) (Set.Icc 0 (bottom a) ×ˢ (Set.Icc (-1) 1 \ {0}))
  ode : ∀ l < a.tauArr.n, ∀ t, bdry a.tauArr.get l < t → t < bdry a.tauArr.get (l + 1) → ∀ y ∈ Set.Icc (-1 : ℝ) 1, y ≠ 0 →
    ∃ d, HasDerivAt (fun x => v x y) d t ∧ y * d = rteAll a l t (v t) y
  top : ∀ y ∈ Set.Ioc (0 : ℝ) 1, v 0 (-y) = down y
  bot : ∀ y ∈ Set.Ioc (0 : ℝ) 1, v (bottom a) y = up y
    + if 0 < a.bdrf.length then reflectExact rho (v (bottom a)) y
        + a.mu0 * a.I0 / Real.pi * rho y a.mu0 * Real.exp (-bdryStar a a.tauArr.n / a.mu0) else 0

/-- `2π ∫_0^1 μ v(μ) dμ`: the upward flux. -/
noncomputable def upFluxExact (v : ℝ → ℝ) : ℝ := 2 * Real.pi * ∫ y in (0 : ℝ)..1, y * v y

/-- `2π ∫_0^1 μ v(-μ) dμ`: the diffuse downward flux. -/
noncomputable def downFluxExact (v : ℝ → ℝ) : ℝ := 2 * Real.pi * ∫ y in (0 : ℝ)..1, y * v (-y)

/-! ### How well the quadrature integrates the exact field -/

/-- Along every stream, the quadrature sum differs from the integral of the scattered light by at most the fraction `ε` of the co-albedo. -/
def ScatterDefect (a : Args) (mu w : Vec) (v : ℝ → ℝ → ℝ) (ε : ℝ) : Prop :=
  ∀ l < a.tauArr.n, ∀ t, InLayer a l t → ∀ i < 2 * nHalf a,
    |∑ j ∈ range (2 * nHalf a), streamW (nHalf a) w j * scatD (omegaStar a l) (nLeg a) (legStar a l) 0 (stream (nHalf a) mu i) (stream (nHalf a) mu j)
        * v t (stream (nHalf a) mu j) - scatterExact a l (v t) (stream (nHalf a) mu i)| ≤ ε * (1 - omegaStar a l)

/-- At the surface, the quadrature sum differs from the integral of the reflected light by at most the fraction `ε` of what the surface absorbs. -/
def ReflectDefect (a : Args) (mu w : Vec) (rho : ℝ → ℝ → ℝ) (v : ℝ → ℝ → ℝ) (ε : ℝ) : Prop :=
  0 < a.bdrf.length → ∀ i < nHalf a,
    |2 * ∑ j ∈ range (nHalf a), w j * mu j * rho (mu i) (mu j) * v (bottom a) (-mu j) - reflectExact rho (v (bottom a)) (mu i)|
      ≤ ε * (1 - reflectance a mu w rho (mu i))

/-- The boundary values handed to the code are the samples of `up` and `down` at the quadrature angles. -/
structure Sampled (a : Args) (mu : Vec) (up down : ℝ → ℝ) : Prop where
  bottom : ∀ i < nHalf a, bcVal a.bpos 0 i = up (mu i)
  top : ∀ i < nHalf a, bcVal a.bneg 0 i = down (mu i)

/-! ### More and more streams -/

/-- `b` describes the same atmosphere and surface as `a`, lit by the same beam, with the same number of Legendre coefficients. The number of streams, the boundary values and the
remaining options may differ. -/
structure SameAtmosphere (a b : Args) : Prop where
  tau : b.tauArr = a.tauArr
  omega : b.omega = a.omega
  leg : b.leg = a.leg
  peak : b.fArr = a.fArr
  source : b.s = a.s
  beam : b.I0 = a.I0
  angle : b.mu0 = a.mu0
  surface : b.bdrf = a.bdrf
  nLeg : nLeg b = nLeg a

/-- Between any two directions the azimuthally averaged, delta-M scaled and truncated phase function is non-negative. -/
def NonnegScatteringAll (a : Args) : Prop :=
  ∀ l < a.tauArr.n, ∀ x ∈ Set.Icc (-1 : ℝ) 1, ∀ y ∈ Set.Icc (-1 : ℝ) 1, 0 ≤ scatD (omegaStar a l) (nLeg a) (legStar a l) 0 x y

/-- The azimuthally averaged BDRF is continuous and non-negative, and a uniformly lit surface absorbs some fraction of what it receives. -/
structure AbsorbingSurface (rho : ℝ → ℝ → ℝ) : Prop where
  cont : ContinuousOn (fun p : ℝ × ℝ => rho p.1 p.2) (Set.Icc 0 1 ×ˢ Set.Icc 0 1)
  nonneg : ∀ x ∈ Set.Icc (0 : ℝ) 1, ∀ y ∈ Set.Icc (0 : ℝ) 1, 0 ≤ rho x y
  absorbs : ∃ κ > 0, ∀ x ∈ Set.Icc (0 : ℝ) 1, (2 * ∫ y in (0 : ℝ)..1, y * rho x y) ≤ 1 - κ

end Pydisort.Spec

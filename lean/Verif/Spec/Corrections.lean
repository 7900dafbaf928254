import Verif.Spec.Solution

/-!
# Specification: the Nakajima-Tanaka corrections

Written from section 3.7.2 of the Comprehensive Documentation. A direction is given by its polar cosine `x` (positive upwards)
and its azimuth `ph`; the beam travels in the direction `(-μ₀, φ₀)`.
-/

namespace Pydisort.Spec
open Finset

/-- Cosine of the angle between the direction `(x, ph)` and the beam. -/
noncomputable def beamCos (a : Args) (x ph : ℝ) : ℝ :=
  x * -a.mu0 + Real.sqrt (1 - x ^ 2) * Real.sqrt (1 - a.mu0 ^ 2) * Real.cos (a.phi0 - ph)

/-- The exact phase function of layer `l`: all Legendre coefficients of the caller. -/
noncomputable def exactPhase (a : Args) (l : ℕ) (nu : ℝ) : ℝ :=
  ∑ k ∈ range a.leg.c, (2 * (k : ℝ) + 1) * leg a l k * (legendreP k).eval nu

/-- The phase function that was used instead: delta-M scaled and truncated. -/
noncomputable def truncPhase (a : Args) (l : ℕ) (nu : ℝ) : ℝ :=
  ∑ k ∈ range (nLeg a), (2 * (k : ℝ) + 1) * legStar a l k * (legendreP k).eval nu

/-- Strength of the light scattered once out of the beam in layer `l` into the direction `(x, ph)`: exact minus truncated phase
function, in the delta-M scaled atmosphere. -/
noncomputable def onceScattered (a : Args) (l : ℕ) (x ph : ℝ) : ℝ :=
  omegaStar a l * a.I0 / (4 * Real.pi)
    * (exactPhase a l (beamCos a x ph) / (1 - peak a l) - truncPhase a l (beamCos a x ph))

/-- Single scattering: `w i l t ph` (stream, layer, depth, azimuth) obeys in every layer the transfer equation without multiple
scattering whose source is the once scattered beam of that layer, and no light enters through the top or the bottom. -/
structure SingleScattering (a : Args) (mu : Vec) (w : ℕ → ℕ → ℝ → ℝ → ℝ) : Prop where
  ode : ∀ i < 2 * nHalf a, ∀ l < a.tauArr.n, ∀ t ph, ∃ d, HasDerivAt (fun t => w i l t ph) d t ∧
    stream (nHalf a) mu i * d = scale a l *
      (w i l t ph - onceScattered a l (stream (nHalf a) mu i) ph * Real.exp (-tauStar a l t / a.mu0))
  top : ∀ i < nHalf a, ∀ ph, w (nHalf a + i) 0 0 ph = 0
  bottom : ∀ i < nHalf a, ∀ ph, w i (a.tauArr.n - 1) (bottom a) ph = 0

/-- The light is the same on both sides of every layer boundary. -/
def NoJumps (a : Args) (w : ℕ → ℕ → ℝ → ℝ → ℝ) : Prop :=
  ∀ i < 2 * nHalf a, ∀ l, l + 1 < a.tauArr.n → ∀ ph,
    w i l (a.tauArr.get l) ph = w i (l + 1) (a.tauArr.get l) ph

/-- The once scattered light has the same strength in all layers. -/
def SameStrength (a : Args) : Prop :=
  ∀ l < a.tauArr.n, ∀ l' < a.tauArr.n, ∀ x ph, onceScattered a l x ph = onceScattered a l' x ph

/-- Attenuation along the slant path with polar cosine `x` between two scaled depths. -/
noncomputable def atten (x s s' : ℝ) : ℝ := Real.exp (-(s' - s) / x)

/-- Light of unit strength scattered out of the beam in the part of the atmosphere between the scaled depths `s < s'` and leaving
it upwards (at `s`) in the direction with cosine `x`, up to the factor `μ₀ / (μ₀ + x)`. -/
noncomputable def emitUp (a : Args) (x s s' : ℝ) : ℝ :=
  Real.exp (-s / a.mu0) - atten x s s' * Real.exp (-s' / a.mu0)

/-- The same, leaving it downwards (at `s'`) in the direction with cosine `-x`, up to the factor `μ₀ / (μ₀ - x)`. -/
noncomputable def emitDown (a : Args) (x s s' : ℝ) : ℝ :=
  Real.exp (-s' / a.mu0) - atten x s s' * Real.exp (-s / a.mu0)

/-- The layer-by-layer sum: what is emitted by the part of layer `l` behind the scaled depth `s`, plus what is emitted by all layers
further behind, attenuated on the way. Upward for `i < N`, downward otherwise. -/
noncomputable def layerSum (a : Args) (mu : Vec) (i l : ℕ) (s : ℝ) : ℝ :=
  if i < nHalf a then
    emitUp a (mu i) s (bdryStar a (l + 1))
      + ∑ r ∈ Ico (l + 1) a.tauArr.n, atten (mu i) s (bdryStar a r) * emitUp a (mu i) (bdryStar a r) (bdryStar a (r + 1))
  else
    emitDown a (mu (i - nHalf a)) (bdryStar a l) s
      + ∑ r ∈ range l, atten (mu (i - nHalf a)) (bdryStar a (r + 1)) s
          * emitDown a (mu (i - nHalf a)) (bdryStar a r) (bdryStar a (r + 1))

/-! ## IMS correction -/

/-- Average of a quantity weighted with single-scattering albedo, with the weights of the code (`tau_arr`, see C44). -/
noncomputable def weighted (a : Args) (q : ℕ → ℝ) : ℝ := ∑ k ∈ range a.tauArr.n, q k * a.omega.get k * a.tauArr.get k

/-- Average of `ω f`. -/
noncomputable def avgPeak (a : Args) : ℝ := weighted a (peak a) / ∑ k ∈ range a.tauArr.n, a.tauArr.get k

/-- `μ₀ / (1 - ω f)` with the averages. -/
noncomputable def scaledMu0 (a : Args) : ℝ := a.mu0 / (1 - avgPeak a)

/-- Legendre coefficients of the average of the discarded part of the phase function, normalised. -/
noncomputable def avgResidue (a : Args) (k : ℕ) : ℝ :=
  weighted a (fun l => if k < nLeg a then peak a l else leg a l k) / weighted a (peak a)

/-- Strength of the IMS correction. -/
noncomputable def imsStrength (a : Args) (x ph : ℝ) : ℝ :=
  a.I0 / (4 * Real.pi) * avgPeak a ^ 2 / (1 - avgPeak a)
    * ∑ k ∈ range a.leg.c, (2 * (k : ℝ) + 1) * (2 * avgResidue a k - avgResidue a k ^ 2) * (legendreP k).eval (beamCos a x ph)

/-- `χ` solves `μ χ' + χ = (τ / s) e^{-τ/s}`, `χ(0) = 0`. -/
def IsChi (mu s : ℝ) (chi : ℝ → ℝ) : Prop :=
  chi 0 = 0 ∧ ∀ t, ∃ d, HasDerivAt chi d t ∧ mu * d + chi t = t / s * Real.exp (-t / s)

/-- When the corrections apply: requested, not only fluxes, a beam, a forward peak that is cut off, Legendre coefficients that are
not used, some scattering. -/
def Corrected (a : Args) : Prop :=
  a.NTcor = true ∧ a.onlyFlux = false ∧ 0 < a.I0 ∧ (∃ l < a.fArr.n, 0 < a.fArr.get l) ∧ nLeg a < a.leg.c
    ∧ ∃ l < a.omega.n, 0 < a.omega.get l

end Pydisort.Spec

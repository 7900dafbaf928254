import Verif.Spec.Bounds
import Mathlib.Analysis.SpecialFunctions.Trigonometric.DerivHyp

/-!
# Specification: the two-stream approximation of a homogeneous layer

Quadrature version (`μ = 1/2` in both hemispheres), in the notation of Meador and Weaver (1980): `u' = γ₁ u - γ₂ d - …`, `d' = γ₂ u - γ₁ d + …` for the upward
intensity `u` and the downward intensity `d`, with albedo `om` and asymmetry factor `g`.
-/

namespace Pydisort.Spec

/-- The call is a two-stream problem for one layer over black ground: intensities `I` from above and `Ib` from below, constant internal source `B`, and a beam. -/
structure TwoStream (a : Args) (I Ib B : ℝ) : Prop where
  streams : a.NQuad = 2
  layer : a.tauArr.n = 1
  black : a.bdrf = []
  inner : ∀ t, InLayer a 0 t → source a 0 t = B
  top : bcVal a.bneg 0 0 = I
  bottom : bcVal a.bpos 0 0 = Ib

/-- Asymmetry factor after delta-M scaling; zero if only one Legendre coefficient is used. -/
noncomputable def asymmetry (a : Args) : ℝ := if nLeg a = 1 then 0 else legStar a 0 1

noncomputable def gamma1 (om g : ℝ) : ℝ := 2 - om * (1 + 3 / 4 * g)
noncomputable def gamma2 (om g : ℝ) : ℝ := om * (1 - 3 / 4 * g)
/-- The diffusion exponent, `√(γ₁² - γ₂²)`. -/
noncomputable def kappa (om g : ℝ) : ℝ := 2 * Real.sqrt ((1 - om) * (1 - 3 / 4 * om * g))

/-- Of unit intensity incident on one side of a layer of thickness `T`: the intensity in the same direction at the distance `x` from the other side. -/
noncomputable def onward (om g T x : ℝ) : ℝ :=
  (kappa om g * Real.cosh (kappa om g * x) + gamma1 om g * Real.sinh (kappa om g * x))
    / (kappa om g * Real.cosh (kappa om g * T) + gamma1 om g * Real.sinh (kappa om g * T))

/-- Of unit intensity incident on one side of a layer of thickness `T`: the intensity in the opposite direction at the distance `x` from the other side. -/
noncomputable def backward (om g T x : ℝ) : ℝ :=
  gamma2 om g * Real.sinh (kappa om g * x)
    / (kappa om g * Real.cosh (kappa om g * T) + gamma1 om g * Real.sinh (kappa om g * T))

/-- Light scattered out of the beam `I0` at cosine `mu0` into the stream of cosine `x`, per unit depth. -/
noncomputable def fromBeam (om g I0 mu0 x : ℝ) : ℝ := om * I0 / (4 * Real.pi) * (1 - 3 * g * x * mu0)

/-- Amplitude of the upward light that follows the beam. -/
noncomputable def followUp (om g I0 mu0 : ℝ) : ℝ :=
  2 * ((gamma1 om g - 1 / mu0) * fromBeam om g I0 mu0 (1 / 2) + gamma2 om g * fromBeam om g I0 mu0 (-1 / 2)) / (kappa om g ^ 2 - 1 / mu0 ^ 2)
/-- Amplitude of the downward light that follows the beam. -/
noncomputable def followDown (om g I0 mu0 : ℝ) : ℝ :=
  2 * ((gamma1 om g + 1 / mu0) * fromBeam om g I0 mu0 (-1 / 2) + gamma2 om g * fromBeam om g I0 mu0 (1 / 2)) / (kappa om g ^ 2 - 1 / mu0 ^ 2)

/-- Upward intensity at optical depth `x` of a layer of thickness `T`. -/
noncomputable def twoUp (om g I0 mu0 I Ib B T x : ℝ) : ℝ :=
  B + followUp om g I0 mu0 * Real.exp (-x / mu0) + (I - B - followDown om g I0 mu0) * backward om g T (T - x)
    + (Ib - B - followUp om g I0 mu0 * Real.exp (-T / mu0)) * onward om g T x

/-- Downward intensity at optical depth `x` of a layer of thickness `T`. -/
noncomputable def twoDown (om g I0 mu0 I Ib B T x : ℝ) : ℝ :=
  B + followDown om g I0 mu0 * Real.exp (-x / mu0) + (I - B - followDown om g I0 mu0) * onward om g T (T - x)
    + (Ib - B - followUp om g I0 mu0 * Real.exp (-T / mu0)) * backward om g T x

end Pydisort.Spec

import Verif.Spec.Problem

/-!
# Specification: documented requirements on the arguments of `pydisort`

From the docstring and the table of argument shapes (`pydisort.py` 29-150) and section 1 of the
Comprehensive Documentation.
-/

namespace Pydisort.Spec

/-- All coefficients of the internal source vanish: no internal source. -/
def NoSource (a : Args) : Prop := ∀ i < a.s.r, ∀ j < a.s.c, a.s.get i j = 0

/-- A boundary value array is absent (all zero), has a single row, or one row per stream of a hemisphere. -/
def BCShape (n : ℕ) : BCv → Prop
  | .scalar _ => True
  | .vec v => (∀ i < v.n, v.get i = 0) ∨ v.n = 1 ∨ v.n = n
  | .mat v => (∀ i < v.r, ∀ j < v.c, v.get i j = 0) ∨ v.r = 1 ∨ v.r = n

/-- The arguments meet the documented requirements. -/
structure Accepted (a : Args) : Prop where
  layers : 0 < a.tauArr.n
  top : 0 < a.tauArr.get 0
  increasing : ∀ k, k + 1 < a.tauArr.n → a.tauArr.get k < a.tauArr.get (k + 1)
  omegaLen : a.omega.n = a.tauArr.n
  omega : ∀ k < a.tauArr.n, 0 ≤ a.omega.get k ∧ a.omega.get k < 1
  legRows : a.leg.r = a.tauArr.n
  legCols : a.NLeg.getD a.NQuad ≤ a.leg.c
  legVal : ∀ l < a.tauArr.n, ∀ k < a.leg.c, 1 ≤ k → -1 < a.leg.get l k ∧ a.leg.get l k < 1
  peakLen : (∀ k < a.fArr.n, a.fArr.get k = 0) ∨ a.fArr.n = a.tauArr.n
  peak : ∀ k < a.fArr.n, 0 ≤ a.fArr.get k ∧ a.fArr.get k ≤ 1
  sourceRows : NoSource a ∨ a.s.r = a.tauArr.n
  streams : 2 ≤ a.NQuad ∧ Even a.NQuad
  modes : a.onlyFlux = false → 0 < a.NFourier.getD a.NQuad ∧ a.NFourier.getD a.NQuad ≤ a.NLeg.getD a.NQuad
  nLeg : 0 < a.NLeg.getD a.NQuad ∧ a.NLeg.getD a.NQuad ≤ a.NQuad
  beam : 0 ≤ a.I0
  beamDir : 0 < a.I0 → (0 < a.mu0 ∧ a.mu0 ≤ 1) ∧ 0 ≤ a.phi0 ∧ a.phi0 < 2 * Real.pi
  bottom : BCShape (nHalf a) a.bpos
  topBC : BCShape (nHalf a) a.bneg
  banded : 3 ≤ a.useBanded

/-- The documented requirements in the order in which they are documented and checked, with the message of the
`ValueError` that reports each. -/
def requirements (a : Args) : List (Prop × String) :=
  [ (∀ k < a.tauArr.n, 0 < a.tauArr.get k, "tau values cannot be non-positive."),
    (∀ k, k + 1 < a.tauArr.n → a.tauArr.get k < a.tauArr.get (k + 1), "Layer thicknesses cannot be non-positive."),
    (∀ k < a.omega.n, 0 ≤ a.omega.get k ∧ a.omega.get k < 1,
      "Single-scattering albedo must be between 0 and 1, excluding 1."),
    (0 < a.NLeg.getD a.NQuad, "The number of phase function Legendre coefficients must be positive."),
    (a.NLeg.getD a.NQuad ≤ a.leg.c,
      "`NLeg` cannot be larger than the number of phase function Legendre coefficients provided."),
    (a.leg.r = a.tauArr.n,
      "The zeroth dimension of the shape of `Leg_coeffs_all` does not match the number of layers which is deduced from the length of `tau_arr`."),
    (a.omega.n = a.tauArr.n,
      "The zeroth dimension of the shape of `omega_arr` does not match the number of layers which is deduced from the length of `tau_arr`."),
    ((∀ k < a.fArr.n, a.fArr.get k = 0) ∨ a.fArr.n = a.tauArr.n,
      "The length of `f_arr` does not match the number of layers which is deduced from the length of `tau_arr`."),
    (NoSource a ∨ a.s.r = a.tauArr.n,
      "The zeroth dimension of the shape of `s_poly_coeffs` does not match the number of layers which is deduced from the length of `tau_arr`."),
    (∀ l < a.leg.r, ∀ k < a.leg.c, 1 ≤ k → -1 < a.leg.get l k ∧ a.leg.get l k < 1,
      "The phase function Legendre coefficients must all be between -1 and 1 exclusive (only the zeroth coefficient can equal 1)."),
    (2 ≤ a.NQuad, "There must be at least two streams."),
    (Even a.NQuad, "The number of streams must be even."),
    (a.onlyFlux = false → 0 < a.NFourier.getD a.NQuad,
      "The number of Fourier modes to use in the solution must be positive."),
    (a.onlyFlux = false → a.NFourier.getD a.NQuad ≤ a.NLeg.getD a.NQuad,
      "The number of Fourier modes to use in the solution must be less than or equal to the number of phase function Legendre coefficients used."),
    (a.NLeg.getD a.NQuad ≤ a.NQuad,
      "There should be more streams than the number of phase function Legendre coefficients used."),
    (0 ≤ a.I0, "The intensity of the incident beam cannot be negative."),
    (0 < a.I0 → 0 < a.mu0 ∧ a.mu0 ≤ 1,
      "The cosine of the polar angle of the incident beam must be between 0 and 1, excluding 0."),
    (0 < a.I0 → 0 ≤ a.phi0 ∧ a.phi0 < 2 * Real.pi,
      "Provide the principal azimuthal angle for the incident beam (must be between 0 and 2pi, excluding 2pi)."),
    (BCShape (nHalf a) a.bpos, "The shape of the bottom boundary condition is incorrect."),
    (BCShape (nHalf a) a.bneg, "The shape of the top boundary condition is incorrect."),
    (∀ k < a.fArr.n, 0 ≤ a.fArr.get k ∧ a.fArr.get k ≤ 1, "The fractional scattering must be between 0 and 1."),
    (3 ≤ a.useBanded,
      "The minimum threshold `use_banded_solver_NLayers` is 3, else the matrix will not be banded.") ]

/-- `msg` reports the first requirement of the list that is violated. -/
def FirstViolated (reqs : List (Prop × String)) (msg : String) : Prop :=
  ∃ (i : ℕ) (p : Prop), reqs[i]? = some (p, msg) ∧ ¬ p ∧ ∀ j < i, ∀ (q : Prop) (m : String), reqs[j]? = some (q, m) → q

end Pydisort.Spec

import Verif.Spec.Field

/-!
# Specification: problems that have a solution

Physical conditions, in terms of the caller's arguments, under which the discretised problem is well posed.
-/

namespace Pydisort.Spec
open Finset

/-- Scattering loses energy in every layer and Fourier mode: the light scattered out of the field `x`, measured by
`Σ_i Σ_j w_i w_j D^m(μ_i, μ_j) x_i x_j` over all streams, is less than `Σ_i w_i x_i²`, unless `x` vanishes. -/
def Dissipates (a : Args) (mu w : Vec) : Prop :=
  ∀ m < nFourier a, ∀ l < a.tauArr.n, ∀ x : ℕ → ℝ, (∃ i < 2 * nHalf a, x i ≠ 0) →
    ∑ i ∈ range (2 * nHalf a), ∑ j ∈ range (2 * nHalf a), streamW (nHalf a) w i * streamW (nHalf a) w j
        * kernel a m l (stream (nHalf a) mu i) (stream (nHalf a) mu j) * x i * x j
      < ∑ i ∈ range (2 * nHalf a), streamW (nHalf a) w i * x i ^ 2

/-- The beam is not resonant with any eigenvalue: `1 / μ₀²` is not an eigenvalue of the reduced matrix of any
scattering layer and mode. -/
def BeamRegular (a : Args) (mu w : Vec) : Prop :=
  0 < a.I0 → ∀ m < nFourier a, ∀ l < a.tauArr.n,
    Significant (omegaStar a l) (nLeg a) (legStar a l) m →
    (toM (nHalf a) (fun i j => reduced (nHalf a) mu w (kernel a m l) i j
      - if i = j then 1 / a.mu0 ^ 2 else 0)).det ≠ 0

/-- The surface described by the BDRF modes does not amplify: in every mode the reflected diffuse light carries
no more energy than the incident light. -/
def PassiveSurface (a : Args) (mu w : Vec) : Prop :=
  ∀ m < nFourier a, ∀ M, a.bdrf[m]? = some M → ∃ rho, Represents M rho ∧ ∀ d : ℕ → ℝ,
    ∑ i ∈ range (nHalf a), w i * mu i *
        ((1 + if m = 0 then 1 else 0) * ∑ j ∈ range (nHalf a), w j * mu j * rho (mu i) (mu j) * d j) ^ 2
      ≤ ∑ i ∈ range (nHalf a), w i * mu i * d i ^ 2

/-- A well-posed problem in a form that the code supports. -/
structure WellPosed (E : Ext) (a : Args) : Prop where
  accepted : Accepted a
  gauss : GaussContract E (nHalf a)
  eig : EigContract E
  peak : ∀ l < a.tauArr.n, peak a l < 1
  dissipates : Dissipates a (node E a) (weight E a)
  beam : BeamRegular a (node E a) (weight E a)
  surface : PassiveSurface a (node E a) (weight E a)
  /-- two-dimensional boundary values are the subject of C31 -/
  bottomBC : Azimuthless a.bpos
  topBC : Azimuthless a.bneg
  /-- even an all-zero source array has to have one row or one row per layer -/
  sourceShape : a.s.r = 1 ∨ a.s.r = a.tauArr.n
  /-- beyond degree 20 the factorials of `_mathscr_v` overflow, see `Sound` and C07 -/
  degree : NoSource a ∨ a.s.c ≤ 21
  /-- the quadrature angles keep away from the beam if corrections are requested -/
  angles : a.NTcor = true → ∀ i < nHalf a, 1 / 10 ^ 8 ≤ |node E a i - a.mu0|

end Pydisort.Spec

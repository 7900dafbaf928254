import Verif.Spec.Fields
import Verif.Spec.Solution
import Verif.Spec.Validation

/-!
# Specification: atmospheres that are related to a given one
-/

namespace Pydisort.Spec
open Finset

/-- The atmosphere whose optical properties are the delta-M scaled ones of `a`, given directly by the caller: no forward peak, and the
internal source `s'` is a polynomial in the scaled depth. -/
noncomputable def preScaled (a : Args) (s' : A2 ℝ) : Args :=
  { a with
    tauArr := ⟨a.tauArr.n, fun l => bdryStar a (l + 1)⟩
    omega := ⟨a.tauArr.n, omegaStar a⟩
    leg := ⟨a.tauArr.n, nLeg a, legStar a⟩
    fArr := ⟨1, fun _ => 0⟩
    NTcor := false
    s := s' }

/-- The scaled optical properties can be given by the caller: the scaled Legendre coefficients are above `-1` (they are always below `1`),
and `s'`, read at the scaled depth, is the internal source of `a`. -/
structure PreOK (a : Args) (s' : A2 ℝ) : Prop where
  leg : ∀ l < a.tauArr.n, ∀ k < nLeg a, 1 ≤ k → -1 < legStar a l k
  rows : s'.r = a.tauArr.n
  /-- see `Sound.degree` -/
  degree : s'.c ≤ 21
  source : ∀ l < a.tauArr.n, ∀ t, source (preScaled a s') l (tauStar a l t) = source a l t

/-- The atmosphere turned upside down, with the internal source `s'`. -/
noncomputable def flipped (a : Args) (s' : A2 ℝ) : Args :=
  { a with
    tauArr := ⟨a.tauArr.n, fun l => bottom a - bdry a.tauArr.get (a.tauArr.n - 1 - l)⟩
    omega := ⟨a.tauArr.n, fun l => a.omega.get (a.tauArr.n - 1 - l)⟩
    leg := ⟨a.tauArr.n, a.leg.c, fun l k => a.leg.get (a.tauArr.n - 1 - l) k⟩
    fArr := ⟨a.tauArr.n, fun l => peak a (a.tauArr.n - 1 - l)⟩
    bpos := a.bneg
    bneg := a.bpos
    s := s' }

/-- The stream in the opposite direction. -/
def mirror (N i : ℕ) : ℕ := if i < N then N + i else i - N

/-- The Legendre coefficients as the discrete problem sees them: beyond `NLeg` they are those of the forward peak. -/
def usedLeg (a : Args) (l k : ℕ) : ℝ := if k < nLeg a then leg a l k else peak a l

/-- The arguments `b` describe the same physical problem as `a`. They may differ in

* the phase function and the forward peak of layers that do not scatter,
* Legendre coefficients beyond `NLeg`, and `NLeg` itself if the additional coefficients are those of the forward peak,
* the direction of the beam, if there is none,
* BDRF modes that are not used (`M` is the number of Fourier modes that are compared),
* the form in which boundary values and internal source are given,
* the zeroth column of `Leg_coeffs_all`, the solver (`use_banded_solver_NLayers`), and the number of Fourier modes. -/
structure SamePhysics (M : ℕ) (a b : Args) : Prop where
  streams : nHalf b = nHalf a
  layers : b.tauArr.n = a.tauArr.n
  depths : ∀ l < a.tauArr.n, b.tauArr.get l = a.tauArr.get l
  omega : ∀ l < a.tauArr.n, b.omega.get l = a.omega.get l
  peak : ∀ l < a.tauArr.n, a.omega.get l ≠ 0 → peak b l = peak a l
  leg : ∀ l < a.tauArr.n, a.omega.get l ≠ 0 → ∀ k, usedLeg b l k = usedLeg a l k
  beam : b.I0 = a.I0
  beamDir : a.I0 ≠ 0 → b.mu0 = a.mu0 ∧ b.phi0 = a.phi0
  bottom : ∀ m < M, ∀ i < nHalf a, bcVal b.bpos m i = bcVal a.bpos m i
  top : ∀ m < M, ∀ i < nHalf a, bcVal b.bneg m i = bcVal a.bneg m i
  source : ∀ l < a.tauArr.n, ∀ t, InLayer a l t → source b l t = source a l t
  surface : ∀ m < M, b.bdrf[m]? = a.bdrf[m]?

/-- The first `k` layers by themselves, lit from below by the intensities `up i` of the upward streams. Only the azimuthal average. -/
noncomputable def upperPart (a : Args) (k : ℕ) (up : ℕ → ℝ) : Args :=
  { a with
    tauArr := ⟨k, a.tauArr.get⟩
    omega := ⟨k, a.omega.get⟩
    leg := ⟨k, a.leg.c, a.leg.get⟩
    fArr := ⟨k, peak a⟩
    bpos := .vec ⟨nHalf a, up⟩
    bdrf := []
    s := ⟨k, a.s.c, fun l j => if l < a.s.r then a.s.get l j else 0⟩
    onlyFlux := true }

/-- The layers from `k` on by themselves, with their surface, lit from above by the beam attenuated by the upper layers and by the intensities
`down i` of the downward streams; depth is counted from the interface. Only the azimuthal average. -/
noncomputable def lowerPart (a : Args) (k : ℕ) (down : ℕ → ℝ) (s' : A2 ℝ) : Args :=
  { a with
    tauArr := ⟨a.tauArr.n - k, fun l => a.tauArr.get (k + l) - bdry a.tauArr.get k⟩
    omega := ⟨a.tauArr.n - k, fun l => a.omega.get (k + l)⟩
    leg := ⟨a.tauArr.n - k, a.leg.c, fun l => a.leg.get (k + l)⟩
    fArr := ⟨a.tauArr.n - k, fun l => peak a (k + l)⟩
    I0 := a.I0 * Real.exp (-bdryStar a k / a.mu0)
    bneg := .vec ⟨nHalf a, down⟩
    s := s'
    onlyFlux := true }

/-- The first `k` layers by themselves, over black ground that does not shine. -/
noncomputable def above (a : Args) (k : ℕ) : Args :=
  { a with
    tauArr := ⟨k, a.tauArr.get⟩
    omega := ⟨k, a.omega.get⟩
    leg := ⟨k, a.leg.c, a.leg.get⟩
    fArr := ⟨k, peak a⟩
    bpos := .scalar 0
    bdrf := []
    s := ⟨k, a.s.c, fun l j => if l < a.s.r then a.s.get l j else 0⟩ }

/-- The layers from `k` on by themselves, with their surface, lit from above by nothing but the beam attenuated by the upper layers; depth is counted
from the interface. -/
noncomputable def below (a : Args) (k : ℕ) (s' : A2 ℝ) : Args :=
  { a with
    tauArr := ⟨a.tauArr.n - k, fun l => a.tauArr.get (k + l) - bdry a.tauArr.get k⟩
    omega := ⟨a.tauArr.n - k, fun l => a.omega.get (k + l)⟩
    leg := ⟨a.tauArr.n - k, a.leg.c, fun l => a.leg.get (k + l)⟩
    fArr := ⟨a.tauArr.n - k, fun l => peak a (k + l)⟩
    I0 := a.I0 * Real.exp (-bdryStar a k / a.mu0)
    bneg := .scalar 0
    s := s' }

end Pydisort.Spec

import Verif.Spec.Solution
import Verif.Spec.Fields

/-!
# Specification: vocabulary for bounds on the light field
-/

namespace Pydisort.Spec
open Finset

/-- Between any two streams the azimuthally averaged, delta-M scaled and truncated phase function is non-negative. -/
def NonnegScattering (a : Args) (mu : Vec) : Prop :=
  ∀ l < a.tauArr.n, ∀ i < 2 * nHalf a, ∀ j < 2 * nHalf a,
    0 ≤ kernel a 0 l (stream (nHalf a) mu i) (stream (nHalf a) mu j)

/-- Fraction of the light reflected into direction `x` out of a uniform downward hemisphere; zero without a surface. -/
noncomputable def reflectance (a : Args) (mu w : Vec) (rho : ℝ → ℝ → ℝ) (x : ℝ) : ℝ :=
  if 0 < a.bdrf.length then 2 * ∑ j ∈ range (nHalf a), w j * mu j * rho x (mu j) else 0

/-- The azimuthally averaged BDRF is non-negative and reflects at most all of a uniform illumination. -/
structure FairSurface (a : Args) (mu w : Vec) (rho : ℝ → ℝ → ℝ) : Prop where
  nonneg : ∀ i < nHalf a, ∀ j < nHalf a, 0 ≤ rho (mu i) (mu j)
  beam : ∀ i < nHalf a, 0 ≤ rho (mu i) a.mu0
  bounded : ∀ i < nHalf a, reflectance a mu w rho (mu i) ≤ 1

/-- No source is negative: the scattered beam, the internal emission, the illumination from above, and what the surface emits. -/
structure NonnegSources (a : Args) (mu : Vec) : Prop where
  beam : ∀ l < a.tauArr.n, ∀ i < 2 * nHalf a, 0 ≤ beamSource a 0 l (stream (nHalf a) mu i)
  inner : ∀ l < a.tauArr.n, ∀ t, InLayer a l t → 0 ≤ source a l t
  top : ∀ i < nHalf a, 0 ≤ bcVal a.bneg 0 i
  bottom : ∀ i < nHalf a, 0 ≤ bcVal a.bpos 0 i

/-- No source of `S₁` exceeds that of `S₂`. -/
structure Dimmer (a : Args) (S₁ S₂ : Sources) : Prop where
  beam : S₁.I0 ≤ S₂.I0
  inner : ∀ l < a.tauArr.n, ∀ t, InLayer a l t → source (under a S₁) l t ≤ source (under a S₂) l t
  top : ∀ i < nHalf a, bcVal S₁.bneg 0 i ≤ bcVal S₂.bneg 0 i
  bottom : ∀ i < nHalf a, bcVal S₁.bpos 0 i ≤ bcVal S₂.bpos 0 i

/-- The surface modes are represented by the functions `rho m`. -/
def SurfaceIs (a : Args) (rho : ℕ → ℝ → ℝ → ℝ) : Prop :=
  ∀ m < nFourier a, ∀ M, a.bdrf[m]? = some M → Represents M (rho m)

/-- No source exceeds what a black body of intensity `B` at the same place would provide. The surface emits at most the
complement of what it reflects, times `B`. -/
structure BelowBlackbody (a : Args) (mu w : Vec) (rho : ℝ → ℝ → ℝ) (B : ℝ) : Prop where
  noBeam : a.I0 = 0
  inner : ∀ l < a.tauArr.n, ∀ t, InLayer a l t → source a l t ≤ B
  top : ∀ i < nHalf a, bcVal a.bneg 0 i ≤ B
  bottom : ∀ i < nHalf a, bcVal a.bpos 0 i ≤ (1 - reflectance a mu w rho (mu i)) * B

/-- The sources `S₁` and `S₂` have the same beam and otherwise differ by at most what a black body of intensity `ε` at the same place would
provide. -/
structure WithinBlackbody (a : Args) (mu w : Vec) (rho : ℝ → ℝ → ℝ) (S₁ S₂ : Sources) (ε : ℝ) : Prop where
  beam : S₁.I0 = S₂.I0
  inner : ∀ l < a.tauArr.n, ∀ t, InLayer a l t → |source (under a S₁) l t - source (under a S₂) l t| ≤ ε
  top : ∀ i < nHalf a, |bcVal S₁.bneg 0 i - bcVal S₂.bneg 0 i| ≤ ε
  bottom : ∀ i < nHalf a, |bcVal S₁.bpos 0 i - bcVal S₂.bpos 0 i| ≤ (1 - reflectance a mu w rho (mu i)) * ε

/-- Everything has the same temperature: every source provides what a black body of intensity `B` at the same place would provide. -/
structure Isothermal (a : Args) (mu w : Vec) (rho : ℝ → ℝ → ℝ) (B : ℝ) : Prop where
  noBeam : a.I0 = 0
  inner : ∀ l < a.tauArr.n, ∀ t, InLayer a l t → source a l t = B
  top : ∀ i < nHalf a, bcVal a.bneg 0 i = B
  bottom : ∀ i < nHalf a, bcVal a.bpos 0 i = (1 - reflectance a mu w rho (mu i)) * B

/-- No layer falls into the gap in which there is scattering but the code ignores it (see `Significant`). -/
def NoNeglect (a : Args) : Prop :=
  ∀ l < a.tauArr.n, omegaStar a l = 0 ∨ Significant (omegaStar a l) (nLeg a) (legStar a l) 0

end Pydisort.Spec

import Verif.Spec.Azimuth

/-!
# Specification: atmospheres and surfaces that absorb less
-/

namespace Pydisort.Spec

/-- The same call with other single-scattering albedos and another surface. -/
def reflecting (a : Args) (om : A1 ℝ) (B : List BDRFMode) : Args :=
  { a with
    omega := om
    bdrf := B }

/-- The zeroth mode of the BDRF; zero without a surface. -/
noncomputable def surfaceOf (B : List BDRFMode) (rho : ℝ → ℝ → ℝ) (x y : ℝ) : ℝ := if 0 < B.length then rho x y else 0

/-- Nothing absorbs less in the first problem: neither a layer nor, azimuthally averaged, the surface. Layers whose albedos differ do not emit. -/
structure Darker (a : Args) (mu : Vec) (om₁ om₂ : A1 ℝ) (B₁ B₂ : List BDRFMode) (rho₁ rho₂ : ℝ → ℝ → ℝ) : Prop where
  albedo : ∀ l < a.tauArr.n, om₁.get l ≤ om₂.get l
  emission : ∀ l < a.tauArr.n, om₁.get l = om₂.get l ∨ ∀ t, InLayer a l t → source a l t = 0
  surface : ∀ i < nHalf a, ∀ j < nHalf a, 0 ≤ surfaceOf B₁ rho₁ (mu i) (mu j) ∧ surfaceOf B₁ rho₁ (mu i) (mu j) ≤ surfaceOf B₂ rho₂ (mu i) (mu j)
  beam : ∀ i < nHalf a, 0 ≤ surfaceOf B₁ rho₁ (mu i) a.mu0 ∧ surfaceOf B₁ rho₁ (mu i) a.mu0 ≤ surfaceOf B₂ rho₂ (mu i) a.mu0

/-- As `Darker`, with the surface compared at all azimuths. -/
structure DarkerAround (a : Args) (mu : Vec) (om₁ om₂ : A1 ℝ) (B₁ B₂ : List BDRFMode) (rho₁ rho₂ : ℕ → ℝ → ℝ → ℝ) : Prop where
  albedo : ∀ l < a.tauArr.n, om₁.get l ≤ om₂.get l
  emission : ∀ l < a.tauArr.n, om₁.get l = om₂.get l ∨ ∀ t, InLayer a l t → source a l t = 0
  surface : ∀ i < nHalf a, ∀ j < nHalf a, ∀ dph, 0 ≤ bdrfOf (reflecting a om₁ B₁) rho₁ (mu i) (mu j) dph
    ∧ bdrfOf (reflecting a om₁ B₁) rho₁ (mu i) (mu j) dph ≤ bdrfOf (reflecting a om₂ B₂) rho₂ (mu i) (mu j) dph
  beam : ∀ i < nHalf a, ∀ dph, 0 ≤ bdrfOf (reflecting a om₁ B₁) rho₁ (mu i) a.mu0 dph
    ∧ bdrfOf (reflecting a om₁ B₁) rho₁ (mu i) a.mu0 dph ≤ bdrfOf (reflecting a om₂ B₂) rho₂ (mu i) a.mu0 dph

end Pydisort.Spec

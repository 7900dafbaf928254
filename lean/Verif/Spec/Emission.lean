import Verif.Spec.Reciprocity
import Mathlib.MeasureTheory.Integral.IntervalIntegral.Basic

/-!
# Specification: exchange of light between sources inside the atmosphere and instruments outside
-/

namespace Pydisort.Spec
open Finset

/-- The internal sources of `S`, each weighted with the light `u` (azimuthal average at depth `t`, stream `i`) at its place from all directions:
`Σ_l ∫ (1 - ω_l) s_l(t) (2π Σ_i w_i u_i(t)) dt`. The layer emits `(1 - ω_l) s_l(t)` per unit depth and solid angle. -/
noncomputable def innerResponse (a : Args) (w : Vec) (S : Sources) (u : ℝ → ℕ → ℝ) : ℝ :=
  ∑ l ∈ range a.tauArr.n, ∫ t in (bdry a.tauArr.get l)..(bdry a.tauArr.get (l + 1)),
    (1 - a.omega.get l) * source (under a S) l t * actinic a w (u t)

/-- Thermal emission: layer `l` radiates like a black body of intensity `B l`, the surface has the intensity `Bs` times its emissivity (the
complement of its reflectance), and nothing comes from outside. -/
structure Glows (a : Args) (mu w : Vec) (rho : ℝ → ℝ → ℝ) (B : ℕ → ℝ) (Bs : ℝ) (S : Sources) : Prop where
  noBeam : S.I0 = 0
  inner : ∀ l < a.tauArr.n, ∀ t, InLayer a l t → source (under a S) l t = B l
  top : ∀ i < nHalf a, bcVal S.bneg 0 i = 0
  bottom : ∀ i < nHalf a, bcVal S.bpos 0 i = (1 - reflectance a mu w rho (mu i)) * Bs

/-- The only light comes from above, in the direction of stream `k`, with intensity `c`. -/
structure OneDirection (a : Args) (k : ℕ) (c : ℝ) (S : Sources) : Prop extends BoundaryOnly a S where
  top : ∀ i < nHalf a, bcVal S.bneg 0 i = if i = k then c else 0
  bottom : ∀ i < nHalf a, bcVal S.bpos 0 i = 0

/-- Net downward flux. -/
def Fields.net (F : Fields) (t : ℝ) : ℝ := F.diffuse t + F.direct t - F.up t

end Pydisort.Spec

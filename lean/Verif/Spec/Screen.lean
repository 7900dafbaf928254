import Verif.Spec.Bounds

/-!
# Specification: absorption between two depths
-/

namespace Pydisort.Spec
open Finset

/-- Absorption optical depth above depth `t`: the sum over the layers of `1 - ω` times the thickness of the part of the layer that lies above `t`. -/
noncomputable def absDepth (a : Args) (t : ℝ) : ℝ :=
  ∑ k ∈ range a.tauArr.n, (1 - a.omega.get k) * max 0 (min (t - bdry a.tauArr.get k) (bdry a.tauArr.get (k + 1) - bdry a.tauArr.get k))

/-- Absorption optical depth between depth `t` and the layers `l₁, …, l₂ - 1`, zero within these layers. -/
noncomputable def absBetween (a : Args) (l₁ l₂ : ℕ) (t : ℝ) : ℝ :=
  max 0 (max (absDepth a (bdry a.tauArr.get l₁) - absDepth a t) (absDepth a t - absDepth a (bdry a.tauArr.get l₂)))

/-- The sources `S₁` and `S₂` have the same beam. Otherwise they differ only in the layers `l₁, …, l₂ - 1`, above the atmosphere if `l₁ = 0` and at the surface if
`l₂` is the number of layers, by at most what a black body of intensity `ε` at the same place would provide. -/
structure DifferWithin (a : Args) (mu w : Vec) (rho : ℝ → ℝ → ℝ) (S₁ S₂ : Sources) (l₁ l₂ : ℕ) (ε : ℝ) : Prop where
  le : WithinBlackbody a mu w rho S₁ S₂ ε
  inner : ∀ l < a.tauArr.n, l < l₁ ∨ l₂ ≤ l → ∀ t, InLayer a l t → source (under a S₁) l t = source (under a S₂) l t
  top : 0 < l₁ → ∀ i < nHalf a, bcVal S₁.bneg 0 i = bcVal S₂.bneg 0 i
  bottom : l₂ < a.tauArr.n → ∀ i < nHalf a, bcVal S₁.bpos 0 i = bcVal S₂.bpos 0 i

end Pydisort.Spec

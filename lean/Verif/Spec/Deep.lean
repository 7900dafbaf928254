import Verif.Spec.Screen

/-!
# Specification: an atmosphere without bottom
-/

namespace Pydisort.Spec
open Finset

/-- The call `a` with the bottom of the lowest layer at depth `T` and another surface below it. -/
noncomputable def deepened (a : Args) (T : ℝ) (bp : BCv) (bd : List BDRFMode) : Args :=
  { a with
    tauArr := ⟨a.tauArr.n, fun k => if k + 1 = a.tauArr.n then T else a.tauArr.get k⟩
    bpos := bp
    bdrf := bd }

/-- Depth of the top of the lowest layer. -/
def lowestTop (a : Args) : ℝ := bdry a.tauArr.get (a.tauArr.n - 1)

/-- Depth `t` lies strictly inside layer `l`, where the lowest layer has no lower end. -/
def InsideDeep (a : Args) (l : ℕ) (t : ℝ) : Prop :=
  bdry a.tauArr.get l < t ∧ (l + 1 < a.tauArr.n → t < bdry a.tauArr.get (l + 1))

/-- `V t i` (depth `t`, stream `i`) is an azimuthally averaged intensity in the atmosphere whose lowest layer has no lower end: it solves the transfer equation at
all depths, meets the condition at the top and stays bounded. -/
structure IsDeepSolution (a : Args) (mu w : Vec) (V : ℝ → ℕ → ℝ) : Prop where
  cont : ∀ i < 2 * nHalf a, ContinuousOn (fun t => V t i) (Set.Ici 0)
  ode : ∀ l < a.tauArr.n, ∀ t, InsideDeep a l t → ∀ i < 2 * nHalf a,
    ∃ d, HasDerivAt (fun x => V x i) d t ∧ stream (nHalf a) mu i * d = rteUser a mu w 0 l t (V t) i
  top : ∀ i < nHalf a, V 0 (nHalf a + i) = bcVal a.bneg 0 i
  bounded : ∃ C, ∀ t, 0 ≤ t → ∀ i < 2 * nHalf a, |V t i| ≤ C

/-- Absorption optical depth above depth `t` if the lowest layer has no lower end. -/
noncomputable def deepAbs (a : Args) (t : ℝ) : ℝ :=
  ∑ k ∈ range a.tauArr.n, (1 - a.omega.get k) * max 0 (if k + 1 = a.tauArr.n then t - bdry a.tauArr.get k
    else min (t - bdry a.tauArr.get k) (bdry a.tauArr.get (k + 1) - bdry a.tauArr.get k))

/-- The internal source of the lowest layer stays bounded, however far the layer is continued. -/
def TameBelow (a : Args) : Prop := ∃ S, ∀ t, lowestTop a ≤ t → |source a (a.tauArr.n - 1) t| ≤ S

/-- Apart from the diffuse light that it reflects, the surface sends up at most what a black body of intensity `B` at the same place would provide. -/
def EmitsBelow (a : Args) (mu w : Vec) (rho : ℝ → ℝ → ℝ) (B : ℝ) : Prop :=
  ∀ i < nHalf a, |bcVal a.bpos 0 i| + (if 0 < a.bdrf.length then a.mu0 * a.I0 / Real.pi * rho (mu i) a.mu0 else 0) ≤ (1 - reflectance a mu w rho (mu i)) * B

end Pydisort.Spec

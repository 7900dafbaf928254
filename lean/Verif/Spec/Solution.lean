import Verif.Spec.Solvable
import Mathlib.Topology.Order.Basic

/-!
# Specification: solutions of the boundary value problem of one Fourier mode
-/

namespace Pydisort.Spec
open Finset

/-- Depth of the bottom of the atmosphere. -/
def bottom (a : Args) : ℝ := a.tauArr.get (a.tauArr.n - 1)

/-- `V t i` (depth `t`, stream `i`) solves the boundary value problem of Fourier mode `m` described by the
arguments, with nodes `mu`, weights `w` and a surface whose mode is `rho`. -/
structure IsSolution (a : Args) (mu w : Vec) (rho : ℝ → ℝ → ℝ) (m : ℕ) (V : ℝ → ℕ → ℝ) : Prop where
  cont : ∀ i < 2 * nHalf a, ContinuousOn (fun t => V t i) (Set.Icc 0 (bottom a))
  ode : ∀ l < a.tauArr.n, ∀ t, bdry a.tauArr.get l < t → t < bdry a.tauArr.get (l + 1) → ∀ i < 2 * nHalf a,
    ∃ d, HasDerivAt (fun x => V x i) d t ∧ stream (nHalf a) mu i * d = rteUser a mu w m l t (V t) i
  top : ∀ i < nHalf a, V 0 (nHalf a + i) = bcVal a.bneg m i
  bot : ∀ i < nHalf a, V (bottom a) i = bcVal a.bpos m i
    + if m < a.bdrf.length then reflected a mu w rho m (mu i) (fun j => V (bottom a) (nHalf a + j)) else 0

end Pydisort.Spec

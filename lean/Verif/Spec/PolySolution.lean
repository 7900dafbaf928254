import Mathlib.Analysis.Calculus.Deriv.Basic
import Mathlib.Algebra.Polynomial.Eval.Defs
import Mathlib.Data.Real.Basic
import Mathlib.Algebra.BigOperators.Group.Finset.Basic

/-!
# Specification: polynomial solutions of a linear system with a polynomial source
-/

namespace Pydisort.Spec
open Finset

/-- `v` is a solution of `v' = A v - (Σ_{k < Nc} s_k t^k) r` all of whose `n` components are polynomials. -/
structure PolySolution (n : ℕ) (A : ℕ → ℕ → ℝ) (r : ℕ → ℝ) (Nc : ℕ) (s : ℕ → ℝ) (v : ℕ → ℝ → ℝ) : Prop where
  poly : ∀ i < n, ∃ p : Polynomial ℝ, ∀ t, v i t = p.eval t
  ode : ∀ i < n, ∀ t, HasDerivAt (v i) (∑ q ∈ range n, A i q * v q t - (∑ k ∈ range Nc, s k * t ^ k) * r i) t

end Pydisort.Spec

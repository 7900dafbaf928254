import Verif.Spec.Problem

/-! Specification for `interpolate`: one polynomial per hemisphere. -/

namespace Pydisort.Spec
open Polynomial

/-- The Gauss nodes of `(0, 1)` for `N` streams per hemisphere. -/
noncomputable def halfNode (E : Ext) (N j : ℕ) : ℝ := ((E.leggauss N).1 j + 1) / 2

/-- `P` is a polynomial of degree less than `N` which takes the values `v` at the points `x 0, …, x (N - 1)`. -/
def Through (N : ℕ) (x v : ℕ → ℝ) (P : ℝ[X]) : Prop := P.degree < N ∧ ∀ j < N, P.eval (x j) = v j

/-- `f` is, for `μ > 0`, the polynomial through the values `v 0, …, v (N - 1)` at the nodes `x j` and, for `μ ≤ 0`, the polynomial through the
values `v N, …, v (2 N - 1)` at `-x j`. -/
def HemisphereInterpolant (N : ℕ) (x v : ℕ → ℝ) (f : ℝ → ℝ) : Prop :=
  ∃ P Q : ℝ[X], Through N x v P ∧ Through N (fun j => -x j) (fun j => v (N + j)) Q ∧
    ∀ mu, f mu = if 0 < mu then P.eval mu else Q.eval mu

end Pydisort.Spec

import Mathlib.Data.Nat.Factorial.Basic
import Verif.Model.NonFinite
import Verif.Spec.Problem

/-!
# What may be computed for associated Legendre functions

`lp m n x` is what `scipy.special.lpmv(m, n, x)` computes.
-/

namespace Pydisort.Spec

/-- No overflow and no rounding for the orders and degrees that a call uses. -/
def LegendreExact (a : Args) (lp : ℕ → ℕ → ℝ → Fl) : Prop :=
  ∀ m < nFourier a, ∀ n < nLeg a, ∀ x, lp m n x = .fin (assocLegendre m n x)

/-- A routine that multiplies with `(n+m)!/(n-m)!`: infinite or NaN when that product exceeds the largest number of double precision. -/
def ProductOverflows (lp : ℕ → ℕ → ℝ → Fl) : Prop :=
  ∀ m n : ℕ, m ≤ n → (2 : ℝ) ^ 1024 ≤ ((n + m).factorial : ℝ) / ((n - m).factorial : ℝ) → ∀ x : ℝ, -1 < x → x < 1 → ¬ (lp m n x).Finite

end Pydisort.Spec

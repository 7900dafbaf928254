import Mathlib.Data.Real.Basic
import Mathlib.Data.Nat.Factorial.Basic

/-!
# What double precision does to small factorial quotients
-/

namespace Pydisort.Spec

/-- `po m k` is what is computed for `(ℓ-m)!/(ℓ+m)!` with `ℓ = m + k`: zero, when the quotient is smaller than a quarter of the smallest positive number `2^(-1074)`. -/
def Flushes (po : ℕ → ℕ → ℝ) : Prop :=
  ∀ m k : ℕ, (k.factorial : ℝ) / ((2 * m + k).factorial : ℝ) < 1 / 2 ^ 1076 → po m k = 0

/-- Quotients that are not smaller than the smallest normal number `2^(-1022)` are computed. (Rounding errors are left out.) -/
def KeepsNormal (po : ℕ → ℕ → ℝ) : Prop :=
  ∀ m k : ℕ, (1 : ℝ) / 2 ^ 1022 ≤ (k.factorial : ℝ) / ((2 * m + k).factorial : ℝ) →
    po m k = (k.factorial : ℝ) / ((2 * m + k).factorial : ℝ)

end Pydisort.Spec

import Mathlib.Data.Real.Basic
import Mathlib.Algebra.Order.Archimedean.Basic
import Mathlib.Order.Monotone.Defs

/-!
# Specification: floating-point numbers and rounding
-/

namespace Pydisort.Spec

/-- A binary floating-point format: precision `p` and smallest exponent `emin` of a unit in the last place. There is no largest number: overflow is left out. -/
structure Format where
  p : ℕ
  emin : ℤ
  two_le : 2 ≤ p
  emin_le : emin ≤ -(2 * p : ℤ)

/-- IEEE 754 double precision, with subnormal numbers. -/
def binary64 : Format := ⟨53, -1074, by norm_num, by norm_num⟩

/-- The numbers of the format: integers of at most `p` bits times a power of two. -/
def Format.Rep (F : Format) (x : ℝ) : Prop := ∃ m e : ℤ, |m| < 2 ^ F.p ∧ F.emin ≤ e ∧ x = m * (2 : ℝ) ^ e

/-- A way to round: into the format, monotone, and exact for numbers of the format. Every rounding direction of IEEE 754 is one. -/
structure Rounding (F : Format) where
  rnd : ℝ → ℝ
  mono : Monotone rnd
  rep : ∀ x, F.Rep (rnd x)
  fix : ∀ x, F.Rep x → rnd x = x

end Pydisort.Spec

import Verif.Subroutines.Core
import Verif.NumPyLemmas
import Mathlib.Data.Nat.Choose.Sum
import Mathlib.Tactic.FieldSimp

/-! Helper lemmas: the affine change of variable in a polynomial. -/

namespace Pydisort
open Finset

theorem affineT_sum {a : ℝ} (ha : a ≠ 0) (b x : ℝ) (n : ℕ) (c : Vec) :
    ∑ i ∈ range n, (∑ j ∈ range n, affineT a b i j * c j) * (a * x + b) ^ i = ∑ j ∈ range n, c j * x ^ j := by
  simp_rw [sum_mul]
  rw [sum_comm]
  refine sum_congr rfl fun j hj => ?_
  rw [mem_range] at hj
  have h1 : x ^ j = (1 / a) ^ j * ((a * x + b) + (-b)) ^ j := by
    rw [show (a * x + b) + (-b) = a * x by ring, mul_pow, ← mul_assoc, ← mul_pow]
    rw [one_div, inv_mul_cancel₀ ha, one_pow, one_mul]
  rw [h1, add_pow, mul_sum, mul_sum]
  have h2 : ∑ i ∈ range n, affineT a b i j * c j * (a * x + b) ^ i
      = ∑ i ∈ range (j + 1), affineT a b i j * c j * (a * x + b) ^ i := by
    refine (sum_subset (range_mono (by omega)) fun i _ hi => ?_).symm
    have : j < i := by simpa using hi
    simp [affineT, Nat.choose_eq_zero_of_lt this]
  rw [h2]
  refine sum_congr rfl fun i hi => ?_
  have hi' : i ≤ j := by rw [mem_range] at hi; omega
  have hc : j.choose i ≠ 0 := (Nat.choose_pos hi').ne'
  unfold affineT
  rw [if_neg hc]; ring

end Pydisort

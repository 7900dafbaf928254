import Mathlib.Analysis.SpecialFunctions.Trigonometric.Chebyshev.Basic
import Mathlib.RingTheory.Polynomial.Chebyshev
import Mathlib.Analysis.SpecialFunctions.Trigonometric.Inverse
import Mathlib.Analysis.SpecialFunctions.Integrals.Basic
import Mathlib.MeasureTheory.Integral.IntervalIntegral.FundThmCalculus

/-! Helper lemmas: cosine series. -/

namespace Pydisort
open Finset Polynomial

theorem cos_series_zero {F : ℕ} {c : ℕ → ℝ} (h : ∀ x : ℝ, ∑ m ∈ range F, c m * Real.cos (m * x) = 0) :
    ∀ m < F, c m = 0 := by
  have hp : (∑ m ∈ range F, C (c m) * Chebyshev.T ℝ (m : ℤ)) = 0 := by
    refine Polynomial.eq_zero_of_infinite_isRoot _ ?_
    refine (Set.Icc_infinite (show (-1 : ℝ) < 1 by norm_num)).mono fun y hy => ?_
    have hy' : Real.cos (Real.arccos y) = y := Real.cos_arccos hy.1 hy.2
    rw [Set.mem_setOf_eq, IsRoot, eval_finset_sum]
    rw [← h (Real.arccos y)]
    refine sum_congr rfl fun m _ => ?_
    rw [eval_mul, eval_C]
    congr 1
    conv_lhs => rw [← hy']
    rw [Chebyshev.T_real_cos]; push_cast; rfl
  clear h
  induction F with
  | zero => intro m hm; omega
  | succ F ih =>
    rw [sum_range_succ] at hp
    have hdeg : (∑ m ∈ range F, C (c m) * Chebyshev.T ℝ (m : ℤ)).coeff F = 0 := by
      rw [finset_sum_coeff]
      refine sum_eq_zero fun m hm => ?_
      rw [coeff_C_mul]
      refine mul_eq_zero_of_right _ (coeff_eq_zero_of_natDegree_lt ?_)
      have : (Chebyshev.T ℝ (m : ℤ)).natDegree = m := by simp
      rw [this]; exact mem_range.mp hm
    have hlead : (Chebyshev.T ℝ (F : ℤ)).coeff F ≠ 0 := by
      have h1 : (Chebyshev.T ℝ (F : ℤ)).natDegree = F := by simp
      have h2 : (Chebyshev.T ℝ (F : ℤ)).leadingCoeff ≠ 0 := by
        rw [leadingCoeff_ne_zero]
        intro h0
        have := Chebyshev.T_eval_one ℝ (F : ℤ)
        rw [h0] at this; simp at this
      rwa [leadingCoeff, h1] at h2
    have hF : c F = 0 := by
      have := congrArg (fun q => q.coeff F) hp
      simp only [coeff_add, hdeg, coeff_C_mul, coeff_zero, zero_add] at this
      exact (mul_eq_zero.mp this).resolve_right hlead
    rw [hF] at hp
    simp only [map_zero, zero_mul, add_zero] at hp
    intro m hm
    rcases Nat.lt_succ_iff_lt_or_eq.mp hm with h | h
    · exact ih hp m h
    · rw [h]; exact hF

theorem integral_cos_mode (m : ℕ) (p0 : ℝ) :
    ∫ x in (0 : ℝ)..(2 * Real.pi), Real.cos (m * (p0 - x)) = if m = 0 then 2 * Real.pi else 0 := by
  by_cases hm : m = 0
  · subst hm; simp
  · rw [if_neg hm]
    have hm' : (m : ℝ) ≠ 0 := Nat.cast_ne_zero.mpr hm
    have hd : ∀ x ∈ Set.uIcc (0 : ℝ) (2 * Real.pi),
        HasDerivAt (fun x => -Real.sin (m * (p0 - x)) / m) (Real.cos (m * (p0 - x))) x := by
      intro x _
      have h1 : HasDerivAt (fun x : ℝ => (m : ℝ) * (p0 - x)) (-(m : ℝ)) x := by
        have := ((hasDerivAt_id x).const_sub p0).const_mul (m : ℝ)
        simpa using this
      refine ((h1.sin.neg).div_const (m : ℝ)).congr_deriv ?_
      field_simp
    rw [intervalIntegral.integral_eq_sub_of_hasDerivAt hd ((by fun_prop : Continuous fun x : ℝ =>
      Real.cos (m * (p0 - x))).intervalIntegrable _ _)]
    have : Real.sin (m * (p0 - 2 * Real.pi)) = Real.sin (m * (p0 - 0)) := by
      rw [show (m : ℝ) * (p0 - 2 * Real.pi) = m * (p0 - 0) - m * (2 * Real.pi) by ring]
      exact Real.sin_sub_nat_mul_two_pi _ _
    rw [this]; ring

end Pydisort

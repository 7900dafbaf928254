import Verif.Subroutines.Quad
import Verif.NumPyLemmas
import Mathlib.Analysis.SpecialFunctions.Trigonometric.Chebyshev.Basic
import Mathlib.Analysis.SpecialFunctions.Trigonometric.Complex
import Mathlib.MeasureTheory.Integral.IntervalIntegral.FundThmCalculus
import Mathlib.Analysis.SpecialFunctions.Integrals.Basic
import Mathlib.Analysis.Calculus.Deriv.Polynomial
import Mathlib.Topology.Algebra.Polynomial

/-! Helper lemmas: the Clenshaw-Curtis rule. -/

namespace Pydisort
open Finset Polynomial

/-- `Σ_{k < 2M} cos(π z k / M)`. -/
theorem sum_cos_period {M : ℕ} (hM : 0 < M) (z : ℤ) :
    ∑ k ∈ range (2 * M), Real.cos (Real.pi * z * k / M) = if (2 * M : ℤ) ∣ z then 2 * (M : ℝ) else 0 := by
  have hM' : (M : ℝ) ≠ 0 := by positivity
  split_ifs with h
  · obtain ⟨q, rfl⟩ := h
    rw [sum_congr rfl fun (k : ℕ) _ => show Real.cos (Real.pi * ((2 * M * q : ℤ) : ℝ) * k / M) = 1 from ?_]
    · simp
    · rw [show Real.pi * ((2 * M * q : ℤ) : ℝ) * k / M = ((q * k : ℤ) : ℝ) * (2 * Real.pi) by push_cast; field_simp]
      exact Real.cos_int_mul_two_pi _
  · have ha : ∀ k : ℤ, Real.pi * z / M ≠ k * (2 * Real.pi) := by
      intro k hk
      apply h
      refine ⟨k, ?_⟩
      have hpi := Real.pi_ne_zero
      have : (z : ℝ) = 2 * M * k := by
        field_simp at hk
        linarith
      exact_mod_cast this
    have := Real.sum_cos (2 * M) ha 0
    simp only [add_zero] at this
    rw [sum_congr rfl fun (k : ℕ) _ => show Real.cos (Real.pi * z * k / M) = Real.cos (Real.pi * z / M * k) by congr 1; ring]
    rw [this]
    have : Real.sin (((2 * M : ℕ) : ℝ) * (Real.pi * z / M) / 2) = 0 := by
      rw [show ((2 * M : ℕ) : ℝ) * (Real.pi * z / M) / 2 = z * Real.pi by push_cast; field_simp]
      exact Real.sin_int_mul_pi z
    rw [this]; simp

/-- Discrete orthogonality of the cosines over a full period. -/
theorem sum_cos_mul_cos {M : ℕ} (hM : 0 < M) {j r : ℕ} (hj : j ≤ M) (hr : r ≤ M) :
    ∑ k ∈ range (2 * M), Real.cos (Real.pi * k * j / M) * Real.cos (Real.pi * k * r / M)
      = if j = r then (if j = 0 ∨ j = M then 2 * (M : ℝ) else M) else 0 := by
  have h1 : ∀ k : ℕ, Real.cos (Real.pi * k * j / M) * Real.cos (Real.pi * k * r / M)
      = (Real.cos (Real.pi * ((j + r : ℤ) : ℝ) * k / M) + Real.cos (Real.pi * ((j - r : ℤ) : ℝ) * k / M)) / 2 := fun k => by
    rw [show Real.pi * ((j + r : ℤ) : ℝ) * k / M = Real.pi * k * j / M + Real.pi * k * r / M by push_cast; ring,
      show Real.pi * ((j - r : ℤ) : ℝ) * k / M = Real.pi * k * j / M - Real.pi * k * r / M by push_cast; ring,
      Real.cos_add, Real.cos_sub]
    ring
  simp_rw [h1]
  rw [← sum_div, sum_add_distrib, sum_cos_period hM, sum_cos_period hM]
  have d1 : (2 * M : ℤ) ∣ (j + r : ℤ) ↔ j = r ∧ (j = 0 ∨ j = M) := by
    constructor
    · rintro ⟨q, hq⟩
      have : q = 0 ∨ q = 1 := by
        have h0 : 0 ≤ q := by
          by_contra hc
          have : (2 * M : ℤ) * q < 0 := mul_neg_of_pos_of_neg (by omega) (by omega)
          omega
        have h1 : q ≤ 1 := by
          by_contra hc
          have : (2 * M : ℤ) * 2 ≤ 2 * M * q := mul_le_mul_of_nonneg_left (by omega) (by omega)
          omega
        omega
      rcases this with rfl | rfl <;> omega
    · rintro ⟨rfl, rfl | rfl⟩
      · exact ⟨0, by simp⟩
      · exact ⟨1, by ring⟩
  have d2 : (2 * M : ℤ) ∣ (j - r : ℤ) ↔ j = r := by
    constructor
    · rintro ⟨q, hq⟩
      have : q = 0 := by
        by_contra hc
        rcases lt_or_gt_of_ne hc with h | h
        · have : (2 * M : ℤ) * q ≤ 2 * M * (-1) := mul_le_mul_of_nonneg_left (by omega) (by omega)
          omega
        · have : (2 * M : ℤ) * 1 ≤ 2 * M * q := mul_le_mul_of_nonneg_left (by omega) (by omega)
          omega
      subst this; omega
    · rintro rfl; simp
  simp only [d1, d2]
  by_cases h : j = r
  · by_cases h' : j = 0 ∨ j = M
    · simp only [h, true_and, if_true]
      rw [h] at h'
      simp only [h', if_true]
      ring
    · simp only [h, true_and, if_true]
      rw [h] at h'
      simp only [h', if_false]
      ring
  · simp [h]

/-- The value of the DCT on line 170, before the first entry is halved. -/
noncomputable def ccW (M : ℕ) (d : Vec) (k : ℕ) : ℝ :=
  (d 0 + (-1) ^ k * d M + 2 * ∑ j ∈ range (M - 1), d (j + 1) * Real.cos (Real.pi * k * (j + 1 : ℕ) / M)) / (2 * M)

theorem cos_pi_nat (k : ℕ) : Real.cos (Real.pi * k) = (-1) ^ k := by
  rw [mul_comm]; exact Real.cos_nat_mul_pi k

/-- The DCT over a full period reproduces the coefficients. -/
theorem ccW_sum {M : ℕ} (hM : 0 < M) (d : Vec) {r : ℕ} (hr : r ≤ M) :
    ∑ k ∈ range (2 * M), ccW M d k * Real.cos (Real.pi * k * r / M) = d r := by
  have hM' : (M : ℝ) ≠ 0 := by positivity
  have e0 : ∀ k : ℕ, Real.cos (Real.pi * k * (0 : ℕ) / M) = 1 := fun k => by simp
  have eM : ∀ k : ℕ, Real.cos (Real.pi * k * M / M) = (-1) ^ k := fun k => by
    rw [mul_div_assoc, div_self hM', mul_one, cos_pi_nat]
  have h1 : ∀ k : ℕ, ccW M d k * Real.cos (Real.pi * k * r / M)
      = (d 0 * (Real.cos (Real.pi * k * (0 : ℕ) / M) * Real.cos (Real.pi * k * r / M))
        + d M * (Real.cos (Real.pi * k * M / M) * Real.cos (Real.pi * k * r / M))
        + 2 * ∑ j ∈ range (M - 1), d (j + 1) * (Real.cos (Real.pi * k * (j + 1 : ℕ) / M) * Real.cos (Real.pi * k * r / M))) / (2 * M) := by
    intro k
    rw [e0, eM]
    unfold ccW
    rw [div_mul_eq_mul_div]
    congr 1
    rw [add_mul, add_mul]
    congr 1
    · ring
    · rw [mul_assoc, sum_mul]
      congr 1
      exact sum_congr rfl fun j _ => by ring
  simp_rw [h1]
  rw [← sum_div, sum_add_distrib, sum_add_distrib, ← mul_sum, ← mul_sum, ← mul_sum, sum_comm]
  simp_rw [← mul_sum]
  rw [sum_cos_mul_cos hM (Nat.zero_le M) hr, sum_cos_mul_cos hM le_rfl hr]
  rw [sum_congr rfl fun j hj => by
    rw [sum_cos_mul_cos hM (show j + 1 ≤ M by have := mem_range.mp hj; omega) hr]]
  rw [div_eq_iff (by positivity)]
  rcases Nat.eq_zero_or_pos r with rfl | hr0
  · rw [if_pos rfl, if_pos (Or.inl rfl), if_neg (by omega), sum_eq_zero fun j _ => by rw [if_neg (by omega), mul_zero]]
    ring
  · rw [if_neg (by omega)]
    rcases eq_or_lt_of_le hr with rfl | hlt
    · rw [if_pos rfl, if_pos (Or.inr rfl), sum_eq_zero fun j hj => by
        rw [if_neg (by have := mem_range.mp hj; omega), mul_zero]]
      ring
    · rw [if_neg (by omega), sum_eq_single (r - 1)]
      · rw [show r - 1 + 1 = r by omega, if_pos rfl, if_neg (by omega)]
        ring
      · intro j _ hj
        rw [if_neg (by omega), mul_zero]
      · intro h
        exact absurd (mem_range.mpr (by omega)) h

/-! ## Integrals of Chebyshev polynomials -/

theorem integral_poly_deriv (P p : ℝ[X]) (h : P.derivative = p) (a b : ℝ) : ∫ x in a..b, p.eval x = P.eval b - P.eval a := by
  subst h
  exact intervalIntegral.integral_eq_sub_of_hasDerivAt (fun x _ => P.hasDerivAt x) (P.derivative.continuous.intervalIntegrable _ _)

theorem integral_T_even (r : ℕ) : ∫ x in (-1 : ℝ)..1, (Chebyshev.T ℝ ((2 * r : ℕ) : ℤ)).eval x = 2 / (1 - 4 * (r : ℝ) ^ 2) := by
  rcases Nat.eq_zero_or_pos r with rfl | hr
  · simp; norm_num
  have hr1 : (1 : ℝ) ≤ r := by exact_mod_cast hr
  have h1 : (2 * (r : ℝ) + 1) ≠ 0 := by positivity
  have h2 : (2 * (r : ℝ) - 1) ≠ 0 := by
    have : (0 : ℝ) < 2 * r - 1 := by linarith
    exact this.ne'
  let P : ℝ[X] := C (1 / (2 * (2 * (r : ℝ) + 1))) * Chebyshev.T ℝ (2 * r + 1 : ℤ) - C (1 / (2 * (2 * (r : ℝ) - 1))) * Chebyshev.T ℝ (2 * r - 1 : ℤ)
  have hP : P.derivative = Chebyshev.T ℝ ((2 * r : ℕ) : ℤ) := by
    simp only [P, derivative_sub, derivative_mul, derivative_C, zero_mul, zero_add, Chebyshev.T_derivative_eq_U]
    have hU := Chebyshev.two_mul_T_eq_U_sub_U ℝ (2 * r - 2 : ℤ)
    rw [show (2 * r - 2 + 2 : ℤ) = 2 * r by ring] at hU
    rw [show (2 * r + 1 - 1 : ℤ) = 2 * r by ring, show (2 * r - 1 - 1 : ℤ) = 2 * r - 2 by ring]
    rw [show (((2 * r + 1 : ℤ) : ℤ) : ℝ[X]) = C (2 * (r : ℝ) + 1) by rw [← map_intCast (C : ℝ →+* ℝ[X])]; push_cast; rfl, show (((2 * r - 1 : ℤ) : ℤ) : ℝ[X]) = C (2 * (r : ℝ) - 1) by rw [← map_intCast (C : ℝ →+* ℝ[X])]; push_cast; rfl]
    rw [← mul_assoc, ← mul_assoc, ← C_mul, ← C_mul]
    rw [show 1 / (2 * (2 * (r : ℝ) + 1)) * (2 * r + 1) = 1 / 2 by field_simp, show 1 / (2 * (2 * (r : ℝ) - 1)) * (2 * r - 1) = 1 / 2 by field_simp]
    rw [← mul_sub, ← hU, ← mul_assoc]
    have : (C (1 / 2 : ℝ) * 2 : ℝ[X]) = 1 := by
      rw [show (2 : ℝ[X]) = C 2 from rfl, ← C_mul]; norm_num
    rw [this, one_mul]; norm_num
  rw [integral_poly_deriv P _ hP]
  have hodd1 : (2 * r + 1 : ℤ).negOnePow = -1 := Int.negOnePow_odd _ ⟨r, rfl⟩
  have hodd2 : (2 * r - 1 : ℤ).negOnePow = -1 := Int.negOnePow_odd _ ⟨r - 1, by ring⟩
  simp only [P, eval_sub, eval_mul, eval_C, Chebyshev.T_eval_one, Chebyshev.T_eval_neg_one, hodd1, hodd2]
  push_cast
  have h3 : (1 - 4 * (r : ℝ) ^ 2) ≠ 0 := by
    have : (1 - 4 * (r : ℝ) ^ 2) = -((2 * r + 1) * (2 * r - 1)) := by ring
    rw [this]; exact neg_ne_zero.mpr (mul_ne_zero h1 h2)
  rw [eq_div_iff h3, show (1 - 4 * (r : ℝ) ^ 2) = -((2 * r + 1) * (2 * r - 1)) by ring]
  field_simp
  ring

/-- A linear functional on polynomials that vanishes on the Chebyshev polynomials up to degree `K` vanishes on all polynomials of degree at most `K`. -/
theorem vanish_of_chebyshev (L : ℝ[X] →ₗ[ℝ] ℝ) (K : ℕ) (h : ∀ n : ℕ, n ≤ K → L (Chebyshev.T ℝ n) = 0) (p : ℝ[X]) (hp : p.natDegree ≤ K) :
    L p = 0 := by
  have key : ∀ a b : ℕ, a + b ≤ K → L (X ^ a * Chebyshev.T ℝ b) = 0 := by
    intro a
    induction a with
    | zero => intro b hb; simpa using h b (by omega)
    | succ a ih =>
      intro b hb
      rcases Nat.eq_zero_or_pos b with rfl | hb0
      · have := ih 1 (by omega)
        simpa [pow_succ] using this
      · have h1 := ih (b + 1) (by omega)
        have h2 := ih (b - 1) (by omega)
        have e : (X ^ (a + 1) * Chebyshev.T ℝ b : ℝ[X]) = C (1 / 2 : ℝ) * (X ^ a * Chebyshev.T ℝ ((b + 1 : ℕ) : ℤ))
            + C (1 / 2 : ℝ) * (X ^ a * Chebyshev.T ℝ ((b - 1 : ℕ) : ℤ)) := by
          rw [show ((b + 1 : ℕ) : ℤ) = (b : ℤ) + 1 by push_cast; ring, show ((b - 1 : ℕ) : ℤ) = (b : ℤ) - 1 by omega, Chebyshev.T_add_one]
          have : (C (1 / 2 : ℝ) * 2 : ℝ[X]) = 1 := by
            rw [show (2 : ℝ[X]) = C 2 from rfl, ← C_mul]; norm_num
          rw [pow_succ]
          linear_combination -(X ^ a * X * Chebyshev.T ℝ b) * this
        rw [e, map_add, ← smul_eq_C_mul, ← smul_eq_C_mul, map_smul, map_smul, h1, h2]
        simp
  rw [p.as_sum_range_C_mul_X_pow, map_sum]
  refine sum_eq_zero fun k hk => ?_
  rw [← smul_eq_C_mul, map_smul]
  have := key k 0 (by have := mem_range.mp hk; omega)
  simp only [Nat.cast_zero, Chebyshev.T_zero, mul_one] at this
  rw [this, smul_zero]

end Pydisort

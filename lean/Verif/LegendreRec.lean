import Verif.LegendreOrtho

/-!
# Recurrences of the Legendre polynomials and of their derivatives
-/

namespace Pydisort
open Polynomial Spec

/-- `D (X w^l) = (2 l + 1) w^l + 2 l w^(l-1)` for `w = X² - 1`. -/
theorem derivative_X_mul_pow (l : ℕ) : derivative ((X : ℝ[X]) * (X ^ 2 - 1) ^ (l + 1))
    = C (2 * ((l : ℝ) + 1) + 1) * (X ^ 2 - 1) ^ (l + 1) + C (2 * ((l : ℝ) + 1)) * (X ^ 2 - 1) ^ l := by
  rw [derivative_mul, derivative_X, derivative_pow]
  simp only [derivative_sub, derivative_X_pow, derivative_one, Nat.cast_add, Nat.cast_one, Nat.add_sub_cancel, map_add, map_mul, map_natCast,
    map_ofNat, map_one, pow_one, Nat.cast_ofNat]
  norm_num
  ring

theorem legendreP_succ_rodrigues (l : ℕ) : legendreP (l + 1) = C (1 / (2 ^ l * (l.factorial : ℝ))) * derivative^[l] (X * (X ^ 2 - 1) ^ l) := by
  unfold legendreP
  rw [Function.iterate_succ_apply, derivative_pow]
  have e : (C ((l + 1 : ℕ) : ℝ) * (X ^ 2 - 1) ^ (l + 1 - 1) * derivative (X ^ 2 - 1 : ℝ[X])) = C (2 * ((l : ℝ) + 1)) * (X * (X ^ 2 - 1) ^ l) := by
    simp only [derivative_sub, derivative_X_pow, derivative_one, Nat.cast_add, Nat.cast_one, Nat.add_sub_cancel, map_add, map_mul, map_natCast,
      map_ofNat, map_one, pow_one, Nat.cast_ofNat]
    ring
  rw [e, iterate_derivative_C_mul, ← mul_assoc, ← C_mul]
  congr 2
  rw [Nat.factorial_succ, pow_succ]
  have : (l.factorial : ℝ) ≠ 0 := by positivity
  push_cast
  field_simp

/-- `P'_{l+1} = (l + 1) P_l + X P'_l`. -/
theorem derivative_legendreP_succ (l : ℕ) : derivative (legendreP (l + 1)) = C ((l : ℝ) + 1) * legendreP l + X * derivative (legendreP l) := by
  rw [legendreP_succ_rodrigues, derivative_C_mul, ← Function.iterate_succ_apply' (f := derivative), mul_comm (X : ℝ[X]), iterate_derivative_mul_X]
  unfold legendreP
  rw [derivative_C_mul, ← Function.iterate_succ_apply' (f := derivative)]
  simp only [Nat.succ_sub_one, nsmul_eq_mul, Nat.cast_succ, map_add, map_natCast, map_one]
  ring

/-- `P'_{l+2} - P'_l = (2 l + 3) P_{l+1}`. -/
theorem derivative_legendreP_sub (l : ℕ) : derivative (legendreP (l + 2)) - derivative (legendreP l) = C (2 * (l : ℝ) + 3) * legendreP (l + 1) := by
  rw [legendreP_succ_rodrigues (l + 1), derivative_C_mul, ← Function.iterate_succ_apply' (f := derivative), Function.iterate_succ_apply, derivative_X_mul_pow,
    iterate_map_add, iterate_derivative_C_mul, iterate_derivative_C_mul]
  unfold legendreP
  rw [derivative_C_mul, ← Function.iterate_succ_apply' (f := derivative)]
  have h : (C (1 / (2 ^ (l + 1) * ((l + 1).factorial : ℝ))) * C (2 * ((l : ℝ) + 1)) : ℝ[X]) = C (1 / (2 ^ l * (l.factorial : ℝ))) := by
    rw [← C_mul]
    congr 1
    rw [Nat.factorial_succ, pow_succ]
    have : (l.factorial : ℝ) ≠ 0 := by positivity
    push_cast
    field_simp
  rw [mul_add, ← mul_assoc, ← mul_assoc, h]
  have h3 : (C (2 * ((l : ℝ) + 1) + 1) : ℝ[X]) = C (2 * (l : ℝ) + 3) := by congr 1; ring
  rw [h3]
  ring

theorem derivative_legendreP_prev (l : ℕ) : derivative (legendreP l) = X * derivative (legendreP (l + 1)) - C ((l : ℝ) + 1) * legendreP (l + 1) := by
  have h1 := derivative_legendreP_sub l
  have h2 := derivative_legendreP_succ (l + 1)
  have e1 : (C (2 * (l : ℝ) + 3) : ℝ[X]) = C ((l : ℝ) + 1) + C (((l + 1 : ℕ) : ℝ) + 1) := by rw [← C_add]; congr 1; push_cast; ring
  rw [e1] at h1
  linear_combination h1 * (-1) + h2

/-- `(l + 2) P_{l+2} = (2 l + 3) X P_{l+1} - (l + 1) P_l`. -/
theorem legendreP_bonnet (l : ℕ) : C ((l : ℝ) + 2) * legendreP (l + 2) = C (2 * (l : ℝ) + 3) * (X * legendreP (l + 1)) - C ((l : ℝ) + 1) * legendreP l := by
  have a0 := derivative_legendreP_prev l
  have a1 := derivative_legendreP_prev (l + 1)
  have b0 := derivative_legendreP_succ l
  have b1 := derivative_legendreP_succ (l + 1)
  have e1 : (C (2 * (l : ℝ) + 3) : ℝ[X]) = C ((l : ℝ) + 1) + C ((l : ℝ) + 2) := by rw [← C_add]; congr 1; ring
  have e2 : (C (((l + 1 : ℕ) : ℝ) + 1) : ℝ[X]) = C ((l : ℝ) + 2) := by congr 1; push_cast; ring
  rw [e2] at a1 b1
  rw [e1]
  linear_combination a1 + X * b1 - X * a0 - b0

/-- `(1 - X²) P'_{l+1} (2 l + 3) = (l + 1) (l + 2) (P_l - P_{l+2})`. -/
theorem legendreP_weighted (l : ℕ) : C (2 * (l : ℝ) + 3) * ((1 - X ^ 2) * derivative (legendreP (l + 1)))
    = C (((l : ℝ) + 1) * ((l : ℝ) + 2)) * (legendreP l - legendreP (l + 2)) := by
  have a0 := derivative_legendreP_prev l
  have b0 := derivative_legendreP_succ l
  have c := legendreP_bonnet l
  have e1 : (C (2 * (l : ℝ) + 3) : ℝ[X]) = C ((l : ℝ) + 1) + C ((l : ℝ) + 2) := by rw [← C_add]; congr 1; ring
  rw [e1] at c ⊢
  rw [C_mul]
  linear_combination (C ((l : ℝ) + 1) + C ((l : ℝ) + 2)) * b0 + (C ((l : ℝ) + 1) + C ((l : ℝ) + 2)) * X * a0 + C ((l : ℝ) + 1) * c

/-- `m`-th derivative of `P_l`. -/
noncomputable abbrev dP (m l : ℕ) : ℝ[X] := derivative^[m] (legendreP l)

theorem derivative_dP (m l : ℕ) : derivative (dP m l) = dP (m + 1) l := (Function.iterate_succ_apply' derivative m _).symm

theorem dP_zero {m l : ℕ} (h : l < m) : dP m l = 0 := iterate_derivative_eq_zero ((natDegree_legendreP l).trans_lt h)

/-- `(2 l + 3) P_{l+1}^{(m)} = P_{l+2}^{(m+1)} - P_l^{(m+1)}`. -/
theorem dP_diff (m l : ℕ) : C (2 * (l : ℝ) + 3) * dP m (l + 1) = dP (m + 1) (l + 2) - dP (m + 1) l := by
  rw [← iterate_derivative_C_mul, ← derivative_legendreP_sub, iterate_derivative_sub]
  rfl

/-- `(2 l + 3) X P_{l+1}^{(m)} = (l + 2 - m) P_{l+2}^{(m)} + (l + 1 + m) P_l^{(m)}`. -/
theorem dP_mul_X (m l : ℕ) : C (2 * (l : ℝ) + 3) * (X * dP m (l + 1)) = C ((l : ℝ) + 2 - m) * dP m (l + 2) + C ((l : ℝ) + 1 + m) * dP m l := by
  induction m with
  | zero =>
    have := legendreP_bonnet l
    simp only [dP, Function.iterate_zero, id, Nat.cast_zero, sub_zero, add_zero]
    linear_combination (-1) * this
  | succ m ih =>
    have h := congrArg derivative ih
    simp only [derivative_C_mul, derivative_add, derivative_mul (f := X), derivative_X, derivative_dP] at h
    have h2 := dP_diff m l
    have e1 : (C ((l : ℝ) + 2 - (m + 1 : ℕ)) : ℝ[X]) = C ((l : ℝ) + 2 - m) - 1 := by rw [← C_1, ← C_sub]; congr 1; push_cast; ring
    have e2 : (C ((l : ℝ) + 1 + (m + 1 : ℕ)) : ℝ[X]) = C ((l : ℝ) + 1 + m) + 1 := by rw [← C_1, ← C_add]; congr 1; push_cast; ring
    rw [e1, e2]
    linear_combination h - h2

/-- `(2 l + 3) (1 - X²) P_{l+1}^{(m+1)} = (l + 1 + m) (l + 2 + m) P_l^{(m)} - (l + 1 - m) (l + 2 - m) P_{l+2}^{(m)}`. -/
theorem dP_weighted (m l : ℕ) : C (2 * (l : ℝ) + 3) * ((1 - X ^ 2) * dP (m + 1) (l + 1))
    = C (((l : ℝ) + 1 + m) * ((l : ℝ) + 2 + m)) * dP m l - C (((l : ℝ) + 1 - m) * ((l : ℝ) + 2 - m)) * dP m (l + 2) := by
  induction m with
  | zero =>
    have := legendreP_weighted l
    simp only [dP, Function.iterate_zero, id, Nat.cast_zero, sub_zero, add_zero, zero_add, Function.iterate_one]
    linear_combination this
  | succ m ih =>
    have h := congrArg derivative ih
    have hd : derivative ((1 - X ^ 2 : ℝ[X]) * dP (m + 1) (l + 1)) = -(2 * X) * dP (m + 1) (l + 1) + (1 - X ^ 2) * dP (m + 1 + 1) (l + 1) := by
      rw [derivative_mul, derivative_dP, derivative_sub, derivative_one, derivative_X_pow]
      norm_num
      exact Or.inl (map_ofNat C 2)
    rw [derivative_sub, derivative_C_mul, derivative_C_mul, derivative_C_mul, hd, derivative_dP, derivative_dP] at h
    have h2 := dP_mul_X (m + 1) l
    have e1 : (C (((l : ℝ) + 1 + (m + 1 : ℕ)) * ((l : ℝ) + 2 + (m + 1 : ℕ))) : ℝ[X])
        = C (((l : ℝ) + 1 + m) * ((l : ℝ) + 2 + m)) + 2 * C ((l : ℝ) + 1 + (m + 1 : ℕ)) := by
      rw [← map_ofNat C 2, ← C_mul, ← C_add]; congr 1; push_cast; ring
    have e2 : (C (((l : ℝ) + 1 - (m + 1 : ℕ)) * ((l : ℝ) + 2 - (m + 1 : ℕ))) : ℝ[X])
        = C (((l : ℝ) + 1 - m) * ((l : ℝ) + 2 - m)) - 2 * C ((l : ℝ) + 2 - (m + 1 : ℕ)) := by
      rw [← map_ofNat C 2, ← C_mul, ← C_sub]; congr 1; push_cast; ring
    rw [e1, e2]
    linear_combination h + 2 * h2

end Pydisort

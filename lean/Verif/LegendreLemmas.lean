import Verif.Spec.Legendre
import Mathlib.Tactic.Ring
import Mathlib.Tactic.LinearCombination

/-! Helper lemmas about Legendre polynomials and associated Legendre functions. -/

namespace Pydisort.Spec
open Polynomial

theorem iterate_derivative_comp_neg_X (p : ℝ[X]) (k : ℕ) :
    derivative^[k] (p.comp (-X)) = (-1) ^ k * (derivative^[k] p).comp (-X) := by
  induction k generalizing p with
  | zero => simp
  | succ k ih =>
    rw [Function.iterate_succ_apply, derivative_comp, derivative_neg, derivative_X, neg_one_mul]
    rw [Polynomial.iterate_derivative_neg, ih, Function.iterate_succ_apply, pow_succ]
    ring

theorem legendreP_comp_neg (l : ℕ) : (legendreP l).comp (-X) = (-1) ^ l * legendreP l := by
  unfold legendreP
  have h := iterate_derivative_comp_neg_X ((X ^ 2 - 1) ^ l) l
  have h2 : (((X : ℝ[X]) ^ 2 - 1) ^ l).comp (-X) = (X ^ 2 - 1) ^ l := by simp
  rw [h2] at h
  have h3 : ((-1 : ℝ[X])) ^ l * (-1) ^ l = 1 := by rw [← mul_pow]; simp
  rw [mul_comp, C_comp]
  have : (derivative^[l] (((X : ℝ[X]) ^ 2 - 1) ^ l)).comp (-X)
      = (-1) ^ l * derivative^[l] ((X ^ 2 - 1) ^ l) := by
    conv_rhs => rw [h]
    rw [← mul_assoc, h3, one_mul]
  rw [this]; ring

/-- `P_{m+k}^m(-x) = (-1)^k P_{m+k}^m(x)`. -/
theorem assocLegendre_neg (m k : ℕ) (x : ℝ) :
    assocLegendre m (m + k) (-x) = (-1) ^ k * assocLegendre m (m + k) x := by
  unfold assocLegendre
  have h := iterate_derivative_comp_neg_X (legendreP (m + k)) m
  rw [legendreP_comp_neg] at h
  have h1 : derivative^[m] ((-1 : ℝ[X]) ^ (m + k) * legendreP (m + k))
      = (-1 : ℝ[X]) ^ (m + k) * derivative^[m] (legendreP (m + k)) := by
    have : ((-1 : ℝ[X]) ^ (m + k)) = C ((-1 : ℝ) ^ (m + k)) := by simp
    rw [this, iterate_derivative_C_mul]
  rw [h1] at h
  have h2 := congrArg (fun p => p.eval x) h
  simp only [eval_mul, eval_pow, eval_neg, eval_one, eval_comp, eval_X] at h2
  have e1 : ((-1 : ℝ)) ^ m * (-1) ^ m = 1 := by rw [← mul_pow]; simp
  have h3 : eval (-x) (derivative^[m] (legendreP (m + k)))
      = (-1) ^ k * eval x (derivative^[m] (legendreP (m + k))) := by
    calc _ = ((-1 : ℝ)) ^ m * (-1) ^ m * eval (-x) (derivative^[m] (legendreP (m + k))) := by
          rw [e1, one_mul]
      _ = (-1) ^ m * ((-1) ^ (m + k) * eval x (derivative^[m] (legendreP (m + k)))) := by
          rw [h2]; ring
      _ = ((-1) ^ m * (-1) ^ m) * ((-1) ^ k * eval x (derivative^[m] (legendreP (m + k)))) := by
          rw [pow_add]; ring
      _ = _ := by rw [e1, one_mul]
  rw [h3, neg_sq]; ring

theorem legendreP_zero : legendreP 0 = 1 := by simp [legendreP]

end Pydisort.Spec

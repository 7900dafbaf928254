import Verif.LegendreLemmas
import Mathlib.Analysis.SpecialFunctions.Integrals.Basic
import Mathlib.MeasureTheory.Integral.IntervalIntegral.FundThmCalculus
import Mathlib.Analysis.Calculus.Deriv.Polynomial
import Mathlib.Algebra.Polynomial.Derivative
import Mathlib.Topology.Algebra.Polynomial
import Mathlib.Tactic.ComputeDegree
import Mathlib.Tactic.FieldSimp

/-! Orthogonality of the associated Legendre functions. -/

namespace Pydisort.Spec
open Polynomial MeasureTheory

/-- `∫_{-1}^1 p`. -/
noncomputable def pint (p : ℝ[X]) : ℝ := ∫ x in (-1 : ℝ)..1, p.eval x

theorem pint_int (p : ℝ[X]) (a b : ℝ) : IntervalIntegrable (fun x => p.eval x) volume a b :=
  p.continuous.intervalIntegrable a b

theorem pint_add (p q : ℝ[X]) : pint (p + q) = pint p + pint q := by
  unfold pint
  simp only [eval_add]
  exact intervalIntegral.integral_add (pint_int p _ _) (pint_int q _ _)

theorem pint_sub (p q : ℝ[X]) : pint (p - q) = pint p - pint q := by
  unfold pint
  simp only [eval_sub]
  exact intervalIntegral.integral_sub (pint_int p _ _) (pint_int q _ _)

theorem pint_C_mul (c : ℝ) (p : ℝ[X]) : pint (C c * p) = c * pint p := by
  unfold pint
  simp only [eval_mul, eval_C]
  exact intervalIntegral.integral_const_mul c _

theorem pint_derivative (p : ℝ[X]) : pint (derivative p) = p.eval 1 - p.eval (-1) := by
  unfold pint
  refine intervalIntegral.integral_eq_sub_of_hasDerivAt (fun x _ => p.hasDerivAt x) ?_
  exact pint_int _ _ _

/-- Integration by parts. -/
theorem pint_parts (p q : ℝ[X]) (h1 : p.eval 1 = 0) (h2 : p.eval (-1) = 0) :
    pint (derivative p * q) = -pint (p * derivative q) := by
  have := pint_derivative (p * q)
  rw [derivative_mul, pint_add, eval_mul, eval_mul, h1, h2] at this
  linarith

/-- `(x² - 1)^l` has zeros of order `l` at `±1`. -/
theorem deriv_pow_zero {l j : ℕ} (h : j < l) (q : ℝ[X]) :
    (derivative^[j] ((X ^ 2 - 1) ^ l * q)).eval 1 = 0 ∧ (derivative^[j] ((X ^ 2 - 1) ^ l * q)).eval (-1) = 0 := by
  have key : ∀ (j l : ℕ) (q : ℝ[X]), j < l → ∃ r : ℝ[X], derivative^[j] ((X ^ 2 - 1) ^ l * q) = (X ^ 2 - 1) ^ (l - j) * r := by
    intro j
    induction j with
    | zero => intro l q _; exact ⟨q, by simp⟩
    | succ j ih =>
      intro l q hl
      obtain ⟨r, hr⟩ := ih l q (by omega)
      rw [Function.iterate_succ_apply', hr]
      obtain ⟨k, hk⟩ : ∃ k, l - j = k + 1 := ⟨l - j - 1, by omega⟩
      rw [hk, show l - (j + 1) = k by omega, derivative_mul, derivative_pow]
      refine ⟨C ((k + 1 : ℕ) : ℝ) * derivative (X ^ 2 - 1) * r + (X ^ 2 - 1) * derivative r, ?_⟩
      simp only [Nat.add_sub_cancel]
      ring
  obtain ⟨r, hr⟩ := key j l q h
  rw [hr]
  have hp : l - j ≠ 0 := by omega
  constructor <;> simp [hp]

/-- Repeated integration by parts. -/
theorem pint_rodrigues (l : ℕ) (f q : ℝ[X]) :
    pint (derivative^[l] ((X ^ 2 - 1) ^ l * f) * q) = (-1) ^ l * pint ((X ^ 2 - 1) ^ l * f * derivative^[l] q) := by
  have key : ∀ j ≤ l, pint (derivative^[l] ((X ^ 2 - 1) ^ l * f) * q)
      = (-1) ^ j * pint (derivative^[l - j] ((X ^ 2 - 1) ^ l * f) * derivative^[j] q) := by
    intro j
    induction j with
    | zero => intro _; simp
    | succ j ih =>
      intro hj
      rw [ih (by omega)]
      obtain ⟨k, hk⟩ : ∃ k, l - j = k + 1 := ⟨l - j - 1, by omega⟩
      have h0 := deriv_pow_zero (l := l) (j := k) (by omega) f
      rw [hk, show l - (j + 1) = k by omega, Function.iterate_succ_apply',
        pint_parts _ _ h0.1 h0.2, Function.iterate_succ_apply' derivative j]
      ring
  have := key l le_rfl
  rwa [Nat.sub_self, Function.iterate_zero, id] at this

theorem legendreP_eq (l : ℕ) : legendreP l = C (1 / (2 ^ l * (l.factorial : ℝ))) * derivative^[l] ((X ^ 2 - 1) ^ l * 1) := by
  rw [mul_one]; rfl

theorem pint_legendreP_mul (l : ℕ) (q : ℝ[X]) : pint (legendreP l * q)
    = (-1) ^ l / (2 ^ l * (l.factorial : ℝ)) * pint ((X ^ 2 - 1) ^ l * derivative^[l] q) := by
  rw [legendreP_eq, mul_assoc, pint_C_mul, pint_rodrigues, mul_one]
  ring

/-- `P_l` is orthogonal to lower degrees. -/
theorem pint_legendreP_lower {l : ℕ} {q : ℝ[X]} (h : q.natDegree < l) : pint (legendreP l * q) = 0 := by
  rw [pint_legendreP_mul, iterate_derivative_eq_zero h, mul_zero]
  simp [pint]

theorem natDegree_sq_sub_one_pow (l : ℕ) : (((X : ℝ[X]) ^ 2 - 1) ^ l).natDegree = 2 * l := by
  have h : ((X : ℝ[X]) ^ 2 - 1).natDegree = 2 := by compute_degree!
  rw [natDegree_pow, h]
  ring

theorem natDegree_legendreP (l : ℕ) : (legendreP l).natDegree ≤ l := by
  unfold legendreP
  refine (natDegree_C_mul_le _ _).trans ((natDegree_iterate_derivative _ _).trans ?_)
  rw [natDegree_sq_sub_one_pow]; omega

theorem coeff_legendreP (l : ℕ) : (legendreP l).coeff l
    = ((2 * l).factorial : ℝ) / (2 ^ l * (l.factorial : ℝ) * (l.factorial : ℝ)) := by
  unfold legendreP
  rw [coeff_C_mul, coeff_iterate_derivative]
  have h1 : (((X : ℝ[X]) ^ 2 - 1) ^ l).coeff (l + l) = 1 := by
    have hm : ((X : ℝ[X]) ^ 2 - 1).Monic := by monicity!
    have := (hm.pow l).coeff_natDegree
    rwa [natDegree_sq_sub_one_pow, two_mul] at this
  rw [h1, nsmul_eq_mul, mul_one, ← two_mul, Nat.descFactorial_eq_div (by omega)]
  rw [show 2 * l - l = l by omega, Nat.cast_div (Nat.factorial_dvd_factorial (by omega)) (by positivity)]
  field_simp

theorem natDegree_legendreP_lt_of_coeff {l : ℕ} {q : ℝ[X]} (h : q.natDegree ≤ l) (h0 : q.coeff l = 0) :
    q = 0 ∨ q.natDegree < l := by
  by_cases hq : q = 0
  · exact Or.inl hq
  · refine Or.inr (lt_of_le_of_ne h fun he => hq ?_)
    rw [← he] at h0
    exact leadingCoeff_eq_zero.1 h0

/-- Only the leading coefficient of a polynomial of degree at most `l` is seen by `P_l`. -/
theorem pint_legendreP_top {l : ℕ} {q : ℝ[X]} {c : ℝ} (h : q.natDegree ≤ l)
    (hc : q.coeff l = c * (legendreP l).coeff l) :
    pint (legendreP l * q) = c * pint (legendreP l * legendreP l) := by
  have h1 : (q - C c * legendreP l).natDegree ≤ l :=
    (natDegree_sub_le _ _).trans (max_le h ((natDegree_C_mul_le _ _).trans (natDegree_legendreP l)))
  have h2 : (q - C c * legendreP l).coeff l = 0 := by rw [coeff_sub, coeff_C_mul, hc, sub_self]
  have h3 : pint (legendreP l * (q - C c * legendreP l)) = 0 := by
    rcases natDegree_legendreP_lt_of_coeff h1 h2 with h | h
    · rw [h, mul_zero]; simp [pint]
    · exact pint_legendreP_lower h
  rw [mul_sub, pint_sub] at h3
  have h4 : legendreP l * (C c * legendreP l) = C c * (legendreP l * legendreP l) := by ring
  rw [h4, pint_C_mul] at h3
  linarith

/-- `∫_{-1}^1 (x² - 1)^l`. -/
theorem pint_sq_sub_one_pow (l : ℕ) : pint ((X ^ 2 - 1) ^ l)
    = (-1) ^ l * (2 ^ (2 * l + 1) * (l.factorial : ℝ) ^ 2) / ((2 * l + 1).factorial : ℝ) := by
  induction l with
  | zero => simp [pint]; norm_num
  | succ l ih =>
    have h := pint_derivative (X * (X ^ 2 - 1) ^ (l + 1))
    have h0 : (X * ((X : ℝ[X]) ^ 2 - 1) ^ (l + 1)).eval 1 - (X * ((X : ℝ[X]) ^ 2 - 1) ^ (l + 1)).eval (-1) = 0 := by simp
    have h1 : derivative (X * ((X : ℝ[X]) ^ 2 - 1) ^ (l + 1))
        = C (2 * (l : ℝ) + 3) * (X ^ 2 - 1) ^ (l + 1) + C (2 * ((l : ℝ) + 1)) * (X ^ 2 - 1) ^ l := by
      rw [derivative_mul, derivative_pow]
      simp only [derivative_X, derivative_sub, derivative_one, derivative_X_pow, Nat.add_sub_cancel, C_add, C_mul]
      push_cast
      simp only [map_natCast, C_ofNat, map_one, map_add]
      ring
    rw [h1, pint_add, pint_C_mul, pint_C_mul, h0, ih] at h
    have h3 : (2 * (l : ℝ) + 3) ≠ 0 := by positivity
    have h4 : pint ((X ^ 2 - 1) ^ (l + 1)) = -(2 * ((l : ℝ) + 1)
      * ((-1) ^ l * (2 ^ (2 * l + 1) * (l.factorial : ℝ) ^ 2) / ((2 * l + 1).factorial : ℝ))) / (2 * (l : ℝ) + 3) := by
      field_simp at h ⊢
      linarith
    rw [h4, show 2 * (l + 1) + 1 = (2 * l + 1) + 1 + 1 by ring, Nat.factorial_succ (2 * l + 1 + 1),
      Nat.factorial_succ (2 * l + 1), Nat.factorial_succ l]
    push_cast
    field_simp
    ring

theorem pint_const (c : ℝ) (p : ℝ[X]) : pint (p * C c) = c * pint p := by rw [mul_comm, pint_C_mul]

/-- `∫_{-1}^1 P_l² = 2/(2l + 1)`. -/
theorem pint_legendreP_sq (l : ℕ) : pint (legendreP l * legendreP l) = 2 / (2 * (l : ℝ) + 1) := by
  rw [pint_legendreP_mul]
  have h1 : derivative^[l] (legendreP l) = C ((l.factorial : ℝ) * (legendreP l).coeff l) := by
    ext k
    rw [coeff_iterate_derivative, coeff_C]
    split_ifs with hk
    · subst hk
      rw [zero_add, Nat.descFactorial_self, nsmul_eq_mul]
    · rw [coeff_eq_zero_of_natDegree_lt (lt_of_le_of_lt (natDegree_legendreP l) (by omega)), smul_zero]
  rw [h1, pint_const, pint_sq_sub_one_pow, coeff_legendreP, Nat.factorial_succ (2 * l)]
  push_cast
  have := Nat.factorial_pos l
  have := Nat.factorial_pos (2 * l)
  have hs : ((-1 : ℝ) ^ l) * (-1) ^ l = 1 := by rw [← pow_add, ← two_mul]; simp
  field_simp
  rw [pow_succ (2 : ℝ) (2 * l), two_mul l, pow_add]
  linear_combination (2 ^ l * 2 ^ l * 2 : ℝ) * hs

/-- `P_l^m P_k^m` as a polynomial. -/
noncomputable def assocProd (m l k : ℕ) : ℝ[X] :=
  (1 - X ^ 2) ^ m * derivative^[m] (legendreP l) * derivative^[m] (legendreP k)

theorem assocProd_eval (m l k : ℕ) {x : ℝ} (h1 : -1 ≤ x) (h2 : x ≤ 1) :
    (assocProd m l k).eval x = assocLegendre m l x * assocLegendre m k x := by
  unfold assocProd assocLegendre
  have h0 : 0 ≤ 1 - x ^ 2 := by nlinarith
  have hs : ((-1 : ℝ) ^ m) * (-1) ^ m = 1 := by rw [← pow_add, ← two_mul]; simp
  have hq : Real.sqrt (1 - x ^ 2) ^ m * Real.sqrt (1 - x ^ 2) ^ m = (1 - x ^ 2) ^ m := by
    rw [← mul_pow, Real.mul_self_sqrt h0]
  simp only [eval_mul, eval_pow, eval_sub, eval_one, eval_X]
  rw [← hq]
  linear_combination (-(Real.sqrt (1 - x ^ 2) ^ m * Real.sqrt (1 - x ^ 2) ^ m *
    (derivative^[m] (legendreP l)).eval x * (derivative^[m] (legendreP k)).eval x)) * hs

theorem natDegree_one_sub_sq_pow (m : ℕ) : ((1 - (X : ℝ[X]) ^ 2) ^ m).natDegree ≤ 2 * m := by
  have h : (1 - (X : ℝ[X]) ^ 2).natDegree ≤ 2 := by compute_degree
  have := (natDegree_pow_le (p := 1 - (X : ℝ[X]) ^ 2) (n := m))
  nlinarith

theorem natDegree_assocProd {m l k : ℕ} (hl : m ≤ l) (hk : m ≤ k) : (assocProd m l k).natDegree ≤ l + k := by
  unfold assocProd
  have h1 := (natDegree_iterate_derivative (legendreP l) m).trans (Nat.sub_le_sub_right (natDegree_legendreP l) m)
  have h2 := (natDegree_iterate_derivative (legendreP k) m).trans (Nat.sub_le_sub_right (natDegree_legendreP k) m)
  have h3 := natDegree_one_sub_sq_pow m
  refine (natDegree_mul_le).trans ((Nat.add_le_add (natDegree_mul_le.trans (Nat.add_le_add h3 h1)) h2).trans ?_)
  omega

theorem assocProd_comm (m l k : ℕ) : assocProd m l k = assocProd m k l := by unfold assocProd; ring

/-- Moving all derivatives onto one factor. -/
theorem pint_assocProd (m l k : ℕ) : pint (assocProd m l k)
    = pint (legendreP k * derivative^[m] ((X ^ 2 - 1) ^ m * derivative^[m] (legendreP l))) := by
  have h := pint_rodrigues m (derivative^[m] (legendreP l)) (legendreP k)
  have hs : ((-1 : ℝ) ^ m) * (-1) ^ m = 1 := by rw [← pow_add, ← two_mul]; simp
  rw [mul_comm (legendreP k), h, ← pint_C_mul]
  congr 1
  unfold assocProd
  rw [show (1 - (X : ℝ[X]) ^ 2) = C (-1) * (X ^ 2 - 1) by simp, mul_pow, ← C_pow]
  ring

theorem natDegree_pushed {m l : ℕ} (hl : m ≤ l) :
    (derivative^[m] ((X ^ 2 - 1) ^ m * derivative^[m] (legendreP l))).natDegree ≤ l := by
  refine (natDegree_iterate_derivative _ _).trans ?_
  have h1 := (natDegree_iterate_derivative (legendreP l) m).trans (Nat.sub_le_sub_right (natDegree_legendreP l) m)
  have h2 := natDegree_mul_le (p := ((X : ℝ[X]) ^ 2 - 1) ^ m) (q := derivative^[m] (legendreP l))
  rw [natDegree_sq_sub_one_pow] at h2
  omega

theorem coeff_pushed {m l : ℕ} (hl : m ≤ l) :
    (derivative^[m] ((X ^ 2 - 1) ^ m * derivative^[m] (legendreP l))).coeff l
      = ((l + m).factorial : ℝ) / ((l - m).factorial : ℝ) * (legendreP l).coeff l := by
  rw [coeff_iterate_derivative]
  have h1 := (natDegree_iterate_derivative (legendreP l) m).trans (Nat.sub_le_sub_right (natDegree_legendreP l) m)
  have h2 : (((X : ℝ[X]) ^ 2 - 1) ^ m * derivative^[m] (legendreP l)).coeff (2 * m + (l - m))
      = (((X : ℝ[X]) ^ 2 - 1) ^ m).coeff (2 * m) * (derivative^[m] (legendreP l)).coeff (l - m) :=
    coeff_mul_add_eq_of_natDegree_le (natDegree_sq_sub_one_pow m).le h1
  have h3 : (((X : ℝ[X]) ^ 2 - 1) ^ m).coeff (2 * m) = 1 := by
    have hm : ((X : ℝ[X]) ^ 2 - 1).Monic := by monicity!
    have := (hm.pow m).coeff_natDegree
    rwa [natDegree_sq_sub_one_pow] at this
  rw [show l + m = 2 * m + (l - m) by omega, h2, h3, coeff_iterate_derivative, one_mul,
    show l - m + m = l by omega, show 2 * m + (l - m) = l + m by omega, nsmul_eq_mul, nsmul_eq_mul,
    Nat.descFactorial_eq_div (by omega), Nat.descFactorial_eq_div hl, Nat.add_sub_cancel,
    Nat.cast_div (Nat.factorial_dvd_factorial (by omega)) (by positivity),
    Nat.cast_div (Nat.factorial_dvd_factorial (by omega)) (by positivity)]
  field_simp

/-- The associated Legendre functions of one order are orthogonal. -/
theorem pint_assocProd_ne {m l k : ℕ} (hl : m ≤ l) (hk : m ≤ k) (h : l ≠ k) : pint (assocProd m l k) = 0 := by
  rcases lt_or_gt_of_ne h with h | h
  · rw [pint_assocProd]
    exact pint_legendreP_lower ((natDegree_pushed hl).trans_lt h)
  · rw [assocProd_comm, pint_assocProd]
    exact pint_legendreP_lower ((natDegree_pushed hk).trans_lt h)

/-- Norm of the associated Legendre functions. -/
theorem pint_assocProd_self {m l : ℕ} (hl : m ≤ l) :
    pint (assocProd m l l) = 2 / (2 * (l : ℝ) + 1) * (((l + m).factorial : ℝ) / ((l - m).factorial : ℝ)) := by
  rw [pint_assocProd, pint_legendreP_top (natDegree_pushed hl) (coeff_pushed hl), pint_legendreP_sq]
  ring

end Pydisort.Spec

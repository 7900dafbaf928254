import Verif.LegendreRec
import Mathlib.Analysis.SpecialFunctions.Trigonometric.Basic

/-!
# The addition theorem of the Legendre polynomials
-/

namespace Pydisort
open Polynomial Spec Finset

/-- `(l - m)! / (l + m)!`. -/
noncomputable def kap (m l : ℕ) : ℝ := ((l - m).factorial : ℝ) / ((l + m).factorial : ℝ)

section
variable (x y s : ℝ)

/-- Coefficient of `cos (m φ)` in `P_l`, up to `2 - δ_{m0}`. -/
noncomputable def addB (m l : ℕ) : ℝ := kap m l * s ^ m * (dP m l).eval x * (dP m l).eval y

variable {x y s}

theorem addB_zero {m l : ℕ} (h : l < m) : addB x y s m l = 0 := by simp [addB, dP_zero h]

theorem eval_diff (m l : ℕ) (x : ℝ) : (2 * (l : ℝ) + 3) * (dP m (l + 1)).eval x = (dP (m + 1) (l + 2)).eval x - (dP (m + 1) l).eval x := by
  have := congrArg (eval x) (dP_diff m l)
  simpa only [eval_mul, eval_C, eval_sub] using this

theorem eval_mul_X (m l : ℕ) (x : ℝ) : (2 * (l : ℝ) + 3) * (x * (dP m (l + 1)).eval x)
    = ((l : ℝ) + 2 - m) * (dP m (l + 2)).eval x + ((l : ℝ) + 1 + m) * (dP m l).eval x := by
  have := congrArg (eval x) (dP_mul_X m l)
  simpa only [eval_mul, eval_C, eval_add, eval_X] using this

theorem eval_weighted (m l : ℕ) (x : ℝ) : (2 * (l : ℝ) + 3) * ((1 - x ^ 2) * (dP (m + 1) (l + 1)).eval x)
    = (((l : ℝ) + 1 + m) * ((l : ℝ) + 2 + m)) * (dP m l).eval x - (((l : ℝ) + 1 - m) * ((l : ℝ) + 2 - m)) * (dP m (l + 2)).eval x := by
  have := congrArg (eval x) (dP_weighted m l)
  simpa only [eval_mul, eval_C, eval_sub, eval_X, eval_pow, eval_one] using this

/-- Recurrence of the coefficients, `m ≥ 1`. -/
theorem addB_rec (hs : s ^ 2 = (1 - x ^ 2) * (1 - y ^ 2)) (k l : ℕ) :
    ((l : ℝ) + 2) * addB x y s (k + 1) (l + 2) + ((l : ℝ) + 1) * addB x y s (k + 1) l
      = (2 * (l : ℝ) + 3) * (x * y * addB x y s (k + 1) (l + 1) + s / 2 * (addB x y s (k + 2) (l + 1) + addB x y s k (l + 1))) := by
  have hx1 := eval_diff k l x
  have hy1 := eval_diff k l y
  have hx2 := eval_mul_X (k + 1) l x
  have hy2 := eval_mul_X (k + 1) l y
  have hx3 := eval_weighted (k + 1) l x
  have hy3 := eval_weighted (k + 1) l y
  have h0 : (2 * (l : ℝ) + 3) ≠ 0 := by positivity
  refine mul_left_cancel₀ h0 ?_
  have hw : s ^ (k + 3) = s ^ (k + 1) * ((1 - x ^ 2) * (1 - y ^ 2)) := by rw [← hs]; ring
  have key : (2 * (l : ℝ) + 3) * ((2 * (l : ℝ) + 3) * (x * y * addB x y s (k + 1) (l + 1) + s / 2 * (addB x y s (k + 2) (l + 1) + addB x y s k (l + 1))))
      = s ^ (k + 1) * (kap (k + 1) (l + 1) * (((2 * (l : ℝ) + 3) * (x * (dP (k + 1) (l + 1)).eval x)) * ((2 * (l : ℝ) + 3) * (y * (dP (k + 1) (l + 1)).eval y)))
        + 1 / 2 * kap (k + 2) (l + 1) * (((2 * (l : ℝ) + 3) * ((1 - x ^ 2) * (dP (k + 2) (l + 1)).eval x)) * ((2 * (l : ℝ) + 3) * ((1 - y ^ 2) * (dP (k + 2) (l + 1)).eval y)))
        + 1 / 2 * kap k (l + 1) * (((2 * (l : ℝ) + 3) * (dP k (l + 1)).eval x) * ((2 * (l : ℝ) + 3) * (dP k (l + 1)).eval y))) := by
    unfold addB
    have : s * s ^ (k + 2) = s ^ (k + 1) * ((1 - x ^ 2) * (1 - y ^ 2)) := by rw [← hw]; ring
    linear_combination (2 * (l : ℝ) + 3) ^ 2 * (1 / 2 * kap (k + 2) (l + 1) * (dP (k + 2) (l + 1)).eval x * (dP (k + 2) (l + 1)).eval y) * this
  rw [key, hx1, hy1, hx2, hy2, hx3, hy3]
  unfold addB
  rcases Nat.lt_or_ge l (k + 1) with h | h
  · rw [dP_zero h]
    rcases Nat.lt_or_ge l k with h' | h'
    · rcases Nat.lt_or_ge (l + 1) k with h'' | h''
      · rw [dP_zero (show l + 2 < k + 1 by omega)]; simp
      · obtain rfl : k = l + 1 := by omega
        simp only [kap, show l + 2 - (l + 1 + 1) = 0 by omega, show l + 1 - (l + 1) = 0 by omega, show l + 1 - (l + 1 + 1) = 0 by omega,
          show l + 1 - (l + 1 + 2) = 0 by omega, Nat.factorial_zero, eval_zero, show l + 2 + (l + 1 + 1) = (l + 1 + (l + 1)) + 1 + 1 by omega,
          Nat.factorial_succ (l + 1 + (l + 1) + 1), Nat.factorial_succ (l + 1 + (l + 1))]
        have hF : ((l + 1 + (l + 1)).factorial : ℝ) ≠ 0 := by positivity
        push_cast
        have h1 : (l : ℝ) + 1 + 1 + 1 + (l + 1) + 1 ≠ 0 := by positivity
        field_simp
        ring_nf
    · obtain rfl : k = l := by omega
      simp only [kap, show k + 2 - (k + 1) = 1 by omega, show k + 1 - (k + 1) = 0 by omega, show k + 1 - (k + 2) = 0 by omega,
        show k + 1 - k = 1 by omega, Nat.factorial_zero, Nat.factorial_one, eval_zero, show k + 2 + (k + 1) = (k + 1 + k) + 1 + 1 by omega,
        show k + 1 + (k + 1) = (k + 1 + k) + 1 by omega,
        Nat.factorial_succ (k + 1 + k + 1), Nat.factorial_succ (k + 1 + k)]
      have hF : ((k + 1 + k).factorial : ℝ) ≠ 0 := by positivity
      push_cast
      have h1 : (k : ℝ) + 1 + k + 1 + 1 ≠ 0 := by positivity
      have h2 : (k : ℝ) + 1 + k + 1 ≠ 0 := by positivity
      field_simp
      ring
  · obtain ⟨j, rfl⟩ := Nat.exists_eq_add_of_le h
    simp only [kap, show k + 1 + j + 2 - (k + 1) = j + 1 + 1 by omega, show k + 1 + j - (k + 1) = j by omega,
      show k + 1 + j + 1 - (k + 1) = j + 1 by omega, show k + 1 + j + 1 - (k + 2) = j by omega, show k + 1 + j + 1 - k = j + 1 + 1 by omega,
      show k + 1 + j + 2 + (k + 1) = (k + 1 + j + (k + 1)) + 1 + 1 by omega, show k + 1 + j + 1 + (k + 1) = (k + 1 + j + (k + 1)) + 1 by omega,
      show k + 1 + j + 1 + (k + 2) = (k + 1 + j + (k + 1)) + 1 + 1 by omega, show k + 1 + j + 1 + k = k + 1 + j + (k + 1) by omega,
      Nat.factorial_succ (k + 1 + j + (k + 1) + 1), Nat.factorial_succ (k + 1 + j + (k + 1)), Nat.factorial_succ (j + 1), Nat.factorial_succ j]
    have hF : ((k + 1 + j + (k + 1)).factorial : ℝ) ≠ 0 := by positivity
    push_cast
    generalize ((k + 1 + j + (k + 1)).factorial : ℝ) = F at hF ⊢
    generalize (j.factorial : ℝ) = A
    have h1 : (k : ℝ) + 1 + j + (k + 1) + 1 ≠ 0 := by positivity
    have h2 : (k : ℝ) + 1 + j + (k + 1) + 1 + 1 ≠ 0 := by positivity
    field_simp
    ring

/-- Recurrence of the coefficients, `m = 0`. -/
theorem addB_rec_zero (hs : s ^ 2 = (1 - x ^ 2) * (1 - y ^ 2)) (l : ℕ) :
    ((l : ℝ) + 2) * addB x y s 0 (l + 2) + ((l : ℝ) + 1) * addB x y s 0 l
      = (2 * (l : ℝ) + 3) * (x * y * addB x y s 0 (l + 1) + s * addB x y s 1 (l + 1)) := by
  have hx2 := eval_mul_X 0 l x
  have hy2 := eval_mul_X 0 l y
  have hx3 := eval_weighted 0 l x
  have hy3 := eval_weighted 0 l y
  have h0 : (2 * (l : ℝ) + 3) ≠ 0 := by positivity
  refine mul_left_cancel₀ h0 ?_
  have key : (2 * (l : ℝ) + 3) * ((2 * (l : ℝ) + 3) * (x * y * addB x y s 0 (l + 1) + s * addB x y s 1 (l + 1)))
      = kap 0 (l + 1) * (((2 * (l : ℝ) + 3) * (x * (dP 0 (l + 1)).eval x)) * ((2 * (l : ℝ) + 3) * (y * (dP 0 (l + 1)).eval y)))
        + kap 1 (l + 1) * (((2 * (l : ℝ) + 3) * ((1 - x ^ 2) * (dP (0 + 1) (l + 1)).eval x)) * ((2 * (l : ℝ) + 3) * ((1 - y ^ 2) * (dP (0 + 1) (l + 1)).eval y))) := by
    unfold addB
    linear_combination (2 * (l : ℝ) + 3) ^ 2 * (kap 1 (l + 1) * (dP 1 (l + 1)).eval x * (dP 1 (l + 1)).eval y) * hs
  rw [key, hx2, hy2, hx3, hy3]
  unfold addB
  simp only [kap, Nat.sub_zero, add_zero, Nat.add_sub_cancel, Nat.factorial_succ (l + 1), Nat.factorial_succ l]
  have hF : (l.factorial : ℝ) ≠ 0 := by positivity
  push_cast
  field_simp
  ring

/-- The series for `P_l`, with any number of terms. -/
theorem addB_series (hs : s ^ 2 = (1 - x ^ 2) * (1 - y ^ 2)) (φ : ℝ) (M : ℕ) : ∀ l, l < M →
    (legendreP l).eval (x * y + s * Real.cos φ)
      = addB x y s 0 l + 2 * ∑ m ∈ range M, addB x y s (m + 1) l * Real.cos ((m + 1 : ℕ) * φ) := by
  have two : ∀ l, l + 2 < M →
      (legendreP l).eval (x * y + s * Real.cos φ)
        = addB x y s 0 l + 2 * ∑ m ∈ range M, addB x y s (m + 1) l * Real.cos ((m + 1 : ℕ) * φ) →
      (legendreP (l + 1)).eval (x * y + s * Real.cos φ)
        = addB x y s 0 (l + 1) + 2 * ∑ m ∈ range M, addB x y s (m + 1) (l + 1) * Real.cos ((m + 1 : ℕ) * φ) →
      (legendreP (l + 2)).eval (x * y + s * Real.cos φ)
        = addB x y s 0 (l + 2) + 2 * ∑ m ∈ range M, addB x y s (m + 1) (l + 2) * Real.cos ((m + 1 : ℕ) * φ) := by
    intro l hl h0 h1
    have hb := congrArg (eval (x * y + s * Real.cos φ)) (legendreP_bonnet l)
    simp only [eval_mul, eval_C, eval_sub, eval_X] at hb
    rw [h0, h1] at hb
    have hn : ((l : ℝ) + 2) ≠ 0 := by positivity
    refine mul_left_cancel₀ hn (hb.trans ?_)
    have r0 := addB_rec_zero hs l
    have r1 : ∀ m, ((l : ℝ) + 2) * addB x y s (m + 1) (l + 2) * Real.cos ((m + 1 : ℕ) * φ) = _ := fun m => by
      rw [show ((l : ℝ) + 2) * addB x y s (m + 1) (l + 2) = (2 * (l : ℝ) + 3) * (x * y * addB x y s (m + 1) (l + 1)
        + s / 2 * (addB x y s (m + 2) (l + 1) + addB x y s m (l + 1))) - ((l : ℝ) + 1) * addB x y s (m + 1) l by linarith [addB_rec hs m l]]
    have hsum : ((l : ℝ) + 2) * ∑ m ∈ range M, addB x y s (m + 1) (l + 2) * Real.cos ((m + 1 : ℕ) * φ)
        = (2 * (l : ℝ) + 3) * (x * y * ∑ m ∈ range M, addB x y s (m + 1) (l + 1) * Real.cos ((m + 1 : ℕ) * φ))
          + (2 * (l : ℝ) + 3) * (s / 2) * (∑ m ∈ range M, addB x y s (m + 2) (l + 1) * Real.cos ((m + 1 : ℕ) * φ)
            + ∑ m ∈ range M, addB x y s m (l + 1) * Real.cos ((m + 1 : ℕ) * φ))
          - ((l : ℝ) + 1) * ∑ m ∈ range M, addB x y s (m + 1) l * Real.cos ((m + 1 : ℕ) * φ) := by
      simp only [mul_sum, ← sum_add_distrib, ← sum_sub_distrib]
      exact sum_congr rfl fun m _ => by rw [← mul_assoc, r1 m]; ring
    -- `cos φ` times the series
    have hcos : Real.cos φ * (addB x y s 0 (l + 1) + 2 * ∑ m ∈ range M, addB x y s (m + 1) (l + 1) * Real.cos ((m + 1 : ℕ) * φ))
        = addB x y s 1 (l + 1) + (∑ m ∈ range M, addB x y s (m + 2) (l + 1) * Real.cos ((m + 1 : ℕ) * φ)
            + ∑ m ∈ range M, addB x y s m (l + 1) * Real.cos ((m + 1 : ℕ) * φ)) := by
      have hprod : ∀ m : ℕ, 2 * (Real.cos φ * Real.cos ((m + 1 : ℕ) * φ)) = Real.cos ((m + 2 : ℕ) * φ) + Real.cos ((m : ℕ) * φ) := by
        intro m
        have e1 : ((m + 2 : ℕ) : ℝ) * φ = ((m + 1 : ℕ) : ℝ) * φ + φ := by push_cast; ring
        have e2 : ((m : ℕ) : ℝ) * φ = ((m + 1 : ℕ) : ℝ) * φ - φ := by push_cast; ring
        rw [e1, e2, Real.cos_add, Real.cos_sub]; ring
      have e3 : Real.cos φ * (2 * ∑ m ∈ range M, addB x y s (m + 1) (l + 1) * Real.cos ((m + 1 : ℕ) * φ))
          = ∑ m ∈ range M, addB x y s (m + 1) (l + 1) * Real.cos ((m + 2 : ℕ) * φ)
            + ∑ m ∈ range M, addB x y s (m + 1) (l + 1) * Real.cos ((m : ℕ) * φ) := by
        rw [mul_sum, mul_sum, ← sum_add_distrib]
        refine sum_congr rfl fun m _ => ?_
        linear_combination addB x y s (m + 1) (l + 1) * hprod m
      have hup : ∑ m ∈ range M, addB x y s (m + 1) (l + 1) * Real.cos ((m + 2 : ℕ) * φ)
          = ∑ m ∈ range M, addB x y s m (l + 1) * Real.cos ((m + 1 : ℕ) * φ) - addB x y s 0 (l + 1) * Real.cos φ := by
        obtain ⟨K, rfl⟩ : ∃ K, M = K + 1 := ⟨M - 1, by omega⟩
        rw [sum_range_succ, sum_range_succ' (fun m => addB x y s m (l + 1) * Real.cos ((m + 1 : ℕ) * φ)), addB_zero (show l + 1 < K + 1 by omega)]
        push_cast
        simp only [zero_mul, add_zero, zero_add, one_mul]
        rw [add_sub_cancel_right]
        exact sum_congr rfl fun m _ => by rw [show (m : ℝ) + 1 + 1 = (m : ℝ) + 2 by ring]
      have hdown : ∑ m ∈ range M, addB x y s (m + 1) (l + 1) * Real.cos ((m : ℕ) * φ)
          = addB x y s 1 (l + 1) + ∑ m ∈ range M, addB x y s (m + 2) (l + 1) * Real.cos ((m + 1 : ℕ) * φ) := by
        obtain ⟨K, rfl⟩ : ∃ K, M = K + 1 := ⟨M - 1, by omega⟩
        rw [sum_range_succ', sum_range_succ, addB_zero (show l + 1 < K + 2 by omega)]
        simp only [Nat.cast_zero, zero_mul, Real.cos_zero, mul_one, add_zero, zero_add]
        rw [add_comm]
      rw [mul_add, e3, hup, hdown]; ring
    linear_combination (2 * (l : ℝ) + 3) * s * hcos - r0 - 2 * hsum
  have base0 : 0 < M → (legendreP 0).eval (x * y + s * Real.cos φ)
        = addB x y s 0 0 + 2 * ∑ m ∈ range M, addB x y s (m + 1) 0 * Real.cos ((m + 1 : ℕ) * φ) := by
    intro _
    rw [sum_eq_zero fun m _ => by rw [addB_zero (Nat.succ_pos m), zero_mul]]
    simp [addB, kap, dP, legendreP_zero]
  have hP1 : legendreP 1 = X := by
    have := legendreP_succ_rodrigues 0
    simpa using this
  have base1 : 1 < M → (legendreP 1).eval (x * y + s * Real.cos φ)
        = addB x y s 0 1 + 2 * ∑ m ∈ range M, addB x y s (m + 1) 1 * Real.cos ((m + 1 : ℕ) * φ) := by
    intro hM
    rw [sum_eq_single 0 (fun m _ hm => by rw [addB_zero (by omega), zero_mul]) (fun h => absurd (mem_range.2 (by omega)) h)]
    simp [addB, kap, dP, hP1, Nat.factorial]
    ring
  intro l
  induction l using Nat.twoStepInduction with
  | zero => exact base0
  | one => exact base1
  | more l h0 h1 => exact fun h => two l h (h0 (by omega)) (h1 (by omega))

end

/-- **Addition theorem**: with `ν = x y + √(1 - x²) √(1 - y²) cos φ`,
`P_l(ν) = Σ_m (2 - δ_{m0}) (l - m)! / (l + m)! P_l^m(x) P_l^m(y) cos (m φ)`. -/
theorem addition_theorem (l : ℕ) {x y : ℝ} (hx : x ^ 2 ≤ 1) (hy : y ^ 2 ≤ 1) (φ : ℝ) :
    (legendreP l).eval (x * y + Real.sqrt (1 - x ^ 2) * Real.sqrt (1 - y ^ 2) * Real.cos φ)
      = ∑ m ∈ range (l + 1), (2 - if m = 0 then 1 else 0) * (((l - m).factorial : ℝ) / ((l + m).factorial : ℝ))
          * assocLegendre m l x * assocLegendre m l y * Real.cos (m * φ) := by
  have hs : (Real.sqrt (1 - x ^ 2) * Real.sqrt (1 - y ^ 2)) ^ 2 = (1 - x ^ 2) * (1 - y ^ 2) := by
    rw [mul_pow, Real.sq_sqrt (by linarith), Real.sq_sqrt (by linarith)]
  rw [addB_series hs φ (l + 1) l (by omega), sum_range_succ, addB_zero (show l < l + 1 by omega), zero_mul, add_zero, sum_range_succ', add_comm, mul_sum]
  have hB : ∀ m, addB x y (Real.sqrt (1 - x ^ 2) * Real.sqrt (1 - y ^ 2)) m l
      = (((l - m).factorial : ℝ) / ((l + m).factorial : ℝ)) * assocLegendre m l x * assocLegendre m l y := by
    intro m
    unfold addB kap assocLegendre
    have : ((-1 : ℝ) ^ m) * (-1) ^ m = 1 := by rw [← mul_pow]; simp
    rw [mul_pow]
    linear_combination (-(((l - m).factorial : ℝ) / ((l + m).factorial : ℝ)) * Real.sqrt (1 - x ^ 2) ^ m * Real.sqrt (1 - y ^ 2) ^ m
      * (dP m l).eval x * (dP m l).eval y) * this
  congr 1
  · refine sum_congr rfl fun m _ => ?_
    rw [hB, if_neg (Nat.succ_ne_zero m)]
    ring
  · rw [hB]; norm_num

end Pydisort

import Verif.Model.MathscrV
import Mathlib.Analysis.Calculus.Deriv.Pow
import Mathlib.Analysis.Calculus.Deriv.Add
import Mathlib.Analysis.Calculus.Deriv.Mul
import Mathlib.Tactic.FieldSimp
import Mathlib.Tactic.Ring
import Mathlib.Tactic.LinearCombination

/-! Helper lemmas: the particular solution for polynomial isotropic sources. -/

namespace Pydisort
open Finset

/-- Up to `20!` the integers do not overflow. -/
theorem fac64_eq {i : ℕ} (hi : i ≤ 20) : fac64 i = (i.factorial : ℝ) := by
  unfold fac64
  rw [Int.bmod_eq_of_le]
  · push_cast; rfl
  · have : (0 : ℤ) ≤ (i.factorial : ℤ) := by positivity
    refine le_trans ?_ this
    norm_num
  · have h1 : i.factorial ≤ Nat.factorial 20 := Nat.factorial_le hi
    have h2 : Nat.factorial 20 = 2432902008176640000 := by norm_num [Nat.factorial]
    rw [h2] at h1
    have : (i.factorial : ℤ) ≤ 2432902008176640000 := by exact_mod_cast h1
    refine lt_of_le_of_lt this ?_
    norm_num

theorem fac64_ne_zero {i : ℕ} (hi : i ≤ 20) : fac64 i ≠ 0 := by
  rw [fac64_eq hi]; exact_mod_cast Nat.factorial_ne_zero i

theorem fac64_succ {i : ℕ} (hi : i < 20) : fac64 (i + 1) = ((i : ℝ) + 1) * fac64 i := by
  rw [fac64_eq (by omega), fac64_eq (by omega), Nat.factorial_succ]; push_cast; ring

/-- `21!` is the first factorial that overflows. -/
theorem fac64_21 : fac64 21 = -4249290049419214848 := by
  have h : Nat.factorial 21 = 51090942171709440000 := by norm_num [Nat.factorial]
  unfold fac64
  rw [h, Int.bmod_def]
  norm_num

/-- Coefficient of degree `r` of the polynomial `σ` computed by the code, which up to 21 coefficients solves `σ' = κ σ - Σ s_r τ^r`. -/
noncomputable def sigC (Nc : ℕ) (s : Vec) (kap : ℝ) (r : ℕ) : ℝ :=
  ∑ p ∈ range (Nc - r), (1 / kap) ^ (p + 1) * (s (r + p) * fac64 (r + p)) * (1 / fac64 r)

theorem sigC_top (Nc : ℕ) (s : Vec) (kap : ℝ) : sigC Nc s kap Nc = 0 := by simp [sigC]

theorem sigC_rec {Nc : ℕ} (s : Vec) {kap : ℝ} (hk : kap ≠ 0) {r : ℕ} (hr : r < Nc) (hd : r < 20 ∨ r + 1 = Nc) (hf : fac64 r ≠ 0) :
    ((r : ℝ) + 1) * sigC Nc s kap (r + 1) = kap * sigC Nc s kap r - s r := by
  rcases hd with hd | hd
  · unfold sigC
    obtain ⟨d, hd'⟩ : ∃ d, Nc - r = d + 1 := ⟨Nc - r - 1, by omega⟩
    rw [hd', show Nc - (r + 1) = d by omega, sum_range_succ', mul_add, mul_sum, mul_sum]
    have h0 : kap * ((1 / kap) ^ (0 + 1) * (s (r + 0) * fac64 (r + 0)) * (1 / fac64 r)) = s r := by
      simp; field_simp
    rw [h0, add_sub_cancel_right]
    refine sum_congr rfl fun p _ => ?_
    rw [show r + 1 + p = r + (p + 1) by ring, fac64_succ hd]
    have hr1 : ((r : ℝ) + 1) ≠ 0 := Nat.cast_add_one_ne_zero r
    have hkk : kap * (1 / kap) = 1 := by field_simp
    field_simp
    rw [pow_succ (1 / kap) (p + 1)]
    linear_combination (-(1 / kap) ^ (p + 1) * s (r + (p + 1)) * fac64 (r + (p + 1))) * hkk
  · subst hd
    rw [sigC_top]
    unfold sigC
    rw [show r + 1 - r = 1 by omega]
    simp
    field_simp
    ring

/-- Reversal of the order of summation used by the general branch. -/
theorem bSigma_eq (Nc : ℕ) (s K : Vec) (k : ℕ) {r : ℕ} (hr : r < Nc) :
    bSigma Nc s K k (Nc - 1 - r) = sigC Nc s (K k) r := by
  unfold bSigma sigC
  rw [sum_mul, show Nc - 1 - (Nc - 1 - r) = r by omega]
  have hsub : range (Nc - r) ⊆ range Nc := range_subset_range.2 (Nat.sub_le _ _)
  rw [← sum_subset hsub]
  · refine sum_congr rfl fun p hp => ?_
    rw [mem_range] at hp
    have h1 : p ≤ Nc - 1 - r := by omega
    have h2 : Nc - 1 - (Nc - 1 - r - p) = r + p := by omega
    rw [if_pos h1, h2]
  · intro p _ hp
    rw [mem_range] at hp
    have h1 : ¬ p ≤ Nc - 1 - r := by omega
    rw [if_neg h1]; ring

/-- The polynomial `σ` for the decay rate `κ`. -/
noncomputable def sigma (Nc : ℕ) (s : Vec) (kap tau : ℝ) : ℝ := ∑ r ∈ range Nc, sigC Nc s kap r * tau ^ r

/-- All three branches compute `Σ_k G_{qk} σ_k(τ) g_k`. -/
theorem mathscrV_eq {n Nc : ℕ} (hN : 0 < Nc) (s : Vec) (G : Mat) (K g : Vec) (tau : ℝ) (q : ℕ) :
    mathscrV n Nc s G K g tau q = ∑ k ∈ range n, G q k * (sigma Nc s (K k) tau * g k) := by
  have f0 : fac64 0 = 1 := by rw [fac64_eq (by norm_num)]; simp
  have f1 : fac64 1 = 1 := by rw [fac64_eq (by norm_num)]; simp
  unfold mathscrV
  split_ifs with h1 h2
  · subst h1
    rw [mul_one]
    refine sum_congr rfl fun k _ => ?_
    simp [sigma, sigC, mul_comm, f0]
  · subst h2
    rw [mul_one, sum_mul, ← sum_add_distrib]
    refine sum_congr rfl fun k _ => ?_
    simp [sigma, sigC, sum_range_succ, f0, f1]; ring
  · rw [← sum_range_reflect]
    have : ∀ r ∈ range Nc, (∑ k ∈ range n, G q k * (bSigma Nc s K k (Nc - 1 - r) * g k)) * tau ^ (Nc - 1 - (Nc - 1 - r))
        = ∑ k ∈ range n, G q k * (sigC Nc s (K k) r * tau ^ r * g k) := by
      intro r hr
      rw [mem_range] at hr
      rw [show Nc - 1 - (Nc - 1 - r) = r by omega, sum_mul]
      refine sum_congr rfl fun k _ => ?_
      rw [bSigma_eq _ _ _ _ hr]; ring
    rw [sum_congr rfl this, sum_comm]
    refine sum_congr rfl fun k _ => ?_
    unfold sigma
    rw [sum_mul, mul_sum]

/-- What is left of the equation `σ' = κ σ - Σ s_r τ^r` for the polynomial computed by the code. -/
noncomputable def resid (Nc : ℕ) (s : Vec) (kap tau : ℝ) : ℝ :=
  (∑ r ∈ range Nc, sigC Nc s kap r * ((r : ℝ) * tau ^ (r - 1))) - (kap * sigma Nc s kap tau - ∑ r ∈ range Nc, s r * tau ^ r)

theorem resid_eq (d : ℕ) (s : Vec) (kap tau : ℝ) : resid (d + 1) s kap tau
    = ∑ r ∈ range (d + 1), (((r : ℝ) + 1) * sigC (d + 1) s kap (r + 1) - (kap * sigC (d + 1) s kap r - s r)) * tau ^ r := by
  unfold resid sigma
  have e : ∑ r ∈ range (d + 1), sigC (d + 1) s kap r * ((r : ℝ) * tau ^ (r - 1))
      = ∑ r ∈ range (d + 1), ((r : ℝ) + 1) * sigC (d + 1) s kap (r + 1) * tau ^ r := by
    rw [sum_range_succ (fun r : ℕ => ((r : ℝ) + 1) * sigC (d + 1) s kap (r + 1) * tau ^ r), sigC_top, sum_range_succ']
    simp only [Nat.cast_zero, zero_mul, mul_zero, add_zero, Nat.add_sub_cancel]
    exact sum_congr rfl fun r _ => by push_cast; ring
  rw [e, mul_sum, ← sum_sub_distrib, ← sum_sub_distrib]
  exact sum_congr rfl fun r _ => by ring

/-- Up to 21 coefficients nothing is left. -/
theorem resid_eq_zero {Nc : ℕ} (hN : Nc ≤ 21) (s : Vec) {kap : ℝ} (hk : kap ≠ 0) (tau : ℝ) : resid Nc s kap tau = 0 := by
  rcases Nc with _ | d
  · simp [resid, sigma]
  · rw [resid_eq]
    refine sum_eq_zero fun r hr => ?_
    rw [mem_range] at hr
    rw [sigC_rec s hk hr (by omega) (fac64_ne_zero (by omega))]; ring

/-- With 22 coefficients the overflow of `21!` leaves a term of degree 20. -/
theorem resid_22 (s : Vec) {kap : ℝ} (hk : kap ≠ 0) (tau : ℝ) :
    resid 22 s kap tau = (21 - fac64 21 / fac64 20) * s 21 * tau ^ 20 * (1 / kap) := by
  rw [resid_eq, sum_range_succ, sum_range_succ, sum_eq_zero fun r hr => ?_]
  · have f21 : fac64 21 ≠ 0 := by rw [fac64_21]; norm_num
    rw [sigC_rec s hk (r := 21) (by norm_num) (Or.inr rfl) f21]
    have f20 : fac64 20 ≠ 0 := fac64_ne_zero le_rfl
    simp only [sigC]
    norm_num [sum_range_succ]
    field_simp
    ring
  · rw [mem_range] at hr
    rw [sigC_rec s hk (by omega) (by omega) (fac64_ne_zero (by omega))]; ring

theorem hasDerivAt_sigma (Nc : ℕ) (s : Vec) (kap tau : ℝ) :
    HasDerivAt (sigma Nc s kap) (kap * sigma Nc s kap tau - (∑ r ∈ range Nc, s r * tau ^ r) + resid Nc s kap tau) tau := by
  have h1 : HasDerivAt (sigma Nc s kap) (∑ r ∈ range Nc, sigC Nc s kap r * ((r : ℝ) * tau ^ (r - 1))) tau := by
    unfold sigma
    have := HasDerivAt.fun_sum (u := range Nc) (A := fun r x => sigC Nc s kap r * x ^ r)
      (A' := fun r => sigC Nc s kap r * ((r : ℝ) * tau ^ (r - 1))) (x := tau)
      (fun r _ => (hasDerivAt_pow r tau).const_mul _)
    exact this
  refine h1.congr_deriv ?_
  unfold resid; ring

/-- The particular solution differentiates to `Σ_k G_{qk} (κ_k σ_k - s(τ) + residual) g_k`. -/
theorem hasDerivAt_mathscrV {n Nc : ℕ} (hN : 0 < Nc) (s : Vec) (G : Mat) (K g : Vec) (tau : ℝ) (q : ℕ) :
    HasDerivAt (fun t => mathscrV n Nc s G K g t q)
      ((∑ k ∈ range n, K k * G q k * (sigma Nc s (K k) tau * g k))
        - (∑ r ∈ range Nc, s r * tau ^ r) * (∑ k ∈ range n, G q k * g k)
        + ∑ k ∈ range n, G q k * (resid Nc s (K k) tau * g k)) tau := by
  have h : (fun t => mathscrV n Nc s G K g t q) = fun t => ∑ k ∈ range n, G q k * (sigma Nc s (K k) t * g k) := by
    funext t; exact mathscrV_eq hN s G K g t q
  rw [h]
  have h1 := HasDerivAt.fun_sum (u := range n) (A := fun k x => G q k * (sigma Nc s (K k) x * g k))
    (A' := fun k => G q k * ((K k * sigma Nc s (K k) tau - (∑ r ∈ range Nc, s r * tau ^ r) + resid Nc s (K k) tau) * g k)) (x := tau)
    (fun k _ => ((hasDerivAt_sigma Nc s (K k) tau).mul_const _).const_mul _)
  refine h1.congr_deriv ?_
  rw [mul_sum, ← sum_sub_distrib, ← sum_add_distrib]
  exact sum_congr rfl fun k _ => by ring

end Pydisort

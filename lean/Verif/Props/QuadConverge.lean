import Mathlib.Topology.ContinuousMap.Weierstrass
import Verif.Props.ClenshawCurtis

/-!
# C133: the quadrature rules have positive weights and converge for every continuous function
-/

namespace Pydisort
open Finset Spec Polynomial

theorem ccDiff_succ (j : ℕ) : |ccDiff (j + 1)| = 1 / (2 * (j : ℝ) + 1) - 1 / (2 * ((j + 1 : ℕ) : ℝ) + 1) := by
  have h : (0 : ℝ) ≤ j := Nat.cast_nonneg j
  have h3 : (1 - 4 * ((j + 1 : ℕ) : ℝ) ^ 2) < 0 := by push_cast; nlinarith
  unfold ccDiff
  rw [abs_div, abs_of_neg h3, abs_of_pos two_pos]
  have h1 : (2 * (j : ℝ) + 1) ≠ 0 := by positivity
  have h2 : (2 * ((j + 1 : ℕ) : ℝ) + 1) ≠ 0 := by positivity
  have h4 : -(1 - 4 * ((j + 1 : ℕ) : ℝ) ^ 2) = (2 * (j : ℝ) + 1) * (2 * ((j + 1 : ℕ) : ℝ) + 1) := by push_cast; ring
  rw [h4]
  field_simp
  push_cast
  ring

theorem ccDiff_sum (n : ℕ) : ∑ j ∈ range n, |ccDiff (j + 1)| = 1 - 1 / (2 * (n : ℝ) + 1) := by
  rw [sum_congr rfl fun j _ => ccDiff_succ j, sum_range_sub' (fun j : ℕ => 1 / (2 * (j : ℝ) + 1))]
  simp

theorem ccW_pos {M : ℕ} (hM : 0 < M) (k : ℕ) : 0 < ccW M ccDiff k := by
  obtain ⟨n, rfl⟩ : ∃ n, M = n + 1 := ⟨M - 1, by omega⟩
  unfold ccW
  refine div_pos ?_ (by positivity)
  rw [Nat.add_sub_cancel]
  have h0 : ccDiff 0 = 2 := by norm_num [ccDiff]
  have h1 : -|ccDiff (n + 1)| ≤ (-1) ^ k * ccDiff (n + 1) := by
    have : |(-1 : ℝ) ^ k * ccDiff (n + 1)| = |ccDiff (n + 1)| := by rw [abs_mul, abs_pow, abs_neg, abs_one, one_pow, one_mul]
    rw [← this]; exact neg_abs_le _
  have h2 : -(∑ j ∈ range n, |ccDiff (j + 1)|) ≤ ∑ j ∈ range n, ccDiff (j + 1) * Real.cos (Real.pi * k * (j + 1 : ℕ) / (n + 1 : ℕ)) := by
    rw [← sum_neg_distrib]
    refine sum_le_sum fun j _ => ?_
    refine le_trans ?_ (neg_abs_le _)
    rw [abs_mul]
    have := Real.abs_cos_le_one (Real.pi * k * (j + 1 : ℕ) / (n + 1 : ℕ))
    have h3 := abs_nonneg (ccDiff (j + 1))
    nlinarith
  rw [ccDiff_sum] at h2
  rw [ccDiff_succ] at h1
  have h3 : (0 : ℝ) < 1 / (2 * (n : ℝ) + 1) := by positivity
  have h4 : (0 : ℝ) < 1 / (2 * ((n + 1 : ℕ) : ℝ) + 1) := by positivity
  rw [h0]
  linarith

/-- **C133, weights.** The weights of `Clenshaw_Curtis_quad` are positive, symmetric and sum to the length of the interval. -/
theorem C133_positive_weights (n : ℕ) (hn : 3 ≤ n) (ho : Odd n) {c d : ℝ} (hcd : c < d) :
    ∃ x w, clenshawCurtisQuad n c d = .ok (x, w) ∧ w.n = n ∧ (∀ i < n, 0 < w.get i ∧ w.get (n - 1 - i) = w.get i)
      ∧ ∑ i ∈ range n, w.get i = d - c := by
  obtain ⟨x', w', g1, -, -, g2⟩ := C50_exact n hn ho c d
  obtain ⟨M, rfl⟩ := ho
  have hM : 0 < M := by omega
  obtain ⟨x, w, h1, h2, h3, h4, h5⟩ := clenshawCurtis_eq hM c d
  refine ⟨transformInterval x c d (-1) 1, transformWeights w c d (-1) 1, by push_cast; exact h1, h3, fun i hi => ?_, ?_⟩
  · simp only [transformWeights, A1.map]
    rw [h5 i hi, h5 (2 * M + 1 - 1 - i) (by omega), show 2 * M + 1 - 1 - i = 2 * M - i by omega, ccW_mirror hM _ (by omega)]
    constructor
    · have := ccW_pos hM i
      have hd : 0 < d - c := sub_pos.2 hcd
      have h6 : (0 : ℝ) < if i = 0 ∨ i = 2 * M then 2 else 1 := by split_ifs <;> norm_num
      have : 0 < ccW M ccDiff i / (if i = 0 ∨ i = 2 * M then 2 else 1) := div_pos this h6
      exact div_pos (mul_pos this hd) (by norm_num)
    · by_cases h : i = 0 ∨ i = 2 * M
      · rw [if_pos h, if_pos (by omega)]
      · rw [if_neg h, if_neg (by omega)]
  · have e := g2 1 (by simp)
    have : (clenshawCurtisQuad ((2 * M + 1 : ℕ) : ℤ) c d) = .ok (transformInterval x c d (-1) 1, transformWeights w c d (-1) 1) := by push_cast; exact h1
    rw [this] at g1
    cases g1
    simpa using e

/-- A rule with positive weights that is exact for polynomials of some degree is as good as the best approximation by such polynomials. -/
theorem rule_error {n k : ℕ} {x w : ℕ → ℝ} {c d : ℝ} (hcd : c < d) (hw : ∀ i < n, 0 < w i) (hx : ∀ i < n, c ≤ x i ∧ x i ≤ d)
    (hs : ∑ i ∈ range n, w i = d - c) (he : ∀ p : ℝ[X], p.natDegree ≤ k → ∑ i ∈ range n, w i * p.eval (x i) = ∫ t in c..d, p.eval t)
    {f : ℝ → ℝ} (hf : ContinuousOn f (Set.Icc c d)) {p : ℝ[X]} (hp : p.natDegree ≤ k) {ε : ℝ} (hε : ∀ t ∈ Set.Icc c d, |f t - p.eval t| ≤ ε) :
    |∑ i ∈ range n, w i * f (x i) - ∫ t in c..d, f t| ≤ 2 * (d - c) * ε := by
  have h1 : |∑ i ∈ range n, w i * (f (x i) - p.eval (x i))| ≤ (d - c) * ε := by
    refine (abs_sum_le_sum_abs _ _).trans ?_
    rw [← hs, sum_mul]
    refine sum_le_sum fun i hi => ?_
    have hi' := mem_range.mp hi
    rw [abs_mul, abs_of_pos (hw i hi')]
    exact mul_le_mul_of_nonneg_left (hε _ (hx i hi')) (hw i hi').le
  have h2 : |∫ t in c..d, (f t - p.eval t)| ≤ (d - c) * ε := by
    have := intervalIntegral.norm_integral_le_of_norm_le_const (a := c) (b := d) (C := ε) (f := fun t => f t - p.eval t) (fun t ht => by
      rw [Set.uIoc_of_le hcd.le] at ht
      exact hε t ⟨ht.1.le, ht.2⟩)
    rw [abs_of_pos (sub_pos.2 hcd), Real.norm_eq_abs] at this
    linarith
  have h3 : ∫ t in c..d, (f t - p.eval t) = (∫ t in c..d, f t) - ∫ t in c..d, p.eval t :=
    intervalIntegral.integral_sub (hf.intervalIntegrable_of_Icc hcd.le) (p.continuous.intervalIntegrable _ _)
  have h4 : ∑ i ∈ range n, w i * (f (x i) - p.eval (x i)) = ∑ i ∈ range n, w i * f (x i) - ∫ t in c..d, p.eval t := by
    rw [← he p hp, ← sum_sub_distrib]
    exact sum_congr rfl fun i _ => by ring
  rw [h3] at h2
  rw [h4] at h1
  rw [abs_le] at h1 h2 ⊢
  constructor <;> linarith [h1.1, h1.2, h2.1, h2.2]

/-- **C133, Clenshaw-Curtis.** The error is at most twice the length of the interval times the error of any approximation by a polynomial of a degree up to the number of nodes. -/
theorem C133_near_best (n : ℕ) (hn : 3 ≤ n) (ho : Odd n) {c d : ℝ} (hcd : c < d) {f : ℝ → ℝ} (hf : ContinuousOn f (Set.Icc c d)) :
    ∃ x w, clenshawCurtisQuad n c d = .ok (x, w) ∧ ∀ (p : ℝ[X]) (ε : ℝ), p.natDegree ≤ n → (∀ t ∈ Set.Icc c d, |f t - p.eval t| ≤ ε) →
      |∑ i ∈ range n, w.get i * f (x.get i) - ∫ t in c..d, f t| ≤ 2 * (d - c) * ε := by
  obtain ⟨x, w, h1, -, -, h2⟩ := C50_exact n hn ho c d
  obtain ⟨x', w', g1, -, -, -, -, g2, -⟩ := C50_nodes n hn ho hcd
  obtain ⟨x'', w'', k1, -, k2, k3⟩ := C133_positive_weights n hn ho hcd
  rw [h1] at g1 k1
  cases g1; cases k1
  exact ⟨x, w, h1, fun p ε hp hε => rule_error hcd (fun i hi => (k2 i hi).1) g2 k3 h2 hf hp hε⟩

/-- **C133, Clenshaw-Curtis.** The rule converges for every continuous function. -/
theorem C133_clenshaw_curtis_converges {c d : ℝ} (hcd : c < d) {f : ℝ → ℝ} (hf : ContinuousOn f (Set.Icc c d)) {ε : ℝ} (hε : 0 < ε) :
    ∃ n₀ : ℕ, ∀ n : ℕ, n₀ ≤ n → Odd n → ∃ x w, clenshawCurtisQuad n c d = .ok (x, w) ∧ |∑ i ∈ range n, w.get i * f (x.get i) - ∫ t in c..d, f t| ≤ ε := by
  have hd : 0 < d - c := sub_pos.2 hcd
  obtain ⟨p, hp⟩ := exists_polynomial_near_of_continuousOn c d f hf (ε / (2 * (d - c))) (by positivity)
  refine ⟨max 3 p.natDegree, fun n hn ho => ?_⟩
  obtain ⟨x, w, h1, h2⟩ := C133_near_best n (le_trans (le_max_left _ _) hn) ho hcd hf
  refine ⟨x, w, h1, (h2 p (ε / (2 * (d - c))) (le_trans (le_max_right _ _) hn) fun t ht => ?_).trans (le_of_eq ?_)⟩
  · rw [abs_sub_comm]; exact (hp t ht).le
  · field_simp

/-- **C133, Gauss.** So does `Gauss_Legendre_quad`. -/
theorem C133_gauss_converges {E : Ext} (hE : ∀ N, 0 < N → GaussContract E N) {c d : ℝ} (hcd : c < d) {f : ℝ → ℝ} (hf : ContinuousOn f (Set.Icc c d)) {ε : ℝ}
    (hε : 0 < ε) : ∃ n₀ : ℕ, ∀ n : ℕ, n₀ ≤ n → ∃ x w, gaussLegendreQuad E n c d = .ok (x, w) ∧ |∑ i ∈ range n, w.get i * f (x.get i) - ∫ t in c..d, f t| ≤ ε := by
  have hd : 0 < d - c := sub_pos.2 hcd
  obtain ⟨p, hp⟩ := exists_polynomial_near_of_continuousOn c d f hf (ε / (2 * (d - c))) (by positivity)
  refine ⟨p.natDegree + 1, fun n hn => ?_⟩
  obtain ⟨x, w, h1, -, -, h2, h3, h4, h5⟩ := C49_gauss E (show 0 < n by omega) (hE n (by omega)) hcd
  refine ⟨x, w, h1, (rule_error hcd h3 (fun i hi => ⟨(h2 i hi).1.le, (h2 i hi).2.le⟩) h4 h5 hf (p := p) (by omega)
    (ε := ε / (2 * (d - c))) fun t ht => ?_).trans (le_of_eq ?_)⟩
  · rw [abs_sub_comm]; exact (hp t ht).le
  · field_simp

/-- A continuous function that is not smooth. -/
example : ContinuousOn (fun t : ℝ => |t - 3|) (Set.Icc 0 (2 * Real.pi)) ∧ (0 : ℝ) < 2 * Real.pi :=
  ⟨(continuous_abs.comp (continuous_id.sub continuous_const)).continuousOn, by positivity⟩

example : ∀ N, 0 < N → GaussContract refExt N := fun _ hN => refExt_gauss hN

end Pydisort

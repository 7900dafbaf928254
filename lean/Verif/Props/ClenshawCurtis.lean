import Verif.QuadLemmas
import Verif.Spec.Tools
import Verif.Props.Tools

/-!
# C50: `Clenshaw_Curtis_quad`
-/

namespace Pydisort
open Finset Spec Polynomial

noncomputable section

/-- Node `i` on `[-1, 1]`. -/
theorem ccNodes_eq {M : ℕ} (hM : 0 < M) {i : ℕ} (hi : i < 2 * M + 1) :
    (ccNodes (ccPos (2 * M) M)).get i = -Real.cos (Real.pi * i / (2 * M)) := by
  have hM' : (M : ℝ) ≠ 0 := by positivity
  unfold ccNodes ccPos
  simp only
  split_ifs with h1 h2
  · push_cast; rfl
  · rw [h2, show Real.pi * (M : ℝ) / (2 * M) = Real.pi / 2 by field_simp, Real.cos_pi_div_two, neg_zero]
  · rw [← Real.cos_pi_sub]
    congr 1
    have : M - 1 - (i - (M + 1)) = 2 * M - i := by omega
    rw [this, Nat.cast_sub (by omega)]
    push_cast
    field_simp

/-- The coefficients on line 169. -/
def ccDiff (j : ℕ) : ℝ := 2 / (1 - 4 * (j : ℝ) ^ 2)

theorem ccW_mirror {M : ℕ} (hM : 0 < M) (d : Vec) {k : ℕ} (hk : k ≤ 2 * M) : ccW M d (2 * M - k) = ccW M d k := by
  have hM' : (M : ℝ) ≠ 0 := by positivity
  unfold ccW
  have h1 : ((-1 : ℝ)) ^ (2 * M - k) = (-1) ^ k := by
    rcases Nat.even_or_odd k with h | h
    · rw [Even.neg_one_pow h, Even.neg_one_pow (by obtain ⟨t, rfl⟩ := h; exact ⟨M - t, by omega⟩)]
    · rw [Odd.neg_one_pow h, Odd.neg_one_pow (by obtain ⟨t, rfl⟩ := h; exact ⟨M - t - 1, by omega⟩)]
  rw [h1]
  congr 3
  refine sum_congr rfl fun j _ => ?_
  congr 1
  rw [Nat.cast_sub hk]
  have : Real.pi * (((2 * M : ℕ) : ℝ) - k) * (j + 1 : ℕ) / M = ((j + 1 : ℕ) : ℝ) * (2 * Real.pi) - Real.pi * k * (j + 1 : ℕ) / M := by
    push_cast; field_simp
  rw [this, Real.cos_sub, Real.cos_nat_mul_two_pi, ← zero_add (((j + 1 : ℕ) : ℝ) * (2 * Real.pi)), Real.sin_add_nat_mul_two_pi, Real.sin_zero]
  ring

/-- What the function computes on the accepted inputs, before the transport to `[c, d]`. -/
theorem clenshawCurtis_eq {M : ℕ} (hM : 0 < M) (c d : ℝ) :
    ∃ x w : A1 ℝ, clenshawCurtisQuad (2 * M + 1) c d = .ok (transformInterval x c d (-1) 1, transformWeights w c d (-1) 1) ∧
      x.n = 2 * M + 1 ∧ w.n = 2 * M + 1 ∧ (∀ i < 2 * M + 1, x.get i = -Real.cos (Real.pi * i / (2 * M))) ∧
      ∀ i < 2 * M + 1, w.get i = ccW M ccDiff i / (if i = 0 ∨ i = 2 * M then 2 else 1) := by
  unfold clenshawCurtisQuad
  rw [if_neg (by push Not; constructor <;> omega)]
  have hK : ((2 * M + 1 : ℤ) - 1).toNat = 2 * M := by omega
  simp only [hK, show 2 * M / 2 = M by omega]
  have hp : ∃ dd, prepend ⟨M, fun i => 2 / (1 - 4 * ((i + 1 : ℕ) : ℝ) ^ 2)⟩ M 2 = .ok dd ∧ dd.n = M + 1 ∧ ∀ j, dd.get j = ccDiff j := by
    unfold prepend assign1
    rw [if_pos rfl]
    refine ⟨_, rfl, rfl, fun j => ?_⟩
    simp only [ccDiff]
    split_ifs with h
    · subst h; norm_num
    · rw [show j - 1 + 1 = j by omega]
  obtain ⟨dd, h1, h2, h3⟩ := hp
  rw [h1]
  simp only [bind, Except.bind, idct1]
  rw [if_neg (by omega)]
  simp only [pure, Except.pure]
  refine ⟨_, _, rfl, ?_, ?_, fun i hi => ccNodes_eq hM hi, fun i hi => ?_⟩
  · simp [ccNodes, ccPos]; omega
  · simp [ccMirror, halveFirst, h2]; omega
  · simp only [ccMirror, halveFirst, h2, h3]
    have hW : ∀ k : ℕ, (ccDiff 0 + (-1) ^ k * ccDiff (M + 1 - 1)
        + 2 * ∑ j ∈ range (M + 1 - 2), ccDiff (j + 1) * Real.cos (Real.pi * k * (j + 1 : ℕ) / (M + 1 - 1 : ℕ))) / (2 * (M + 1 - 1 : ℕ))
        = ccW M ccDiff k := fun k => by
      rw [show M + 1 - 1 = M by omega, show M + 1 - 2 = M - 1 by omega]; rfl
    simp only [hW]
    by_cases h : i < M + 1
    · rw [if_pos h]
      by_cases h0 : i = 0
      · rw [if_pos h0, if_pos (Or.inl h0), h0]
      · rw [if_neg h0, if_neg (by omega), div_one]
    · rw [if_neg h, show M + 1 - 2 - (i - (M + 1)) = 2 * M - i by omega]
      by_cases h0 : i = 2 * M
      · rw [if_pos (by omega), if_pos (Or.inr h0), ← ccW_mirror hM ccDiff (k := i) (by omega), show 2 * M - i = 0 by omega]
      · rw [if_neg (by omega), if_neg (by omega), div_one, ccW_mirror hM _ (by omega)]

/-- The rule on `[-1, 1]` integrates every polynomial of degree at most `2 M + 1`. -/
theorem ccW_exact {M : ℕ} (hM : 0 < M) (p : ℝ[X]) (hp : p.natDegree ≤ 2 * M + 1) :
    ∑ i ∈ range (2 * M + 1), ccW M ccDiff i / (if i = 0 ∨ i = 2 * M then 2 else 1) * p.eval (-Real.cos (Real.pi * i / (2 * M)))
      = ∫ x in (-1 : ℝ)..1, p.eval x := by
  have hM' : (M : ℝ) ≠ 0 := by positivity
  set w : ℕ → ℝ := fun i => ccW M ccDiff i / (if i = 0 ∨ i = 2 * M then 2 else 1) with hw
  set x : ℕ → ℝ := fun i => -Real.cos (Real.pi * i / (2 * M)) with hx
  have hint : ∀ q : ℝ[X], IntervalIntegrable (fun x => q.eval x) MeasureTheory.volume (-1) 1 := fun q => q.continuous.intervalIntegrable _ _
  let L : ℝ[X] →ₗ[ℝ] ℝ :=
    { toFun := fun q => ∑ i ∈ range (2 * M + 1), w i * q.eval (x i) - ∫ t in (-1 : ℝ)..1, q.eval t
      map_add' := fun q q' => by
        simp only [eval_add, mul_add, sum_add_distrib]
        rw [intervalIntegral.integral_add (hint q) (hint q')]
        ring
      map_smul' := fun s q => by
        simp only [eval_smul, smul_eq_mul, RingHom.id_apply]
        rw [intervalIntegral.integral_const_mul, mul_sub, mul_sum]
        congr 1
        exact sum_congr rfl fun i _ => by ring }
  have hL : L p = 0 := by
    refine vanish_of_chebyshev L (2 * M + 1) (fun n hn => ?_) p hp
    change ∑ i ∈ range (2 * M + 1), w i * (Chebyshev.T ℝ n).eval (x i) - ∫ t in (-1 : ℝ)..1, (Chebyshev.T ℝ n).eval t = 0
    have hTn : ∀ i, (Chebyshev.T ℝ n).eval (x i) = (n : ℤ).negOnePow * Real.cos (n * (Real.pi * i / (2 * M))) := fun i => by
      simp only [hx]
      rw [Chebyshev.T_eval_neg, Chebyshev.T_real_cos]
      simp
    rcases Nat.even_or_odd n with he | ho
    · obtain ⟨r, rfl⟩ := he
      rw [← two_mul] at *
      rw [integral_T_even, sub_eq_zero]
      have hpow : ((2 * r : ℕ) : ℤ).negOnePow = 1 := Int.negOnePow_even _ ⟨r, by push_cast; ring⟩
      simp only [hTn, hpow]
      simp only [Units.val_one, Int.cast_one, one_mul]
      have hc : ∀ i : ℕ, Real.cos (((2 * r : ℕ) : ℝ) * (Real.pi * i / (2 * M))) = Real.cos (Real.pi * i * r / M) := fun i => by
        congr 1; push_cast; field_simp
      simp only [hc]
      have hr : r ≤ M := by omega
      rw [show 2 / (1 - 4 * (r : ℝ) ^ 2) = ccDiff r from rfl, ← ccW_sum hM ccDiff hr]
      have g : ccW M ccDiff 0 * Real.cos (Real.pi * (0 : ℕ) * r / M) = ccW M ccDiff (2 * M) * Real.cos (Real.pi * (2 * M : ℕ) * r / M) := by
        have := ccW_mirror hM ccDiff (k := 0) (by omega)
        rw [Nat.sub_zero] at this
        rw [this]
        congr 1
        rw [show Real.pi * ((2 * M : ℕ) : ℝ) * r / M = (r : ℝ) * (2 * Real.pi) by push_cast; field_simp, Real.cos_nat_mul_two_pi]
        simp
      rw [sum_range_succ]
      obtain ⟨m, hm⟩ : ∃ m, 2 * M = m + 1 := ⟨2 * M - 1, by omega⟩
      rw [hm] at g ⊢
      rw [sum_range_succ', sum_range_succ']
      have e : ∀ i ∈ range m, w (i + 1) * Real.cos (Real.pi * (i + 1 : ℕ) * r / M) = ccW M ccDiff (i + 1) * Real.cos (Real.pi * (i + 1 : ℕ) * r / M) := fun i hi => by
        have := mem_range.mp hi
        simp only [hw]
        rw [if_neg (by omega), div_one]
      rw [sum_congr rfl e]
      simp only [hw]
      rw [if_pos (Or.inl trivial), if_pos (Or.inr hm.symm)]
      linear_combination (-1 / 2 : ℝ) * g
    · have hi0 : ∫ t in (-1 : ℝ)..1, (Chebyshev.T ℝ n).eval t = 0 := by
        have h1 := intervalIntegral.integral_comp_neg (a := (-1 : ℝ)) (b := 1) (fun t => (Chebyshev.T ℝ n).eval t)
        have h2 : ∀ t : ℝ, (Chebyshev.T ℝ n).eval (-t) = -(Chebyshev.T ℝ n).eval t := fun t => by
          rw [Chebyshev.T_eval_neg, Int.negOnePow_odd _ (by exact_mod_cast ho)]; simp
        simp only [h2, intervalIntegral.integral_neg, neg_neg] at h1
        linarith
      rw [hi0, sub_zero]
      have hs := sum_range_reflect (fun i => w i * (Chebyshev.T ℝ n).eval (x i)) (2 * M + 1)
      have hneg : ∀ i ∈ range (2 * M + 1), w (2 * M + 1 - 1 - i) * (Chebyshev.T ℝ n).eval (x (2 * M + 1 - 1 - i)) = -(w i * (Chebyshev.T ℝ n).eval (x i)) := by
        intro i hi
        have hi' := mem_range.mp hi
        have hx' : x (2 * M + 1 - 1 - i) = -x i := by
          simp only [hx]
          have e : Real.pi * ((2 * M - i : ℕ) : ℝ) / (2 * M) = Real.pi - Real.pi * i / (2 * M) := by
            rw [Nat.cast_sub (by omega)]; push_cast; field_simp
          rw [show 2 * M + 1 - 1 - i = 2 * M - i by omega, e, Real.cos_pi_sub]
        have hw' : w (2 * M + 1 - 1 - i) = w i := by
          simp only [hw]
          rw [show 2 * M + 1 - 1 - i = 2 * M - i by omega, ccW_mirror hM _ (by omega)]
          congr 1
          by_cases h : i = 0 ∨ i = 2 * M
          · rw [if_pos h, if_pos (by omega)]
          · rw [if_neg h, if_neg (by omega)]
        rw [hx', hw', Chebyshev.T_eval_neg, Int.negOnePow_odd _ (by exact_mod_cast ho)]
        simp
      rw [sum_congr rfl hneg, sum_neg_distrib] at hs
      linarith
  have : ∑ i ∈ range (2 * M + 1), w i * p.eval (x i) - ∫ t in (-1 : ℝ)..1, p.eval t = 0 := hL
  linarith

/-- **C50.** Even counts and counts below three are refused. -/
theorem C50_refused (Nphi : ℤ) (c d : ℝ) (h : Nphi < 3 ∨ Even Nphi) : ∃ msg, clenshawCurtisQuad Nphi c d = .error (.valueError msg) := by
  unfold clenshawCurtisQuad
  rw [if_pos]
  · exact ⟨_, rfl⟩
  · rcases h with h | h
    · omega
    · obtain ⟨k, hk⟩ := h; omega

/-- **C50.** For an odd count of at least three the rule has as many nodes and weights as asked for and integrates every polynomial
of degree at most that count exactly. -/
theorem C50_exact (n : ℕ) (hn : 3 ≤ n) (ho : Odd n) (c d : ℝ) :
    ∃ x w, clenshawCurtisQuad n c d = .ok (x, w) ∧ x.n = n ∧ w.n = n ∧
      ∀ p : ℝ[X], p.natDegree ≤ n → ∑ i ∈ range n, w.get i * p.eval (x.get i) = ∫ t in c..d, p.eval t := by
  obtain ⟨M, rfl⟩ := ho
  have hM : 0 < M := by omega
  obtain ⟨x, w, h1, h2, h3, h4, h5⟩ := clenshawCurtis_eq hM c d
  refine ⟨transformInterval x c d (-1) 1, transformWeights w c d (-1) 1, by push_cast; exact h1, h2, h3, fun p hp => ?_⟩
  rw [integral_affine]
  let q : ℝ[X] := p.comp (C ((d - c) / 2) * X + C ((d - c) / 2 + c))
  have hq : ∀ x, q.eval x = p.eval ((x + 1) * (d - c) / 2 + c) := fun x => by
    simp only [q, eval_comp, eval_add, eval_mul, eval_C, eval_X]
    congr 1; ring
  have hdeg : q.natDegree ≤ 2 * M + 1 := by
    refine natDegree_comp_le.trans ?_
    calc p.natDegree * _ ≤ p.natDegree * 1 := Nat.mul_le_mul le_rfl natDegree_linear_le
      _ ≤ 2 * M + 1 := by omega
  simp_rw [← hq]
  rw [← ccW_exact hM q hdeg, mul_sum]
  refine sum_congr rfl fun i hi => ?_
  rw [hq]
  simp only [transformWeights, transformInterval, A1.map]
  rw [h4 i (mem_range.mp hi), h5 i (mem_range.mp hi)]
  rw [show (-Real.cos (Real.pi * i / (2 * M)) - -1) * (d - c) / (1 - -1) + c = (-Real.cos (Real.pi * i / (2 * M)) + 1) * (d - c) / 2 + c by ring]
  ring

/-- **C50.** The nodes ascend from `c` to `d` and are symmetric about the midpoint. -/
theorem C50_nodes (n : ℕ) (hn : 3 ≤ n) (ho : Odd n) {c d : ℝ} (hcd : c < d) :
    ∃ x w, clenshawCurtisQuad n c d = .ok (x, w) ∧ x.n = n ∧ x.get 0 = c ∧ x.get (n - 1) = d ∧
      (∀ i j, i < j → j < n → x.get i < x.get j) ∧ (∀ i < n, c ≤ x.get i ∧ x.get i ≤ d) ∧
      ∀ i < n, x.get (n - 1 - i) - (c + d) / 2 = (c + d) / 2 - x.get i := by
  obtain ⟨M, rfl⟩ := ho
  have hM : 0 < M := by omega
  have hMr : (0 : ℝ) < M := by exact_mod_cast hM
  obtain ⟨x, w, h1, h2, h3, h4, h5⟩ := clenshawCurtis_eq hM c d
  have hval : ∀ i < 2 * M + 1, (transformInterval x c d (-1) 1).get i = (1 - Real.cos (Real.pi * i / (2 * M))) * ((d - c) / 2) + c := fun i hi => by
    simp only [transformInterval, A1.map]
    rw [h4 i hi]; ring
  have h0 : (transformInterval x c d (-1) 1).get 0 = c := by rw [hval 0 (by omega)]; simp
  have hl : (transformInterval x c d (-1) 1).get (2 * M) = d := by
    rw [hval _ (by omega), show Real.pi * ((2 * M : ℕ) : ℝ) / (2 * M) = Real.pi by push_cast; field_simp, Real.cos_pi]
    ring
  have hmono : ∀ i j, i < j → j < 2 * M + 1 → (transformInterval x c d (-1) 1).get i < (transformInterval x c d (-1) 1).get j := by
    intro i j hij hj
    rw [hval i (by omega), hval j hj]
    have hpi := Real.pi_pos
    have hjr : (j : ℝ) ≤ 2 * M := by exact_mod_cast (show j ≤ 2 * M by omega)
    have : Real.cos (Real.pi * j / (2 * M)) < Real.cos (Real.pi * i / (2 * M)) := by
      refine Real.cos_lt_cos_of_nonneg_of_le_pi (by positivity) ?_ ?_
      · rw [div_le_iff₀ (by positivity)]
        exact mul_le_mul_of_nonneg_left hjr hpi.le
      · have : (i : ℝ) < j := by exact_mod_cast hij
        gcongr
    have hd : 0 < (d - c) / 2 := by linarith
    nlinarith
  refine ⟨transformInterval x c d (-1) 1, transformWeights w c d (-1) 1, by push_cast; exact h1, h2, h0, hl, hmono, fun i hi => ?_, fun i hi => ?_⟩
  · constructor
    · rcases Nat.eq_zero_or_pos i with rfl | hp
      · exact h0.ge
      · have := hmono 0 i hp hi; rw [h0] at this; exact this.le
    · rcases eq_or_lt_of_le (show i ≤ 2 * M by omega) with rfl | hp
      · exact hl.le
      · have := hmono i _ hp (by omega); rw [hl] at this; exact this.le
  · rw [show 2 * M + 1 - 1 - i = 2 * M - i by omega, hval _ (by omega), hval i hi]
    have : Real.cos (Real.pi * ((2 * M - i : ℕ) : ℝ) / (2 * M)) = -Real.cos (Real.pi * i / (2 * M)) := by
      rw [← Real.cos_pi_sub, Nat.cast_sub (by omega)]
      congr 1
      push_cast; field_simp
    rw [this]; ring

example : (3 ≤ 5) ∧ Odd 5 := ⟨by norm_num, by decide⟩

end

end Pydisort

import Verif.Props.Kept
import Verif.KernelQuad
import Verif.WholeSlab
import Verif.FullBound

/-!
# The error at all azimuths of truncation, delta-M scaling, dropped modes and quadrature together
-/

namespace Pydisort
open Finset Spec MeasureTheory

theorem cut_sum_le_tail {g : ℕ → ℝ} (hg : PhaseSeries g) (K L : ℕ) :
    ∑ k ∈ range L, (if K ≤ k then (2 * (k : ℝ) + 1) * |g k| else 0) ≤ tailSum g K := by
  have hs : Summable fun k : ℕ => (2 * ((k + K : ℕ) : ℝ) + 1) * |g (k + K)| := (summable_nat_add_iff (f := fun k : ℕ => (2 * (k : ℝ) + 1) * |g k|) K).2 hg.summable
  have h1 : ∑ k ∈ range L, (if K ≤ k then (2 * (k : ℝ) + 1) * |g k| else 0) ≤ ∑ k ∈ range (K + L), (if K ≤ k then (2 * (k : ℝ) + 1) * |g k| else 0) :=
    sum_le_sum_of_subset_of_nonneg (range_subset_range.2 (by omega)) fun k _ _ => by split_ifs <;> positivity
  refine h1.trans ?_
  rw [sum_range_add, sum_eq_zero fun k hk => if_neg (by have := mem_range.1 hk; omega), zero_add]
  have h2 : ∑ k ∈ range L, (if K ≤ K + k then (2 * ((K + k : ℕ) : ℝ) + 1) * |g (K + k)| else 0) = ∑ k ∈ range L, (2 * ((k + K : ℕ) : ℝ) + 1) * |g (k + K)| :=
    sum_congr rfl fun k _ => by rw [if_pos (Nat.le_add_right K k), Nat.add_comm K k]
  rw [h2]
  exact hs.sum_le_tsum (range L) fun k _ => by positivity

/-- Light gathered from the streams with an approximate kernel and field, against a value that the exact kernel and field would give approximately. -/
theorem gather_step {n : ℕ} {W : ℕ → ℝ} {A P u v : ℕ → ℝ → ℝ} {om σ M k η T C S : ℝ} (hom : 0 ≤ om) (hk : 0 ≤ k) (hW : ∀ j < n, 0 ≤ W j) (hT : ∑ j ∈ range n, W j = T)
    (hA : ∀ j < n, Continuous (A j)) (hP : ∀ j < n, Continuous (P j)) (hu : ∀ j < n, Continuous (u j)) (hv : ∀ j < n, Continuous (v j))
    (hP0 : ∀ j < n, ∀ p, 0 ≤ P j p) (hσ : ∀ j < n, ∀ p, |A j p - om * P j p| ≤ σ) (hM : ∀ j < n, ∀ p, |v j p| ≤ M) (huv : ∀ j < n, ∀ p, |u j p - v j p| ≤ k)
    (hC : ∑ j ∈ range n, W j * (∫ p in (0 : ℝ)..(2 * Real.pi), P j p) ≤ C)
    (hη : |∑ j ∈ range n, W j * (∫ p in (0 : ℝ)..(2 * Real.pi), P j p * v j p) - S| ≤ η) :
    |∑ j ∈ range n, W j * (∫ p in (0 : ℝ)..(2 * Real.pi), A j p * u j p) - om * S| ≤ 2 * Real.pi * T * (σ * (M + k)) + om * (k * C + η) := by
  have hpi := Real.pi_pos
  have h0 : ∀ j ∈ range n, W j * (∫ p in (0 : ℝ)..(2 * Real.pi), A j p * u j p)
      = W j * (∫ p in (0 : ℝ)..(2 * Real.pi), (A j p - om * P j p) * u j p) + om * (W j * ∫ p in (0 : ℝ)..(2 * Real.pi), P j p * (u j p - v j p))
        + om * (W j * ∫ p in (0 : ℝ)..(2 * Real.pi), P j p * v j p) := by
    intro j hj
    have hj' := mem_range.1 hj
    have a1 := hA j hj'
    have a2 := hP j hj'
    have a3 := hu j hj'
    have a4 := hv j hj'
    have e : ∫ p in (0 : ℝ)..(2 * Real.pi), A j p * u j p
        = (∫ p in (0 : ℝ)..(2 * Real.pi), (A j p - om * P j p) * u j p) + om * (∫ p in (0 : ℝ)..(2 * Real.pi), P j p * (u j p - v j p))
          + om * (∫ p in (0 : ℝ)..(2 * Real.pi), P j p * v j p) := by
      rw [← intervalIntegral.integral_const_mul, ← intervalIntegral.integral_const_mul,
        ← intervalIntegral.integral_add (Continuous.intervalIntegrable (by fun_prop) _ _) (Continuous.intervalIntegrable (by fun_prop) _ _),
        ← intervalIntegral.integral_add (Continuous.intervalIntegrable (by fun_prop) _ _) (Continuous.intervalIntegrable (by fun_prop) _ _)]
      exact intervalIntegral.integral_congr fun p _ => by ring
    rw [e]
    ring
  rw [sum_congr rfl h0, sum_add_distrib, sum_add_distrib, ← mul_sum, ← mul_sum]
  have h1 : |∑ j ∈ range n, W j * (∫ p in (0 : ℝ)..(2 * Real.pi), (A j p - om * P j p) * u j p)| ≤ 2 * Real.pi * T * (σ * (M + k)) := by
    refine (abs_sum_le_sum_abs _ _).trans ?_
    rw [← hT, mul_sum, sum_mul]
    refine sum_le_sum fun j hj => ?_
    have hj' := mem_range.1 hj
    rw [abs_mul, abs_of_nonneg (hW j hj')]
    have := intervalIntegral.norm_integral_le_of_norm_le_const (a := (0 : ℝ)) (b := 2 * Real.pi) (C := σ * (M + k)) (f := fun p => (A j p - om * P j p) * u j p) fun p _ => by
      rw [Real.norm_eq_abs, abs_mul]
      have b1 := hσ j hj' p
      have b2 : |u j p| ≤ M + k := by
        have := abs_add_le (v j p) (u j p - v j p)
        rw [add_sub_cancel] at this
        exact this.trans (add_le_add (hM j hj' p) (huv j hj' p))
      exact mul_le_mul b1 b2 (abs_nonneg _) ((abs_nonneg _).trans b1)
    rw [Real.norm_eq_abs, sub_zero, abs_of_pos (by positivity : 0 < 2 * Real.pi)] at this
    exact (mul_le_mul_of_nonneg_left this (hW j hj')).trans (le_of_eq (by ring))
  have h2 : |∑ j ∈ range n, W j * (∫ p in (0 : ℝ)..(2 * Real.pi), P j p * (u j p - v j p))| ≤ k * C := by
    refine (abs_sum_le_sum_abs _ _).trans (le_trans ?_ (mul_le_mul_of_nonneg_left hC hk))
    rw [mul_sum]
    refine sum_le_sum fun j hj => ?_
    have hj' := mem_range.1 hj
    rw [abs_mul, abs_of_nonneg (hW j hj')]
    have := azimuth_le (g := P j) (e := fun p => u j p - v j p) (hP j hj') (fun p => hP0 j hj' p) fun p => huv j hj' p
    exact (mul_le_mul_of_nonneg_left this (hW j hj')).trans (le_of_eq (by ring))
  have e2 := abs_sub_le_iff.1 hη
  rw [abs_le] at h1 h2
  refine abs_le.2 ⟨?_, ?_⟩
  · have := mul_le_mul_of_nonneg_left h2.1 hom
    have := mul_le_mul_of_nonneg_left e2.2 hom
    linarith [h1.1]
  · have := mul_le_mul_of_nonneg_left h2.2 hom
    have := mul_le_mul_of_nonneg_left e2.1 hom
    linarith [h1.2]

section
variable {E : Ext} {a b : Args} {g : ℕ → ℕ → ℝ} {rho : ℕ → ℝ → ℝ → ℝ} {up down : ℝ → ℝ} {w : ℝ → ℝ → ℝ → ℝ}

/-- The kept part of the phase function of the code against the true phase function. -/
theorem kept_near_whole (hT : Truncates a g b) (hacc : Accepted b) {l : ℕ} (hl : l < a.tauArr.n) (hg : PhaseSeries (g l)) (hp0 : 0 ≤ peak b l) (hp : peak b l < 1)
    {ν s : ℝ} {K : ℕ} (hν : 2 / 10 ^ 8 * K + a.omega.get l * tailSum (g l) K ≤ ν)
    (hs : tailSum (g l) (nFourier b) + tailSum (g l) (nLeg b) + 2 * (peak b l * (nLeg b : ℝ) ^ 2) ≤ s)
    {x y : ℝ} (hx : x ∈ Set.Icc (-1 : ℝ) 1) (hy : y ∈ Set.Icc (-1 : ℝ) 1) (ph ph' : ℝ) :
    |scale b l * omegaStar b l * keptPhase b l x ph y ph' - a.omega.get l * wholePhase (g l) (cosAngle x ph y ph')| ≤ ν + s := by
  classical
  have hl' : l < b.tauArr.n := by rwa [hT.tau]
  have ho := hacc.omega l hl'
  have hsc := Args.scale_pos hacc hl'
  have hp1 : 1 - peak b l ≠ 0 := by linarith
  rw [hT.omega] at ho
  have hsc1 : scale b l ≤ 1 := by unfold scale; rw [hT.omega]; nlinarith [mul_nonneg ho.1 hp0]
  have hcoef : ∀ k < nLeg b, scale b l * omegaStar b l * legStar b l k = a.omega.get l * (g l k - peak b l) := fun k hk => by
    have e := truncates_leg hT hl hg hk
    unfold omegaStar legStar
    rw [e, hT.omega]
    have := hsc.ne'
    field_simp
  have hso : 0 ≤ omegaStar b l := omegaStar_nonneg hacc hl' hp
  -- the truncated phase function
  have h1 : |scale b l * omegaStar b l * phase b l (cosAngle x ph y ph') - a.omega.get l * wholePhase (g l) (cosAngle x ph y ph')|
      ≤ tailSum (g l) (nLeg b) + peak b l * (nLeg b : ℝ) ^ 2 := by
    have e : scale b l * omegaStar b l * phase b l (cosAngle x ph y ph')
        = a.omega.get l * ∑ k ∈ range (nLeg b), (2 * (k : ℝ) + 1) * (g l k - peak b l) * (legendreP k).eval (cosAngle x ph y ph') := by
      unfold phase
      rw [mul_sum, mul_sum]
      refine sum_congr rfl fun k hk => ?_
      linear_combination ((2 * (k : ℝ) + 1) * (legendreP k).eval (cosAngle x ph y ph')) * hcoef k (mem_range.1 hk)
    have := whole_truncation hg (peak b l) (nLeg b) (cosAngle_mem hx hy ph ph')
    rw [abs_of_nonneg hp0] at this
    rw [e, ← mul_sub, abs_mul, abs_of_nonneg ho.1]
    exact (mul_le_of_le_one_left (abs_nonneg _) ho.2.le).trans this
  -- the dropped modes
  have h2 : |scale b l * omegaStar b l * phase b l (cosAngle x ph y ph') - scale b l * omegaStar b l * keptPhase b l x ph y ph'|
      ≤ ν + tailSum (g l) (nFourier b) + peak b l * (nLeg b : ℝ) ^ 2 := by
    rw [← mul_sub, abs_mul, abs_of_nonneg (mul_nonneg hsc.le hso)]
    refine (mul_le_mul_of_nonneg_left (kept_near_phase (nFourier_le_nLeg hacc) l hx hy ph ph') (mul_nonneg hsc.le hso)).trans ?_
    rw [mul_sum]
    have hterm : ∀ k ∈ range (nLeg b), scale b l * omegaStar b l
          * (if k < nFourier b ∧ Significant (omegaStar b l) (nLeg b) (legStar b l) k then 0 else (2 * (k : ℝ) + 1) * |legStar b l k|)
        ≤ (if k < K then 2 / 10 ^ 8 else 0) + a.omega.get l * (if K ≤ k then (2 * (k : ℝ) + 1) * |g l k| else 0)
          + (if nFourier b ≤ k then (2 * (k : ℝ) + 1) * |g l k| else 0) + peak b l * (2 * (k : ℝ) + 1) := by
      intro k hk
      have hk' := mem_range.1 hk
      have hpos : (0 : ℝ) < 2 * k + 1 := by positivity
      have hgk : 0 ≤ (2 * (k : ℝ) + 1) * |g l k| := by positivity
      have hpk : 0 ≤ peak b l * (2 * (k : ℝ) + 1) := by positivity
      have n1 : (0 : ℝ) ≤ if k < K then 2 / 10 ^ 8 else 0 := by split_ifs <;> norm_num
      have n2 : 0 ≤ a.omega.get l * (if K ≤ k then (2 * (k : ℝ) + 1) * |g l k| else 0) := mul_nonneg ho.1 (by split_ifs <;> positivity)
      have n3 : 0 ≤ (if nFourier b ≤ k then (2 * (k : ℝ) + 1) * |g l k| else 0) := by split_ifs <;> positivity
      have hc : scale b l * omegaStar b l * ((2 * (k : ℝ) + 1) * |legStar b l k|) = a.omega.get l * ((2 * (k : ℝ) + 1) * |g l k - peak b l|) := by
        have := congrArg abs (hcoef k hk')
        rw [abs_mul, abs_mul, abs_mul, abs_of_nonneg hsc.le, abs_of_nonneg hso, abs_of_nonneg ho.1] at this
        linear_combination (2 * (k : ℝ) + 1) * this
      have hc2 : a.omega.get l * ((2 * (k : ℝ) + 1) * |g l k - peak b l|) ≤ a.omega.get l * ((2 * (k : ℝ) + 1) * |g l k|) + peak b l * (2 * (k : ℝ) + 1) := by
        have t1 : |g l k - peak b l| ≤ |g l k| + peak b l := (abs_sub _ _).trans (by rw [abs_of_nonneg hp0])
        have t2 : a.omega.get l * ((2 * (k : ℝ) + 1) * |g l k - peak b l|) ≤ a.omega.get l * ((2 * (k : ℝ) + 1) * (|g l k| + peak b l)) :=
          mul_le_mul_of_nonneg_left (mul_le_mul_of_nonneg_left t1 hpos.le) ho.1
        have t3 : a.omega.get l * (peak b l * (2 * (k : ℝ) + 1)) ≤ peak b l * (2 * (k : ℝ) + 1) := mul_le_of_le_one_left hpk ho.2.le
        linarith
      by_cases h : k < nFourier b ∧ Significant (omegaStar b l) (nLeg b) (legStar b l) k
      · rw [if_pos h, mul_zero]
        linarith
      · rw [if_neg h, hc]
        by_cases hkF : nFourier b ≤ k
        · rw [if_pos hkF] at n3 ⊢
          have : a.omega.get l * ((2 * (k : ℝ) + 1) * |g l k|) ≤ (2 * (k : ℝ) + 1) * |g l k| := mul_le_of_le_one_left hgk ho.2.le
          linarith
        · by_cases hkK : K ≤ k
          · rw [if_pos hkK]
            linarith
          · rw [if_pos (not_le.1 hkK)]
            have hns : ¬ Significant (omegaStar b l) (nLeg b) (legStar b l) k := fun hs => h ⟨not_le.1 hkF, hs⟩
            unfold Significant at hns
            push Not at hns
            have h3 := hns k le_rfl hk'
            rw [abs_mul, abs_mul, abs_div, abs_of_pos hpos, abs_of_pos (two_pos : (0 : ℝ) < 2), abs_of_nonneg hso] at h3
            have h4 : scale b l * omegaStar b l * ((2 * (k : ℝ) + 1) * |legStar b l k|) ≤ omegaStar b l * ((2 * (k : ℝ) + 1) * |legStar b l k|) := by
              rw [mul_assoc]
              exact mul_le_of_le_one_left (by positivity) hsc1
            rw [hc] at h4
            linarith
    refine (sum_le_sum hterm).trans ?_
    rw [sum_add_distrib, sum_add_distrib, sum_add_distrib, ← mul_sum, ← mul_sum, sum_odd]
    have q1 : ∑ k ∈ range (nLeg b), (if k < K then (2 / 10 ^ 8 : ℝ) else 0) ≤ 2 / 10 ^ 8 * K := by
      rw [← sum_filter, sum_const, nsmul_eq_mul, mul_comm]
      refine mul_le_mul_of_nonneg_left ?_ (by norm_num)
      have : (filter (fun k => k < K) (range (nLeg b))).card ≤ (range K).card := card_le_card fun k hk => mem_range.2 (mem_filter.1 hk).2
      rw [card_range] at this
      exact_mod_cast this
    have q2 := mul_le_mul_of_nonneg_left (cut_sum_le_tail hg K (nLeg b)) ho.1
    have q3 := cut_sum_le_tail hg (nFourier b) (nLeg b)
    linarith
  have a1 := abs_sub_le_iff.1 h1
  have a2 := abs_sub_le_iff.1 h2
  exact abs_sub_le_iff.2 ⟨by linarith [a1.1, a2.2], by linarith [a1.2, a2.1]⟩

theorem kept_az (l : ℕ) (x ph y : ℝ) : Continuous fun ph' => keptPhase b l x ph y ph' := by
  classical
  unfold keptPhase
  refine continuous_finsetSum _ fun m _ => ?_
  split_ifs <;> fun_prop

/-- One step of the iteration: if the error is at most `k` everywhere then it is at most `q k + δ` everywhere. -/
theorem whole_step (hacca : Accepted a) (hacc : Accepted b) (hg : GaussContract E (nHalf b)) (hT : Truncates a g b) (hgs : ∀ l < a.tauArr.n, PhaseSeries (g l))
    (hpos : NonnegWhole a g) (hr : AbsorbingBDRF a rho) (hlen : b.bdrf.length = a.bdrf.length) (hphi : b.phi0 = a.phi0) (hw : WholeSolution a g rho up down w)
    (hsm : Sampled b (node E b) up down)
    {M κ ν s η β β' δ : ℝ} (hM : ∀ t ∈ Set.Icc 0 (bottom a), ∀ y ∈ Set.Icc (-1 : ℝ) 1, y ≠ 0 → ∀ ph, |w t y ph| ≤ M) (hκ : ∀ l < a.tauArr.n, a.omega.get l ≤ 1 - κ)
    (hs0 : 0 ≤ s) (hη0 : 0 ≤ η) (hpk : ∀ l < a.tauArr.n, 0 ≤ peak b l ∧ peak b l ≤ s)
    (hσ : ∀ l < a.tauArr.n, ∀ x ∈ Set.Icc (-1 : ℝ) 1, ∀ y ∈ Set.Icc (-1 : ℝ) 1, ∀ ph ph',
      |scale b l * omegaStar b l * keptPhase b l x ph y ph' - a.omega.get l * wholePhase (g l) (cosAngle x ph y ph')| ≤ ν + s)
    (hq : ∀ l < a.tauArr.n, ∀ t ∈ Set.Icc 0 (bottom a), ∀ y ∈ Set.Icc (-1 : ℝ) 1, ∀ ph,
      |∑ j ∈ range (2 * nHalf b), streamW (nHalf b) (weight E b) j * (∫ ph' in (0 : ℝ)..(2 * Real.pi), wholePhase (g l) (cosAngle y ph (stream (nHalf b) (node E b) j) ph')
        * w t (stream (nHalf b) (node E b) j) ph') - wholeScatter (g l) (w t) y ph| ≤ η)
    (hq1 : ∀ l < a.tauArr.n, ∀ y ∈ Set.Icc (-1 : ℝ) 1, ∀ ph,
      ∑ j ∈ range (2 * nHalf b), streamW (nHalf b) (weight E b) j * (∫ ph' in (0 : ℝ)..(2 * Real.pi), wholePhase (g l) (cosAngle y ph (stream (nHalf b) (node E b) j) ph')) ≤ 4 * Real.pi + η)
    (hρ : ∀ y ∈ Set.Icc (0 : ℝ) 1, ∀ ph, |∑ j ∈ range (nHalf b), weight E b j * (∫ ph' in (0 : ℝ)..(2 * Real.pi), node E b j * bdrfOf a rho y (node E b j) (ph - ph')
        * w (bottom a) (-node E b j) ph') - kint 0 1 (fun y ph z ph' => z * bdrfOf a rho y z (ph - ph')) (fun z => w (bottom a) (-z)) y ph| ≤ η)
    (hρ1 : ∀ y ∈ Set.Icc (0 : ℝ) 1, ∀ ph, ∑ j ∈ range (nHalf b), weight E b j * (∫ ph' in (0 : ℝ)..(2 * Real.pi), node E b j * bdrfOf a rho y (node E b j) (ph - ph'))
        ≤ Real.pi * (1 - κ + η))
    (hβ : ∀ l < a.tauArr.n, ∀ t, InLayer a l t → ∀ y ∈ Set.Icc (-1 : ℝ) 1, ∀ ph,
      |a.I0 / (4 * Real.pi) * (scale b l * omegaStar b l * keptPhase b l y ph (-a.mu0) a.phi0 * Real.exp (-tauStar b l t / a.mu0)
        - a.omega.get l * wholePhase (g l) (cosAngle y ph (-a.mu0) a.phi0) * Real.exp (-t / a.mu0))| ≤ β)
    (hβ' : ∀ y ∈ Set.Icc (0 : ℝ) 1, ∀ ph, |a.mu0 * a.I0 / Real.pi * bdrfOf a rho y a.mu0 (ph - a.phi0)
      * (Real.exp (-bdryStar b b.tauArr.n / a.mu0) - Real.exp (-bottom a / a.mu0))| ≤ β')
    (hδ : M * (ν + 2 * s) + η + β ≤ δ) (hδ' : η + β' ≤ δ)
    {u : ℝ → ℝ → ℕ → ℝ} (hut : ∀ i < 2 * nHalf b, ∀ ph, ContinuousOn (fun t => u t ph i) (Set.Icc 0 (bottom a)))
    (hup : ∀ i < 2 * nHalf b, ∀ t ∈ Set.Icc 0 (bottom a), Continuous fun ph => u t ph i)
    (hode : ∀ l < b.tauArr.n, ∀ t, bdry b.tauArr.get l < t → t < bdry b.tauArr.get (l + 1) → ∀ i < 2 * nHalf b, ∀ ph,
      ∃ d, HasDerivAt (fun x => u x ph i) d t ∧ stream (nHalf b) (node E b) i * d = keptRHS b (node E b) (weight E b) l t (fun j ph' => u t ph' j) i ph)
    (hbc : ∀ i < nHalf b, ∀ ph, u 0 ph (nHalf b + i) = bcVal b.bneg 0 i ∧
      u (bottom b) ph i = bcVal b.bpos 0 i + fullReflected b (node E b) (weight E b) rho (node E b i) ph (fun j ph' => u (bottom b) ph' (nHalf b + j)))
    {k : ℝ} (hk0 : 0 ≤ k) (hkq : 0 ≤ (1 - κ + ν + 2 * s + η) * k + δ)
    (hk : ∀ t ∈ Set.Icc 0 (bottom a), ∀ ph, ∀ i < 2 * nHalf b, |u t ph i - w t (stream (nHalf b) (node E b) i) ph| ≤ k) :
    ∀ t ∈ Set.Icc 0 (bottom a), ∀ ph, ∀ i < 2 * nHalf b, |u t ph i - w t (stream (nHalf b) (node E b) i) ph| ≤ (1 - κ + ν + 2 * s + η) * k + δ := by
  have hpi := Real.pi_pos
  have hbb : bottom b = bottom a := by unfold bottom; rw [hT.tau]
  have hb0 := (bottom_pos hacca).le
  have hbm : bottom a ∈ Set.Icc 0 (bottom a) := ⟨hb0, le_rfl⟩
  have hwaz : ∀ t ∈ Set.Icc 0 (bottom a), ∀ y ∈ Set.Icc (-1 : ℝ) 1, y ≠ 0 → Continuous fun ph => w t y ph := fun t ht y hy hy0 =>
    hw.cont.comp_continuous (f := fun ph => (t, y, ph)) (by fun_prop) fun ph => ⟨ht, ⟨hy, hy0⟩, trivial⟩
  intro t ht ph i hi
  obtain ⟨hy, hy0⟩ := stream_mem (a := b) hg hi
  set y := stream (nHalf b) (node E b) i with hyd
  refine attenuate_of (c := fun _ => 1) (f := fun t => u t ph i - w t y ph) hacca (fun _ _ => one_pos) ((hut i hi ph).sub
    (hw.cont.comp (f := fun t => (t, y, ph)) (by fun_prop) fun t ht => ⟨ht, ⟨hy, hy0⟩, trivial⟩)) hkq hy0 ?_ ?_ ?_ t ht
  · intro l hl t h0 h1
    have htI := layer_in_range hacca hl h0 h1
    have ho := hacca.omega l hl
    have hl' : l < b.tauArr.n := by rwa [hT.tau]
    obtain ⟨d₁, k₁, e₁⟩ := hode l hl' t (by rwa [hT.tau]) (by rwa [hT.tau]) i hi ph
    obtain ⟨d₂, k₂, e₂⟩ := hw.ode l hl t h0 h1 y hy hy0 ph
    refine ⟨d₁ - d₂, a.omega.get l * peak b l * u t ph i
      + 1 / (4 * Real.pi) * (∑ j ∈ range (2 * nHalf b), streamW (nHalf b) (weight E b) j * (∫ ph' in (0 : ℝ)..(2 * Real.pi),
          scale b l * omegaStar b l * keptPhase b l y ph (stream (nHalf b) (node E b) j) ph' * u t ph' j) - a.omega.get l * wholeScatter (g l) (w t) y ph)
      + a.I0 / (4 * Real.pi) * (scale b l * omegaStar b l * keptPhase b l y ph (-a.mu0) a.phi0 * Real.exp (-tauStar b l t / a.mu0)
        - a.omega.get l * wholePhase (g l) (cosAngle y ph (-a.mu0) a.phi0) * Real.exp (-t / a.mu0)), k₁.sub k₂, ?_, ?_⟩
    · rw [mul_sub, e₁, e₂]
      unfold keptRHS wholeRHS
      have hsrc : source b l t = source a l t := by unfold source; rw [hT.source]
      have hscl : scale b l = 1 - a.omega.get l * peak b l := by unfold scale; rw [hT.omega]
      have hint : ∑ j ∈ range (2 * nHalf b), streamW (nHalf b) (weight E b) j * (∫ ph' in (0 : ℝ)..(2 * Real.pi),
          scale b l * omegaStar b l * keptPhase b l y ph (stream (nHalf b) (node E b) j) ph' * u t ph' j)
          = scale b l * omegaStar b l * ∑ j ∈ range (2 * nHalf b), streamW (nHalf b) (weight E b) j * (∫ ph' in (0 : ℝ)..(2 * Real.pi),
            keptPhase b l y ph (stream (nHalf b) (node E b) j) ph' * u t ph' j) := by
        rw [mul_sum]
        refine sum_congr rfl fun j _ => ?_
        simp only [mul_assoc, intervalIntegral.integral_const_mul]
        ring
      rw [hint, hsrc, hT.omega, hT.beam, hT.angle, hphi, ← hyd]
      generalize (∑ j ∈ range (2 * nHalf b), streamW (nHalf b) (weight E b) j * (∫ ph' in (0 : ℝ)..(2 * Real.pi),
            keptPhase b l y ph (stream (nHalf b) (node E b) j) ph' * u t ph' j)) = X
      field_simp
      rw [hscl]
      ring
    · have hscat := gather_step (n := 2 * nHalf b) (W := streamW (nHalf b) (weight E b)) (u := fun j p => u t p j) (v := fun j p => w t (stream (nHalf b) (node E b) j) p)
        (A := fun j p => scale b l * omegaStar b l * keptPhase b l y ph (stream (nHalf b) (node E b) j) p)
        (P := fun j p => wholePhase (g l) (cosAngle y ph (stream (nHalf b) (node E b) j) p)) (om := a.omega.get l) (σ := ν + s) (M := M) (k := k) (η := η)
        ho.1 hk0 (fun j hj => (streamW_pos hg hj).le) (streamW_sum hg (streams_pos hacc)) (fun j _ => continuous_const.mul (kept_az l y ph _))
        (fun j hj => (wholePhase_cont (hgs l hl)).comp_continuous (cosAngle_continuous y ph _) fun p => cosAngle_mem hy (stream_mem hg hj).1 ph p)
        (fun j hj => hup j hj t htI) (fun j hj => hwaz t htI _ (stream_mem hg hj).1 (stream_mem hg hj).2)
        (fun j hj p => hpos l hl _ (cosAngle_mem hy (stream_mem hg hj).1 ph p)) (fun j hj p => hσ l hl y hy _ (stream_mem hg hj).1 ph p)
        (fun j hj p => hM t htI _ (stream_mem hg hj).1 (stream_mem hg hj).2 p) (fun j hj p => hk t htI p j hj) (hq1 l hl y hy ph) (hq l hl t htI y hy ph)
      have hbeam := hβ l hl t ⟨h0.le, h1.le⟩ y hy ph
      have hu : |u t ph i| ≤ M + k := by
        have := abs_add_le (w t y ph) (u t ph i - w t y ph)
        rw [add_sub_cancel] at this
        exact this.trans (add_le_add (hM t htI y hy hy0 ph) (hk t htI ph i hi))
      have hMk : 0 ≤ M + k := (abs_nonneg _).trans hu
      have hp := hpk l hl
      have hop : |a.omega.get l * peak b l * u t ph i| ≤ s * (M + k) := by
        rw [abs_mul, abs_of_nonneg (mul_nonneg ho.1 hp.1)]
        exact mul_le_mul ((mul_le_of_le_one_left hp.1 ho.2.le).trans hp.2) hu (abs_nonneg _) hs0
      refine (abs_add_le _ _).trans ((add_le_add ((abs_add_le _ _).trans (add_le_add hop le_rfl)) hbeam).trans ?_)
      rw [abs_mul, abs_of_pos (by positivity : 0 < 1 / (4 * Real.pi))]
      have h3 : 1 / (4 * Real.pi) * (2 * Real.pi * 2 * ((ν + s) * (M + k)) + a.omega.get l * (k * (4 * Real.pi + η) + η))
          = (ν + s) * (M + k) + a.omega.get l * (k + k * (η / (4 * Real.pi)) + η / (4 * Real.pi)) := by field_simp; ring
      have h4 := mul_le_mul_of_nonneg_left hscat (by positivity : 0 ≤ 1 / (4 * Real.pi))
      rw [h3] at h4
      have h5 : η / (4 * Real.pi) ≤ η := div_le_self hη0 (by linarith [Real.two_le_pi])
      have h6 : a.omega.get l * (k + k * (η / (4 * Real.pi)) + η / (4 * Real.pi)) ≤ (1 - κ) * k + k * η + η := by
        have x1 : a.omega.get l * k ≤ (1 - κ) * k := mul_le_mul_of_nonneg_right (hκ l hl) hk0
        have x2 : 0 ≤ k * (η / (4 * Real.pi)) := by positivity
        have x3 : k * (η / (4 * Real.pi)) ≤ k * η := mul_le_mul_of_nonneg_left h5 hk0
        have x4 : a.omega.get l * (k * (η / (4 * Real.pi)) + η / (4 * Real.pi)) ≤ k * (η / (4 * Real.pi)) + η / (4 * Real.pi) := mul_le_of_le_one_left (by positivity) ho.2.le
        linarith
      linarith
  · intro hneg
    have hin : ¬ i < nHalf b := fun h => by
      have := (node_pos hg h).1
      rw [hyd, stream, if_pos h] at hneg
      linarith
    obtain ⟨j, rfl⟩ : ∃ j, i = nHalf b + j := ⟨i - nHalf b, by omega⟩
    have hj : j < nHalf b := by omega
    have hyj : y = -node E b j := by rw [hyd, stream, if_neg hin, Nat.add_sub_cancel_left]
    have hnp := node_pos hg hj
    beta_reduce
    rw [(hbc j hj ph).1, hyj, hw.top _ ⟨hnp.1, hnp.2.le⟩ ph, hsm.top j hj, sub_self, abs_zero]
    exact hkq
  · intro hpos'
    have hin : i < nHalf b := by
      by_contra h
      have := (node_pos hg (show i - nHalf b < nHalf b by omega)).1
      rw [hyd, stream, if_neg h] at hpos'
      linarith
    have hyj : y = node E b i := by rw [hyd, stream, if_pos hin]
    have hy1 : y ∈ Set.Icc (0 : ℝ) 1 := ⟨hpos'.le, hy.2⟩
    have hbd : bdrfOf b rho = bdrfOf a rho := by funext x z d; unfold bdrfOf; rw [hlen]
    have hdown : ∀ j < nHalf b, nHalf b + j < 2 * nHalf b ∧ stream (nHalf b) (node E b) (nHalf b + j) = -node E b j := fun j hj =>
      ⟨by omega, by rw [stream, if_neg (by omega), Nat.add_sub_cancel_left]⟩
    have hmem : ∀ j < nHalf b, -node E b j ∈ Set.Icc (-1 : ℝ) 1 ∧ -node E b j ≠ 0 := fun j hj => by
      have := node_pos hg hj
      exact ⟨⟨by linarith, by linarith⟩, by linarith [this.1] |> fun h : -node E b j < 0 => h.ne⟩
    have hsurf := gather_step (n := nHalf b) (W := weight E b) (u := fun j p => u (bottom a) p (nHalf b + j)) (v := fun j p => w (bottom a) (-node E b j) p)
      (A := fun j p => 1 * (node E b j * bdrfOf a rho y (node E b j) (ph - p)))
      (P := fun j p => node E b j * bdrfOf a rho y (node E b j) (ph - p)) (om := 1) (σ := 0) (M := M) (k := k) (η := η)
      zero_le_one hk0 (fun j hj => (weight_pos hg hj).le) rfl (fun j _ => by unfold bdrfOf; fun_prop) (fun j _ => by unfold bdrfOf; fun_prop)
      (fun j hj => hup _ (hdown j hj).1 _ hbm) (fun j hj => hwaz _ hbm _ (hmem j hj).1 (hmem j hj).2)
      (fun j hj p => mul_nonneg (node_pos hg hj).1.le (hr.nonneg y hy1 _ ⟨(node_pos hg hj).1.le, (node_pos hg hj).2.le⟩ _)) (fun j hj p => by simp)
      (fun j hj p => hM _ hbm _ (hmem j hj).1 (hmem j hj).2 p) (fun j hj p => by rw [← (hdown j hj).2]; exact hk _ hbm p _ (hdown j hj).1) (hρ1 y hy1 ph) (hρ y hy1 ph)
    have hb := hβ' y hy1 ph
    have hB := (hbc i hin ph).2
    rw [hbb] at hB
    beta_reduce
    rw [hB, hw.bot y ⟨hpos', hy.2⟩ ph, hsm.bottom i hin, wholeReflect_eq, ← hyj]
    unfold fullReflected
    rw [hbd, hT.beam, hT.angle, hphi]
    have hint : ∑ j ∈ range (nHalf b), weight E b j * node E b j * (∫ ph' in (0 : ℝ)..(2 * Real.pi), bdrfOf a rho y (node E b j) (ph - ph') * u (bottom a) ph' (nHalf b + j))
        = ∑ j ∈ range (nHalf b), weight E b j * (∫ p in (0 : ℝ)..(2 * Real.pi), 1 * (node E b j * bdrfOf a rho y (node E b j) (ph - p)) * u (bottom a) p (nHalf b + j)) := by
      refine sum_congr rfl fun j _ => ?_
      simp only [one_mul, mul_assoc, intervalIntegral.integral_const_mul]
    rw [hint]
    rw [one_mul, one_mul, zero_mul, mul_zero, zero_add] at hsurf
    rw [show ∀ U X Y e1 e2 B : ℝ, U + (1 / Real.pi * X + B * e1) - (U + (1 / Real.pi * Y + B * e2)) = 1 / Real.pi * (X - Y) + B * (e1 - e2) from fun _ _ _ _ _ _ => by ring]
    refine (abs_add_le _ _).trans ((add_le_add le_rfl hb).trans ?_)
    rw [abs_mul, abs_of_pos (by positivity : 0 < 1 / Real.pi)]
    have h4 := mul_le_mul_of_nonneg_left hsurf (by positivity : 0 ≤ 1 / Real.pi)
    have h3 : 1 / Real.pi * (k * (Real.pi * (1 - κ + η)) + η) = k * (1 - κ + η) + η / Real.pi := by field_simp
    rw [h3] at h4
    have h5 : η / Real.pi ≤ η := div_le_self hη0 (by linarith [Real.two_le_pi])
    have hν : 0 ≤ (ν + 2 * s) * k := by
      refine mul_nonneg ?_ hk0
      have := (abs_nonneg _).trans (hσ 0 hacca.layers 0 (by constructor <;> norm_num) 0 (by constructor <;> norm_num) 0 0)
      linarith
    linarith

end

end Pydisort

import Mathlib.Topology.ContinuousMap.Weierstrass
import Mathlib.Topology.ContinuousMap.Compact
import Mathlib.Topology.CompactOpen
import Mathlib.Analysis.SpecialFunctions.Integrals.Basic
import Mathlib.Algebra.Order.Ring.Pow

/-!
# Positive quadrature rules that are exact on polynomials converge

Uniformly on bounded families of functions on `(0, 1]` that are jointly continuous in the parameter and the variable, where the parameter runs through a compact space.
Nothing is asked of the functions at `0`.
-/

namespace Pydisort
open Finset MeasureTheory

/-- Positive weights, nodes inside `(0, 1)`, exact for polynomials of degree at most `d`. -/
structure Rule (d n : ℕ) (mu w : ℕ → ℝ) : Prop where
  node : ∀ i < n, 0 < mu i ∧ mu i < 1
  weight : ∀ i < n, 0 < w i
  exact : ∀ p : Polynomial ℝ, p.natDegree ≤ d → ∑ i ∈ range n, w i * p.eval (mu i) = ∫ x in (0 : ℝ)..1, p.eval x

namespace Rule

variable {d n : ℕ} {mu w : ℕ → ℝ}

theorem mono {d' : ℕ} (h : Rule d n mu w) (hd : d' ≤ d) : Rule d' n mu w := ⟨h.node, h.weight, fun p hp => h.exact p (hp.trans hd)⟩

theorem sum_weight (h : Rule d n mu w) : ∑ i ∈ range n, w i = 1 := by
  have := h.exact 1 (by simp)
  simpa using this

theorem sum_le (h : Rule d n mu w) {f : ℝ → ℝ} {e : ℝ} (hf : ∀ x ∈ Set.Ioc (0 : ℝ) 1, |f x| ≤ e) : |∑ i ∈ range n, w i * f (mu i)| ≤ e := by
  refine (abs_sum_le_sum_abs _ _).trans ?_
  calc ∑ i ∈ range n, |w i * f (mu i)| ≤ ∑ i ∈ range n, w i * e := sum_le_sum fun i hi => by
        have hi' := mem_range.1 hi
        rw [abs_mul, abs_of_pos (h.weight i hi')]
        exact mul_le_mul_of_nonneg_left (hf _ ⟨(h.node i hi').1, (h.node i hi').2.le⟩) (h.weight i hi').le
    _ = e := by rw [← sum_mul, h.sum_weight, one_mul]

end Rule

theorem abs_integral_le {f : ℝ → ℝ} {e : ℝ} (hf : ∀ x ∈ Set.Ioc (0 : ℝ) 1, |f x| ≤ e) : |∫ x in (0 : ℝ)..1, f x| ≤ e := by
  have := intervalIntegral.norm_integral_le_of_norm_le_const (a := 0) (b := 1) (f := f) (C := e) (by
    intro x hx
    rw [Set.uIoc_of_le zero_le_one] at hx
    exact hf x hx)
  simpa using this

/-- One continuous function. -/
theorem quad_continuous {f : ℝ → ℝ} (hf : ContinuousOn f (Set.Icc 0 1)) {η : ℝ} (hη : 0 < η) :
    ∃ d : ℕ, ∀ n mu w, Rule d n mu w → |∑ i ∈ range n, w i * f (mu i) - ∫ x in (0 : ℝ)..1, f x| ≤ η := by
  obtain ⟨p, hp⟩ := exists_polynomial_near_of_continuousOn 0 1 f hf (η / 2) (by linarith)
  refine ⟨p.natDegree, fun n mu w hq => ?_⟩
  have h1 := hq.sum_le (f := fun x => f x - p.eval x) (e := η / 2) fun x hx => by
    rw [abs_sub_comm]; exact (hp x ⟨hx.1.le, hx.2⟩).le
  have h2 := abs_integral_le (f := fun x => p.eval x - f x) (e := η / 2) fun x hx => (hp x ⟨hx.1.le, hx.2⟩).le
  have h3 := hq.exact p le_rfl
  simp only [mul_sub, sum_sub_distrib] at h1
  rw [intervalIntegral.integral_sub (p.continuous.intervalIntegrable _ _)
    (ContinuousOn.intervalIntegrable (by rwa [Set.uIcc_of_le zero_le_one]))] at h2
  rw [h3] at h1
  have := abs_add_le (∑ i ∈ range n, w i * f (mu i) - ∫ x in (0 : ℝ)..1, p.eval x) ((∫ x in (0 : ℝ)..1, p.eval x) - ∫ x in (0 : ℝ)..1, f x)
  rw [sub_add_sub_cancel] at this
  linarith

/-- A compact family of continuous functions. -/
theorem quad_family {X : Type*} [TopologicalSpace X] [CompactSpace X] {g : X → ℝ → ℝ}
    (hg : ContinuousOn (fun p : X × ℝ => g p.1 p.2) (Set.univ ×ˢ Set.Icc 0 1)) {η : ℝ} (hη : 0 < η) :
    ∃ d : ℕ, ∀ n mu w, Rule d n mu w → ∀ x, |∑ i ∈ range n, w i * g x (mu i) - ∫ z in (0 : ℝ)..1, g x z| ≤ η := by
  have hc : Continuous fun p : X × Set.Icc (0 : ℝ) 1 => g p.1 p.2 := by
    refine hg.comp_continuous (f := fun p : X × Set.Icc (0 : ℝ) 1 => (p.1, (p.2 : ℝ))) (by fun_prop) fun p => ⟨trivial, p.2.2⟩
  let G : C(X, C(Set.Icc (0 : ℝ) 1, ℝ)) := ContinuousMap.curry ⟨_, hc⟩
  obtain ⟨s, hs, hfin, hcov⟩ := (isCompact_range G.continuous).finite_cover_balls (e := η / 4) (by linarith)
  have hone : ∀ F ∈ s, ∃ d : ℕ, ∃ x, G x = F ∧ ∀ n mu w, Rule d n mu w → |∑ i ∈ range n, w i * g x (mu i) - ∫ z in (0 : ℝ)..1, g x z| ≤ η / 2 := by
    intro F hF
    obtain ⟨x, rfl⟩ := hs hF
    obtain ⟨d, hd⟩ := quad_continuous (f := g x) (η := η / 2) (hg.comp (f := fun z => (x, z)) (by fun_prop) fun z hz => ⟨trivial, hz⟩) (by linarith)
    exact ⟨d, x, rfl, hd⟩
  choose! d hd using hone
  refine ⟨hfin.toFinset.sup d, fun n mu w hq x => ?_⟩
  obtain ⟨F, hF, hx⟩ : ∃ F ∈ s, dist (G x) F < η / 4 := by
    have := hcov ⟨x, rfl⟩
    simp only [Set.mem_iUnion, Metric.mem_ball, exists_prop] at this
    exact this
  obtain ⟨y, hy, hq'⟩ := hd F hF
  have h3 := hq' n mu w (hq.mono (le_sup (f := d) (hfin.mem_toFinset.2 hF)))
  subst hy
  have hz : ∀ z ∈ Set.Ioc (0 : ℝ) 1, |g x z - g y z| ≤ η / 4 := by
    intro z hz
    have := (ContinuousMap.dist_apply_le_dist (f := G x) (g := G y) ⟨z, hz.1.le, hz.2⟩).trans hx.le
    rwa [Real.dist_eq] at this
  have hi : ∀ x, IntervalIntegrable (g x) volume 0 1 := fun x => ContinuousOn.intervalIntegrable (by
    rw [Set.uIcc_of_le zero_le_one]
    exact hg.comp (f := fun z => (x, z)) (by fun_prop) fun z hz => ⟨trivial, hz⟩)
  have h1 := hq.sum_le (f := fun z => g x z - g y z) hz
  have h2 := abs_integral_le (f := fun z => g x z - g y z) hz
  simp only [mul_sub, sum_sub_distrib] at h1
  rw [intervalIntegral.integral_sub (hi x) (hi y)] at h2
  rw [abs_le] at *
  constructor <;> linarith [h1.1, h1.2, h2.1, h2.2, h3.1, h3.2]

theorem integral_one_sub_pow (m : ℕ) : ∫ z in (0 : ℝ)..1, (1 - z) ^ m = 1 / ((m : ℝ) + 1) := by
  rw [intervalIntegral.integral_comp_sub_left (fun z => z ^ m) (1 : ℝ)]
  simp [integral_pow]

/-- A bounded family, jointly continuous on `(0, 1]`. -/
theorem quad_uniform {X : Type*} [TopologicalSpace X] [CompactSpace X] {g : X → ℝ → ℝ}
    (hg : ContinuousOn (fun p : X × ℝ => g p.1 p.2) (Set.univ ×ˢ Set.Ioc 0 1)) {M : ℝ} (hM : ∀ x, ∀ z ∈ Set.Ioc (0 : ℝ) 1, |g x z| ≤ M)
    {η : ℝ} (hη : 0 < η) :
    ∃ d : ℕ, ∀ n mu w, Rule d n mu w → ∀ x, |∑ i ∈ range n, w i * g x (mu i) - ∫ z in (0 : ℝ)..1, g x z| ≤ η := by
  rcases isEmpty_or_nonempty X with hX | ⟨⟨x₀⟩⟩
  · exact ⟨0, fun n mu w _ x => (hX.false x).elim⟩
  have hM0 : 0 ≤ M := (abs_nonneg _).trans (hM x₀ 1 ⟨one_pos, le_rfl⟩)
  obtain ⟨m, hm⟩ := exists_nat_gt (16 * M / η + 1)
  have hm1 : (1 : ℝ) < m := lt_of_le_of_lt (by have := div_nonneg (mul_nonneg (by norm_num : (0 : ℝ) ≤ 16) hM0) hη.le; linarith) hm
  have hm0 : (0 : ℝ) < m := by linarith
  set δ : ℝ := 1 / (2 * m) with hδ
  have hδ0 : 0 < δ := by positivity
  have hδ1 : δ ≤ 1 := by rw [hδ, div_le_one (by positivity)]; linarith
  -- the family frozen below `δ`
  have hmax : ∀ z ∈ Set.Icc (0 : ℝ) 1, max z δ ∈ Set.Ioc (0 : ℝ) 1 := fun z hz => ⟨lt_max_of_lt_right hδ0, max_le hz.2 hδ1⟩
  have hh : ContinuousOn (fun p : X × ℝ => g p.1 (max p.2 δ)) (Set.univ ×ˢ Set.Icc 0 1) :=
    hg.comp (f := fun p : X × ℝ => (p.1, max p.2 δ)) (by fun_prop) fun p hp => ⟨trivial, hmax _ hp.2⟩
  obtain ⟨d, hd⟩ := quad_family (g := fun x z => g x (max z δ)) hh (η := η / 2) (by linarith)
  refine ⟨max d m, fun n mu w hq x => ?_⟩
  have h1 := hd n mu w (hq.mono (le_max_left _ _)) x
  -- the difference is at most `4 M (1 - z) ^ m`
  have hdiff : ∀ z ∈ Set.Ioc (0 : ℝ) 1, |g x z - g x (max z δ)| ≤ 4 * M * (1 - z) ^ m := by
    intro z hz
    rcases le_total δ z with hc | hc
    · rw [max_eq_left hc, sub_self, abs_zero]
      have : 0 ≤ 1 - z := by linarith [hz.2]
      positivity
    · have hb : (1 : ℝ) / 2 ≤ (1 - z) ^ m := by
        have b1 := one_add_mul_le_pow (a := -δ) (by linarith) m
        have b2 : (m : ℝ) * -δ = -(1 / 2) := by rw [hδ]; field_simp
        have b3 : (1 + -δ) ^ m ≤ (1 - z) ^ m := pow_le_pow_left₀ (by linarith) (by linarith) m
        linarith
      have c1 := hM x z hz
      have c2 := hM x _ (hmax z ⟨hz.1.le, hz.2⟩)
      refine (abs_sub _ _).trans ?_
      nlinarith
  have hpoly : ∑ i ∈ range n, w i * (1 - mu i) ^ m = 1 / ((m : ℝ) + 1) := by
    rw [← integral_one_sub_pow]
    have := hq.exact ((1 - Polynomial.X) ^ m) (by
      refine Polynomial.natDegree_pow_le.trans ((Nat.mul_le_mul_left m (?_ : _ ≤ 1)).trans (by simp))
      exact (Polynomial.natDegree_sub_le _ _).trans (by simp))
    simpa using this
  have hsmall : 4 * M * (1 / ((m : ℝ) + 1)) ≤ η / 4 := by
    have : 16 * M ≤ η * m := by
      have := (div_lt_iff₀ hη).1 (show 16 * M / η < m by linarith)
      linarith
    rw [mul_one_div, div_le_iff₀ (by linarith)]
    nlinarith
  have h2 : |∑ i ∈ range n, w i * (g x (mu i) - g x (max (mu i) δ))| ≤ η / 4 := by
    refine (abs_sum_le_sum_abs _ _).trans (le_trans ?_ hsmall)
    rw [← hpoly, mul_sum]
    refine sum_le_sum fun i hi => ?_
    have hi' := mem_range.1 hi
    rw [abs_mul, abs_of_pos (hq.weight i hi')]
    have := mul_le_mul_of_nonneg_left (hdiff _ ⟨(hq.node i hi').1, (hq.node i hi').2.le⟩) (hq.weight i hi').le
    linarith
  have hi1 : IntervalIntegrable (fun z => g x (max z δ)) volume 0 1 := ContinuousOn.intervalIntegrable (by
    rw [Set.uIcc_of_le zero_le_one]
    exact hh.comp (f := fun z => (x, z)) (by fun_prop) fun z hz => ⟨trivial, hz⟩)
  have hi2 : IntervalIntegrable (g x) volume 0 1 := by
    rw [intervalIntegrable_iff_integrableOn_Ioc_of_le zero_le_one]
    exact Integrable.of_bound (ContinuousOn.aestronglyMeasurable (hg.comp (f := fun z => (x, z)) (by fun_prop) fun z hz => ⟨trivial, hz⟩) measurableSet_Ioc)
      M ((ae_restrict_iff' measurableSet_Ioc).2 (ae_of_all _ fun z hz => hM x z hz))
  have h3 : |∫ z in (0 : ℝ)..1, (g x z - g x (max z δ))| ≤ η / 4 := by
    refine le_trans ?_ hsmall
    rw [← integral_one_sub_pow, ← intervalIntegral.integral_const_mul]
    exact intervalIntegral.norm_integral_le_of_norm_le (f := fun z => g x z - g x (max z δ)) (g := fun z => 4 * M * (1 - z) ^ m) zero_le_one
      (ae_of_all _ fun z hz => hdiff z hz) (Continuous.intervalIntegrable (by fun_prop) _ _)
  rw [intervalIntegral.integral_sub hi2 hi1] at h3
  simp only [mul_sub, sum_sub_distrib] at h2
  rw [abs_le] at *
  constructor <;> linarith [h1.1, h1.2, h2.1, h2.2, h3.1, h3.2]

end Pydisort

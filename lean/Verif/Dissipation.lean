import Verif.LegendreOrtho
import Verif.SuccessLemmas

/-! Double-Gauss quadrature is exact for the products of Legendre functions, so scattering dissipates. -/

namespace Pydisort
open Finset Spec Polynomial

variable {E : Ext} {a : Args}

/-- The nodes and weights transported to `(0, 1)` integrate over `(0, 1)`. -/
theorem half_exact (hg : GaussContract E (nHalf a)) (p : ℝ[X]) (hp : p.natDegree ≤ 2 * nHalf a - 1) :
    ∑ i ∈ range (nHalf a), weight E a i * p.eval (node E a i) = ∫ x in (0 : ℝ)..1, p.eval x := by
  have h1 : (p.comp (C (1 / 2) * X + C (1 / 2))).natDegree ≤ 2 * nHalf a - 1 := by
    refine natDegree_comp_le.trans ?_
    have : (C (1 / 2 : ℝ) * X + C (1 / 2)).natDegree ≤ 1 := natDegree_linear_le
    nlinarith
  have h2 := hg.exact _ h1
  have h3 : ∀ x : ℝ, (p.comp (C (1 / 2) * X + C (1 / 2))).eval x = p.eval (1 / 2 * x + 1 / 2) := by
    intro x; simp [eval_comp]
  simp only [h3] at h2
  rw [intervalIntegral.integral_comp_mul_add (fun y => p.eval y) (by norm_num : (1 / 2 : ℝ) ≠ 0)] at h2
  norm_num at h2
  have h4 : ∫ x in (0 : ℝ)..1, p.eval x = (1 / 2) * (2 * ∫ x in (0 : ℝ)..1, p.eval x) := by ring
  rw [h4, ← h2, mul_sum]
  refine sum_congr rfl fun i _ => ?_
  unfold weight node
  rw [show (1 / 2 : ℝ) * (E.leggauss (nHalf a)).1 i + 1 / 2 = ((E.leggauss (nHalf a)).1 i + 1) / 2 by ring]
  ring

/-- All streams together integrate over `(-1, 1)`. -/
theorem full_exact (hg : GaussContract E (nHalf a)) (p : ℝ[X]) (hp : p.natDegree ≤ 2 * nHalf a - 1) :
    ∑ i ∈ range (2 * nHalf a), streamW (nHalf a) (weight E a) i * p.eval (stream (nHalf a) (node E a) i) = pint p := by
  rw [sum_range_two_mul]
  have h1 : ∑ i ∈ range (nHalf a), streamW (nHalf a) (weight E a) i * p.eval (stream (nHalf a) (node E a) i)
      = ∫ x in (0 : ℝ)..1, p.eval x := by
    rw [← half_exact hg p hp]
    refine sum_congr rfl fun i hi => ?_
    simp [streamW, stream, mem_range.1 hi]
  have h2 : ∑ i ∈ range (nHalf a), streamW (nHalf a) (weight E a) (nHalf a + i) * p.eval (stream (nHalf a) (node E a) (nHalf a + i))
      = ∫ x in (-1 : ℝ)..0, p.eval x := by
    have h3 : (p.comp (-X)).natDegree ≤ 2 * nHalf a - 1 := by
      refine natDegree_comp_le.trans ?_
      simpa using hp
    have h4 := half_exact hg _ h3
    have h5 : ∀ x : ℝ, (p.comp (-X)).eval x = p.eval (-x) := by intro x; simp [eval_comp]
    simp only [h5] at h4
    rw [intervalIntegral.integral_comp_neg (fun y => p.eval y)] at h4
    simp only [neg_zero] at h4
    rw [← h4]
    refine sum_congr rfl fun i _ => ?_
    simp [streamW, stream]
  rw [h1, h2, add_comm]
  exact intervalIntegral.integral_add_adjacent_intervals (pint_int p _ _) (pint_int p _ _)

theorem node_lt_one (hg : GaussContract E (nHalf a)) {i : ℕ} (hi : i < nHalf a) : node E a i < 1 := by
  have := (hg.node i hi).2; unfold node; linarith

theorem stream_range (hg : GaussContract E (nHalf a)) {i : ℕ} (hi : i < 2 * nHalf a) :
    -1 ≤ stream (nHalf a) (node E a) i ∧ stream (nHalf a) (node E a) i ≤ 1 := by
  have key : ∀ k < nHalf a, 0 < node E a k ∧ node E a k < 1 := by
    intro k hk
    have := hg.node k hk
    unfold node; constructor <;> linarith [this.1, this.2]
  unfold stream
  split_ifs with h
  · have := key i h; constructor <;> linarith [this.1, this.2]
  · have := key (i - nHalf a) (by omega); constructor <;> linarith [this.1, this.2]

/-- Discrete orthogonality. -/
theorem discrete_ortho (hg : GaussContract E (nHalf a)) {m l k : ℕ} (hl : m ≤ l) (hk : m ≤ k)
    (hlk : l + k ≤ 2 * nHalf a - 1) :
    ∑ i ∈ range (2 * nHalf a), streamW (nHalf a) (weight E a) i
        * (assocLegendre m l (stream (nHalf a) (node E a) i) * assocLegendre m k (stream (nHalf a) (node E a) i))
      = if l = k then 2 / (2 * (l : ℝ) + 1) * (((l + m).factorial : ℝ) / ((l - m).factorial : ℝ)) else 0 := by
  have h := full_exact hg (assocProd m l k) ((natDegree_assocProd hl hk).trans hlk)
  have h2 : pint (assocProd m l k)
      = if l = k then 2 / (2 * (l : ℝ) + 1) * (((l + m).factorial : ℝ) / ((l - m).factorial : ℝ)) else 0 := by
    split_ifs with e
    · subst e; exact pint_assocProd_self hl
    · exact pint_assocProd_ne hl hk e
  rw [← h2, ← h]
  refine sum_congr rfl fun i hi => ?_
  have := stream_range hg (mem_range.1 hi)
  rw [assocProd_eval m l k this.1 this.2]

/-- Bessel's inequality for a finite orthonormal family under a positive discrete weight. -/
theorem bessel {ι κ : Type} [DecidableEq κ] (I : Finset ι) (L : Finset κ) (W : ι → ℝ) (hW : ∀ i ∈ I, 0 ≤ W i)
    (e : κ → ι → ℝ) (he : ∀ l ∈ L, ∀ k ∈ L, ∑ i ∈ I, W i * (e l i * e k i) = if l = k then 1 else 0) (x : ι → ℝ) :
    ∑ l ∈ L, (∑ i ∈ I, W i * (e l i * x i)) ^ 2 ≤ ∑ i ∈ I, W i * x i ^ 2 := by
  set c : κ → ℝ := fun l => ∑ i ∈ I, W i * (e l i * x i) with hc
  have h0 : 0 ≤ ∑ i ∈ I, W i * (x i - ∑ l ∈ L, c l * e l i) ^ 2 :=
    sum_nonneg fun i hi => mul_nonneg (hW i hi) (sq_nonneg _)
  have h1 : ∑ i ∈ I, W i * (x i - ∑ l ∈ L, c l * e l i) ^ 2
      = ∑ i ∈ I, W i * x i ^ 2 - 2 * ∑ i ∈ I, W i * (x i * ∑ l ∈ L, c l * e l i)
        + ∑ i ∈ I, W i * ((∑ l ∈ L, c l * e l i) * ∑ k ∈ L, c k * e k i) := by
    rw [mul_sum, ← sum_sub_distrib, ← sum_add_distrib]
    exact sum_congr rfl fun i _ => by ring
  have h2 : ∑ i ∈ I, W i * (x i * ∑ l ∈ L, c l * e l i) = ∑ l ∈ L, c l ^ 2 := by
    simp only [mul_sum]
    rw [sum_comm]
    refine sum_congr rfl fun l _ => ?_
    rw [pow_two]
    conv_rhs => rw [hc]
    simp only
    rw [mul_comm, sum_mul]
    refine sum_congr rfl fun i _ => ?_
    simp only [hc]; ring
  have h3 : ∑ i ∈ I, W i * ((∑ l ∈ L, c l * e l i) * ∑ k ∈ L, c k * e k i) = ∑ l ∈ L, c l ^ 2 := by
    have h5 : ∀ l ∈ L, ∑ i ∈ I, W i * (e l i * ∑ k ∈ L, c k * e k i) = c l := by
      intro l hl
      have h6 : ∀ k ∈ L, ∑ i ∈ I, W i * (e l i * (c k * e k i)) = c k * if l = k then 1 else 0 := by
        intro k hk
        rw [← he l hl k hk, mul_sum]
        exact sum_congr rfl fun i _ => by ring
      simp only [mul_sum]
      rw [sum_comm, sum_congr rfl h6]
      simp [hl]
    have h7 : ∀ i ∈ I, W i * ((∑ l ∈ L, c l * e l i) * ∑ k ∈ L, c k * e k i)
        = ∑ l ∈ L, c l * (W i * (e l i * ∑ k ∈ L, c k * e k i)) := by
      intro i _
      rw [sum_mul, mul_sum]
      exact sum_congr rfl fun l _ => by ring
    rw [sum_congr rfl h7, sum_comm]
    refine sum_congr rfl fun l hl => ?_
    rw [← mul_sum, h5 l hl, pow_two]
  rw [h1, h2, h3] at h0
  linarith

/-- A bilinear form built from such a family with coefficients below one. -/
theorem form_lt {ι κ : Type} [DecidableEq κ] (I : Finset ι) (L : Finset κ) (W : ι → ℝ) (hW : ∀ i ∈ I, 0 < W i)
    (e : κ → ι → ℝ) (he : ∀ l ∈ L, ∀ k ∈ L, ∑ i ∈ I, W i * (e l i * e k i) = if l = k then 1 else 0)
    (h : κ → ℝ) (o : ℝ) (ho0 : 0 ≤ o) (ho : o < 1) (hh : ∀ l ∈ L, h l ≤ o) (x : ι → ℝ) (hx : ∃ i ∈ I, x i ≠ 0) :
    ∑ i ∈ I, ∑ j ∈ I, W i * W j * (∑ l ∈ L, h l * (e l i * e l j)) * x i * x j < ∑ i ∈ I, W i * x i ^ 2 := by
  have h1 : ∑ i ∈ I, ∑ j ∈ I, W i * W j * (∑ l ∈ L, h l * (e l i * e l j)) * x i * x j
      = ∑ l ∈ L, h l * (∑ i ∈ I, W i * (e l i * x i)) ^ 2 := by
    simp only [pow_two, sum_mul_sum, mul_sum, sum_mul]
    rw [sum_comm' (s := L) (t := fun _ => I) (t' := I) (s' := fun _ => L) (by tauto)]
    refine sum_congr rfl fun i _ => ?_
    rw [sum_comm]
    refine sum_congr rfl fun l _ => sum_congr rfl fun j _ => by ring
  have hpos : 0 < ∑ i ∈ I, W i * x i ^ 2 := by
    obtain ⟨i, hi, hxi⟩ := hx
    refine sum_pos' (fun i hi => mul_nonneg (hW i hi).le (sq_nonneg _)) ⟨i, hi, ?_⟩
    have := hW i hi
    positivity
  rw [h1]
  calc ∑ l ∈ L, h l * (∑ i ∈ I, W i * (e l i * x i)) ^ 2
      ≤ ∑ l ∈ L, o * (∑ i ∈ I, W i * (e l i * x i)) ^ 2 :=
        sum_le_sum fun l hl => mul_le_mul_of_nonneg_right (hh l hl) (sq_nonneg _)
    _ = o * ∑ l ∈ L, (∑ i ∈ I, W i * (e l i * x i)) ^ 2 := by rw [mul_sum]
    _ ≤ o * ∑ i ∈ I, W i * x i ^ 2 :=
        mul_le_mul_of_nonneg_left (bessel I L W (fun i hi => (hW i hi).le) e he x) ho0
    _ < ∑ i ∈ I, W i * x i ^ 2 := by nlinarith

theorem omegaStar_range (h0 : 0 ≤ a.omega.get l) (h1 : a.omega.get l < 1) (f1 : peak a l < 1) (f0 : 0 ≤ peak a l) :
    0 ≤ omegaStar a l ∧ omegaStar a l < 1 := by
  have hs : 0 < scale a l := by unfold scale; nlinarith
  unfold omegaStar
  refine ⟨div_nonneg (mul_nonneg (by linarith) h0) hs.le, ?_⟩
  rw [div_lt_one hs]
  unfold scale
  nlinarith

theorem streamW_pos (hg : GaussContract E (nHalf a)) {i : ℕ} (hi : i < 2 * nHalf a) :
    0 < streamW (nHalf a) (weight E a) i := by
  unfold streamW
  split_ifs with h
  · exact weight_pos hg h
  · exact weight_pos hg (by omega)

/-- With at most as many Legendre terms as streams per hemisphere, scattering dissipates: the only conditions
are physical (`0 ≤ ω < 1`, `g ≤ 1`, `0 ≤ f < 1`). -/
theorem dissipates_of_nLeg_le (hg : GaussContract E (nHalf a)) (hN : nLeg a ≤ nHalf a)
    (hom : ∀ l < a.tauArr.n, 0 ≤ a.omega.get l ∧ a.omega.get l < 1)
    (hpk : ∀ l < a.tauArr.n, 0 ≤ peak a l ∧ peak a l < 1)
    (hleg : ∀ l < a.tauArr.n, ∀ k < nLeg a, leg a l k ≤ 1) : Dissipates a (node E a) (weight E a) := by
  intro m _ l hl x hx
  have hW : ∀ i ∈ range (2 * nHalf a), 0 < streamW (nHalf a) (weight E a) i :=
    fun i hi => streamW_pos hg (mem_range.1 hi)
  have hO := omegaStar_range (hom l hl).1 (hom l hl).2 (hpk l hl).2 (hpk l hl).1
  have hx' : ∃ i ∈ range (2 * nHalf a), x i ≠ 0 := by
    obtain ⟨i, hi, h⟩ := hx
    exact ⟨i, mem_range.2 hi, h⟩
  by_cases hsig : Significant (omegaStar a l) (nLeg a) (legStar a l) m
  · set c : ℕ → ℝ := fun k => Real.sqrt ((2 * (k : ℝ) + 1) / 2 * (((k - m).factorial : ℝ) / ((k + m).factorial : ℝ))) with hc
    have hcc : ∀ k, c k * c k = (2 * (k : ℝ) + 1) / 2 * (((k - m).factorial : ℝ) / ((k + m).factorial : ℝ)) :=
      fun k => Real.mul_self_sqrt (by positivity)
    have key := form_lt (range (2 * nHalf a)) (Ico m (nLeg a)) (streamW (nHalf a) (weight E a)) hW
      (fun k i => c k * assocLegendre m k (stream (nHalf a) (node E a) i)) ?_
      (fun k => omegaStar a l * legStar a l k) (omegaStar a l) hO.1 hO.2 ?_ x hx'
    · refine lt_of_eq_of_lt ?_ key
      refine sum_congr rfl fun i _ => sum_congr rfl fun j _ => ?_
      congr 3
      unfold kernel
      rw [if_pos hsig]
      unfold scatD phaseMoment
      rw [mul_sum]
      refine sum_congr rfl fun k _ => ?_
      linear_combination (-(omegaStar a l * legStar a l k * assocLegendre m k (stream (nHalf a) (node E a) i)
        * assocLegendre m k (stream (nHalf a) (node E a) j))) * hcc k
    · intro k hk k' hk'
      rw [mem_Ico] at hk hk'
      have h := discrete_ortho hg hk.1 hk'.1 (by omega)
      have h2 : ∑ i ∈ range (2 * nHalf a), streamW (nHalf a) (weight E a) i *
          (c k * assocLegendre m k (stream (nHalf a) (node E a) i) * (c k' * assocLegendre m k' (stream (nHalf a) (node E a) i)))
          = c k * c k' * ∑ i ∈ range (2 * nHalf a), streamW (nHalf a) (weight E a) i
        * (assocLegendre m k (stream (nHalf a) (node E a) i) * assocLegendre m k' (stream (nHalf a) (node E a) i)) := by
        rw [mul_sum]
        exact sum_congr rfl fun i _ => by ring
      rw [h2, h]
      split_ifs with e
      · subst e
        rw [hcc]
        have := Nat.factorial_pos (k - m)
        have := Nat.factorial_pos (k + m)
        field_simp
      · rw [mul_zero]
    · intro k hk
      rw [mem_Ico] at hk
      have hf := hpk l hl
      have : legStar a l k ≤ 1 := by
        unfold legStar
        rw [div_le_one (by linarith)]
        linarith [hleg l hl k hk.2]
      nlinarith
  · simp only [kernel_zero hsig, mul_zero, zero_mul, sum_const_zero]
    obtain ⟨i, hi, hxi⟩ := hx'
    refine sum_pos' (fun i hi => mul_nonneg (hW i hi).le (sq_nonneg _)) ⟨i, hi, ?_⟩
    have := hW i hi
    positivity

end Pydisort

import Verif.FullLemmas

/-!
# The true transfer equation as the equation of a slab
-/

namespace Pydisort
open Finset Spec MeasureTheory Topology

theorem layOf_lt {a : Args} (hacc : Accepted a) (s : ℝ) : layOf a s < a.tauArr.n := by
  by_cases h : ∃ l < a.tauArr.n, InLayer a l s
  · unfold layOf
    rw [dif_pos h]
    exact h.choose_spec.1
  · unfold layOf
    rw [dif_neg h]
    exact hacc.layers

/-- Scattering does not create light. -/
theorem meanPhase_mass {g : ℕ → ℝ} (hg : PhaseSeries g) {y : ℝ} (hy : y ∈ Set.Icc (-1 : ℝ) 1) : ∫ z in (-1 : ℝ)..1, meanPhase g y z = 2 := by
  have hint : IntervalIntegrable (fun z => meanPhase g y z) volume (-1) 1 := by
    refine ContinuousOn.intervalIntegrable ?_
    rw [Set.uIcc_of_le (by norm_num)]
    exact (continuousOn_meanPhase hg).comp (f := fun z => (y, z)) (by fun_prop) fun z hz => ⟨hy, hz⟩
  have hpoly : ∀ L : ℕ, 0 < L → ∫ z in (-1 : ℝ)..1, ∑ k ∈ range L, (2 * (k : ℝ) + 1) * (g k - 0) * (legendreP k).eval y * (legendreP k).eval z = 2 := by
    intro L hL
    have hci : ∀ k ∈ range L, IntervalIntegrable (fun z => (2 * (k : ℝ) + 1) * (g k - 0) * (legendreP k).eval y * (legendreP k).eval z) volume (-1) 1 :=
      fun k _ => (continuous_const.mul (legendreP k).continuous).intervalIntegrable _ _
    have hP : ∀ k, ∫ z in (-1 : ℝ)..1, (legendreP k).eval z = if k = 0 then 2 else 0 := by
      intro k
      change pint (legendreP k) = _
      split_ifs with h0
      · subst h0
        have := pint_legendreP_sq 0
        rw [legendreP_zero, mul_one] at this
        rw [legendreP_zero, this]; norm_num
      · have := pint_legendreP_lower (l := k) (q := 1) (by simpa using Nat.pos_of_ne_zero h0)
        rwa [mul_one] at this
    rw [intervalIntegral.integral_finsetSum hci, sum_eq_single 0]
    · rw [intervalIntegral.integral_const_mul, hP, if_pos rfl, legendreP_zero, hg.normalised]; simp
    · intro k _ hk
      rw [intervalIntegral.integral_const_mul, hP, if_neg hk, mul_zero]
    · intro h'
      exact absurd (mem_range.2 hL) h'
  have hb : ∀ L : ℕ, 0 < L → |2 - ∫ z in (-1 : ℝ)..1, meanPhase g y z| ≤ tailSum g L + tailSum g L := by
    intro L hL
    rw [← hpoly L hL, ← intervalIntegral.integral_sub _ hint]
    · have := intervalIntegral.norm_integral_le_of_norm_le_const (a := (-1 : ℝ)) (b := 1) (C := tailSum g L)
        (f := fun z => (∑ k ∈ range L, (2 * (k : ℝ) + 1) * (g k - 0) * (legendreP k).eval y * (legendreP k).eval z) - meanPhase g y z) fun z hz => by
          rw [Set.uIoc_of_le (by norm_num)] at hz
          have := truncation_le hg 0 L hy (Set.Ioc_subset_Icc_self hz)
          simpa using this
      rw [Real.norm_eq_abs] at this
      refine this.trans (le_of_eq ?_)
      norm_num
      ring
    · refine Continuous.intervalIntegrable ?_ _ _
      exact continuous_finsetSum _ fun k _ => continuous_const.mul (legendreP k).continuous
  have hlim : Filter.Tendsto (fun L => tailSum g L + tailSum g L) Filter.atTop (𝓝 (0 + 0)) := (tailSum_tendsto g).add (tailSum_tendsto g)
  rw [add_zero] at hlim
  have := ge_of_tendsto hlim (Filter.eventually_atTop.2 ⟨1, fun L hL => hb L hL⟩)
  have := abs_nonpos_iff.1 this
  linarith

section
variable {a : Args} {g : ℕ → ℕ → ℝ} {rho : ℝ → ℝ → ℝ} {up down : ℝ → ℝ} {v : ℝ → ℝ → ℝ}

/-- The true transfer equation as the equation of a slab. -/
noncomputable def fullSlab (a : Args) (g : ℕ → ℕ → ℝ) (rho : ℝ → ℝ → ℝ) (up down : ℝ → ℝ) (ω : ℝ) : Slab where
  b := bottom a
  P := breaks a
  c := fun _ => 1
  T := fun t => t
  D := fun t y z => a.omega.get (layOf a t) / 2 * meanPhase (g (layOf a t)) y z
  src := fun t y => a.omega.get (layOf a t) * a.I0 / (4 * Real.pi) * meanPhase (g (layOf a t)) y (-a.mu0) * Real.exp (-t / a.mu0)
    + (1 - a.omega.get (layOf a t)) * source a (layOf a t) t
  rho := fun x y => if 0 < a.bdrf.length then rho x y else 0
  up := fun y => up y + if 0 < a.bdrf.length then a.mu0 * a.I0 / Real.pi * rho y a.mu0 * Real.exp (-bottom a / a.mu0) else 0
  down := down
  ω := ω

theorem full_src_cont (hacc : Accepted a) {l : ℕ} (hg : PhaseSeries (g l)) : ContinuousOn (fun p : ℝ × ℝ =>
    a.omega.get l * a.I0 / (4 * Real.pi) * meanPhase (g l) p.2 (-a.mu0) * Real.exp (-p.1 / a.mu0) + (1 - a.omega.get l) * source a l p.1) (Set.univ ×ˢ Set.Icc (-1) 1) := by
  have h2 := (continuous_source a l).comp (continuous_fst (X := ℝ) (Y := ℝ))
  refine ContinuousOn.add ?_ (continuous_const.mul h2).continuousOn
  rcases hacc.beam.eq_or_lt with h0 | h0
  · simp only [← h0, mul_zero, zero_div, zero_mul]
    exact continuousOn_const
  · have hb := (hacc.beamDir h0).1
    refine (continuousOn_const.mul ((continuousOn_meanPhase hg).comp (f := fun p : ℝ × ℝ => (p.2, -a.mu0)) (by fun_prop) fun p hp => ⟨hp.2, ?_, ?_⟩)).mul
      (Continuous.continuousOn (by fun_prop))
    · dsimp only; linarith
    · dsimp only; linarith

theorem fullSlab_valid (hacc : Accepted a) (hgs : ∀ l < a.tauArr.n, PhaseSeries (g l)) (hpos : NonnegMean a g) (hsf : AbsorbingSurface rho)
    (hu : ContinuousOn up (Set.Ioc 0 1)) (hu' : ∃ M, ∀ y ∈ Set.Ioc (0 : ℝ) 1, |up y| ≤ M) (hd : ContinuousOn down (Set.Ioc 0 1))
    (hd' : ∃ M, ∀ y ∈ Set.Ioc (0 : ℝ) 1, |down y| ≤ M) : ∃ ω, (fullSlab a g rho up down ω).Valid := by
  obtain ⟨l₀, hl₀, hmax⟩ := exists_max_image (range a.tauArr.n) a.omega.get ⟨0, mem_range.2 hacc.layers⟩
  have hr := hacc.omega l₀ (mem_range.1 hl₀)
  have hin := layOf_lt hacc
  refine ⟨a.omega.get l₀, ?_⟩
  have hS : (fullSlab a g rho up down (a.omega.get l₀)).S = Set.Ioo 0 (bottom a) \ breaks a := rfl
  obtain ⟨K', hK'⟩ := (isCompact_Icc.prod isCompact_Icc : IsCompact (Set.Icc (0 : ℝ) 1 ×ˢ Set.Icc (0 : ℝ) 1)).exists_bound_of_continuousOn hsf.cont
  constructor
  · exact ⟨bottom_pos hacc, (Set.finite_Iic _).image _, fun _ => zero_le_one, ⟨1, fun _ => le_rfl⟩, continuousOn_const, continuousOn_id, fun s _ => hasDerivAt_id s⟩
  · rw [hS]
    exact continuousOn_layered (f := fun l (p : ℝ × ℝ × ℝ) => a.omega.get l / 2 * meanPhase (g l) p.2.1 p.2.2) hacc fun l hl =>
      continuousOn_const.mul ((continuousOn_meanPhase (hgs l hl)).comp continuous_snd.continuousOn fun p hp => hp.2)
  · obtain ⟨G, hG0, hG⟩ := exists_layer_bound (fun l => ∑' k : ℕ, (2 * (k : ℝ) + 1) * |g l k|) a.tauArr.n
    refine ⟨G, fun s _ y hy z hz => ?_⟩
    have h1 := (abs_meanPhase_le (hgs _ (hin s)) hy hz).trans (hG _ (hin s))
    have ho := hacc.omega _ (hin s)
    simp only [fullSlab]
    rw [abs_mul, abs_of_nonneg (by linarith [ho.1])]
    calc _ ≤ 1 * G := mul_le_mul (by linarith [ho.2]) h1 (abs_nonneg _) zero_le_one
      _ = G := one_mul _
  · intro s _ y hy
    have ho := hacc.omega _ (hin s)
    have e : ∫ z in (-1 : ℝ)..1, |a.omega.get (layOf a s) / 2 * meanPhase (g (layOf a s)) y z|
        = ∫ z in (-1 : ℝ)..1, a.omega.get (layOf a s) / 2 * meanPhase (g (layOf a s)) y z :=
      intervalIntegral.integral_congr fun z hz => by
        rw [Set.uIcc_of_le (by norm_num)] at hz
        exact abs_of_nonneg (mul_nonneg (by linarith [ho.1]) (hpos _ (hin s) y hy z hz))
    simp only [fullSlab]
    rw [e, intervalIntegral.integral_const_mul, meanPhase_mass (hgs _ (hin s)) hy]
    have := hmax _ (mem_range.2 (hin s))
    linarith
  · exact hr.1
  · exact hr.2
  · rw [hS]
    exact continuousOn_layered (f := fun l (p : ℝ × ℝ) => a.omega.get l * a.I0 / (4 * Real.pi) * meanPhase (g l) p.2 (-a.mu0) * Real.exp (-p.1 / a.mu0)
      + (1 - a.omega.get l) * source a l p.1) hacc fun l hl => full_src_cont hacc (hgs l hl)
  · have : ∀ l, ∃ K, l < a.tauArr.n → ∀ p ∈ Set.Icc 0 (bottom a) ×ˢ Set.Icc (-1 : ℝ) 1, ‖a.omega.get l * a.I0 / (4 * Real.pi) * meanPhase (g l) p.2 (-a.mu0)
        * Real.exp (-p.1 / a.mu0) + (1 - a.omega.get l) * source a l p.1‖ ≤ K := fun l => by
      by_cases hl : l < a.tauArr.n
      · obtain ⟨K, hK⟩ := (isCompact_Icc.prod isCompact_Icc : IsCompact (Set.Icc 0 (bottom a) ×ˢ Set.Icc (-1 : ℝ) 1)).exists_bound_of_continuousOn
          ((full_src_cont hacc (hgs l hl)).mono fun p hp => ⟨trivial, hp.2⟩)
        exact ⟨K, fun _ => hK⟩
      · exact ⟨0, fun h => absurd h hl⟩
    choose K hK using this
    obtain ⟨Q, hQ0, hQ⟩ := exists_layer_bound K a.tauArr.n
    refine ⟨Q, hQ0, fun s hs y hy => (hK (layOf a s) (hin s) (s, y) ⟨Set.Ioo_subset_Icc_self hs.1, hy⟩).trans ?_⟩
    simp only [fullSlab, mul_one]
    exact hQ _ (hin s)
  · by_cases h : 0 < a.bdrf.length
    · simp only [fullSlab, h, if_true]
      exact hsf.cont
    · simp only [fullSlab, h, if_false]
      exact continuousOn_const
  · by_cases h : 0 < a.bdrf.length
    · obtain ⟨κ, hκ, hk⟩ := hsf.absorbs
      refine ⟨κ, hκ, fun x hx => le_trans (le_of_eq ?_) (hk x hx)⟩
      simp only [fullSlab, h, if_true]
      congr 1
      refine intervalIntegral.integral_congr fun y hy => ?_
      rw [Set.uIcc_of_le zero_le_one] at hy
      rw [abs_of_nonneg (hsf.nonneg x hx y hy)]
    · exact ⟨1, one_pos, fun x _ => by simp [fullSlab, h]⟩
  · refine hu.add ?_
    split_ifs with hm
    · rcases hacc.beam.eq_or_lt with h0 | h0
      · simp only [← h0, mul_zero, zero_div, zero_mul]
        exact continuousOn_const
      · have hb := (hacc.beamDir h0).1
        exact (continuousOn_const.mul (hsf.cont.comp (f := fun y => (y, a.mu0)) (by fun_prop) fun y hy => ⟨Set.Ioc_subset_Icc_self hy, hb.1.le, hb.2⟩)).mul
          continuousOn_const
    · exact continuousOn_const
  · obtain ⟨M, hM⟩ := hu'
    refine ⟨M + |a.mu0 * a.I0 / Real.pi| * K' * Real.exp (-bottom a / a.mu0), fun y hy => (abs_add_le _ _).trans (add_le_add (hM y hy) ?_)⟩
    have hK0 : 0 ≤ K' := (norm_nonneg _).trans (hK' (0, 0) ⟨⟨le_rfl, zero_le_one⟩, ⟨le_rfl, zero_le_one⟩⟩)
    split_ifs with hm
    · rcases hacc.beam.eq_or_lt with h0 | h0
      · rw [← h0]; simp
      · have hb := (hacc.beamDir h0).1
        rw [abs_mul, abs_mul, abs_of_pos (Real.exp_pos _)]
        exact mul_le_mul_of_nonneg_right (mul_le_mul_of_nonneg_left (hK' (y, a.mu0) ⟨Set.Ioc_subset_Icc_self hy, hb.1.le, hb.2⟩) (abs_nonneg _)) (Real.exp_pos _).le
    · rw [abs_zero]; positivity
  · exact hd
  · exact hd'

theorem full_iff (hacc : Accepted a) {ω : ℝ} : FullSolution a g rho up down v ↔ (fullSlab a g rho up down ω).Solves v := by
  have hbot : ∀ y, up y + (if 0 < a.bdrf.length then reflectExact rho (v (bottom a)) y
        + a.mu0 * a.I0 / Real.pi * rho y a.mu0 * Real.exp (-bottom a / a.mu0) else 0)
      = (fullSlab a g rho up down ω).up y + reflectExact (fullSlab a g rho up down ω).rho (v (bottom a)) y := by
    intro y
    simp only [fullSlab, reflectExact]
    by_cases h : 0 < a.bdrf.length
    · simp only [if_pos h]
      ring
    · simp [if_neg h]
  constructor
  · intro h
    refine ⟨?_, ?_, h.top, fun m hm => (h.bot m hm).trans (hbot m)⟩
    · obtain ⟨M, hM⟩ := h.bounded
      exact ⟨M, fun t ht y hy => hM t ht y hy.1 hy.2, h.cont⟩
    · intro t ht y hy
      obtain ⟨hl, h0, h1⟩ := inside_of_away hacc ht
      obtain ⟨d, hd, he⟩ := h.ode _ hl t h0 h1 y hy.1 hy.2
      refine ⟨d, hd, he.trans ?_⟩
      simp only [fullSlab, rteFull, mul_assoc, intervalIntegral.integral_const_mul]
      ring
  · intro h
    obtain ⟨M, hN⟩ := h.nice
    refine ⟨⟨M, fun t ht y hy hy0 => hN.bdd t ht y ⟨hy, hy0⟩⟩, hN.cont, ?_, h.top, fun m hm => (h.bot m hm).trans (hbot m).symm⟩
    intro l hl t h0 h1 y hy hy0
    obtain ⟨d, hd, he⟩ := h.ode t (away_of_inside hacc hl h0 h1) y ⟨hy, hy0⟩
    refine ⟨d, hd, he.trans ?_⟩
    simp only [fullSlab, rteFull, layOf_inside hacc hl h0 h1, mul_assoc, intervalIntegral.integral_const_mul]
    ring

end

end Pydisort

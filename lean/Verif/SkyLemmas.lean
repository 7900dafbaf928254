import Verif.ModeConvergence
import Verif.Spec.Sky

/-!
# The transfer equation with all directions: superposition of modes, and uniqueness
-/

namespace Pydisort
open Finset Spec MeasureTheory

variable {E : Ext} {a : Args} {rho : ℕ → ℝ → ℝ → ℝ} {up down : ℝ → ℝ} {w w' : ℝ → ℝ → ℝ → ℝ}

/-! ### Superposition -/

theorem ExactMode.integrable {rho : ℝ → ℝ → ℝ} {m : ℕ} {v : ℝ → ℝ → ℝ} (hv : ExactMode a rho m up down v) {f : ℝ → ℝ} (hf : Continuous f) {t : ℝ}
    (ht : t ∈ Set.Icc 0 (bottom a)) : IntervalIntegrable (fun z => f z * v t z) volume (-1) 1 := by
  obtain ⟨M, hM⟩ := hv.bounded
  have h1 := (hf.abs.intervalIntegrable (-1) 1).const_mul M (μ := volume)
  have hc : ContinuousOn (fun z => f z * v t z) (Set.Icc (-1) 1 \ {0}) :=
    hf.continuousOn.mul (hv.cont.comp (f := fun z => (t, z)) (by fun_prop) fun z hz => ⟨ht, hz⟩)
  rw [intervalIntegrable_iff] at h1 ⊢
  refine h1.mono' (punctured_meas hc) ?_
  refine (ae_restrict_iff' measurableSet_uIoc).2 (ae_punctured.mono fun z hz hz' => ?_)
  rw [Real.norm_eq_abs, abs_mul, mul_comm]
  exact mul_le_mul_of_nonneg_right (hM t ht z (hz hz').1 (hz hz').2) (abs_nonneg _)

theorem ExactMode.integrable_down {rho : ℝ → ℝ → ℝ} {m : ℕ} {v : ℝ → ℝ → ℝ} (hv : ExactMode a rho m up down v) {f : ℝ → ℝ} (hf : ContinuousOn f (Set.Icc 0 1)) {t : ℝ}
    (ht : t ∈ Set.Icc 0 (bottom a)) : IntervalIntegrable (fun z => f z * v t (-z)) volume 0 1 := by
  obtain ⟨M, hM⟩ := hv.bounded
  obtain ⟨K, hK⟩ := isCompact_Icc.exists_bound_of_continuousOn hf
  refine intervalIntegrable_of_bounded (M := K * M) ?_ fun z hz => ?_
  · exact (hf.mono Set.Ioc_subset_Icc_self).mul (hv.cont.comp (f := fun z => (t, -z)) (by fun_prop) fun z hz => ⟨ht, neg_mem_punctured hz⟩)
  · rw [abs_mul]
    have h1 := hK z (Set.Ioc_subset_Icc_self hz)
    have hz' := neg_mem_punctured hz
    exact mul_le_mul h1 (hM t ht _ hz'.1 hz'.2) (abs_nonneg _) ((norm_nonneg _).trans h1)

/-- Reflection of a cosine series. -/
theorem reflect_series {F : ℕ} (hB : a.bdrf.length ≤ F) (x y ph p0 : ℝ) (U : ℕ → ℝ) :
    ∫ ph' in (0 : ℝ)..(2 * Real.pi), bdrfOf a rho x y (ph - ph') * ∑ m ∈ range F, U m * Real.cos (m * (p0 - ph'))
      = ∑ m ∈ range a.bdrf.length, (1 + if m = 0 then 1 else 0) * Real.pi * rho m x y * U m * Real.cos (m * (p0 - ph)) := by
  unfold bdrfOf
  simp only [sum_mul_sum]
  rw [intervalIntegral.integral_finsetSum fun m _ => (Continuous.intervalIntegrable (by fun_prop) _ _)]
  refine sum_congr rfl fun m hm => ?_
  have hm' : m ∈ range F := range_subset_range.2 hB hm
  rw [intervalIntegral.integral_finsetSum fun n _ => (Continuous.intervalIntegrable (by fun_prop) _ _)]
  rw [sum_eq_single_of_mem m hm']
  · have : ∀ x' : ℝ, rho m x y * Real.cos (m * (ph - x')) * (U m * Real.cos (m * (p0 - x')))
        = rho m x y * U m * (Real.cos (m * (ph - x')) * Real.cos (m * (p0 - x'))) := fun _ => by ring
    simp only [this]
    rw [intervalIntegral.integral_const_mul, integral_cos_cos, if_pos rfl]
    ring
  · intro n _ hn
    have : ∀ x' : ℝ, rho m x y * Real.cos (m * (ph - x')) * (U n * Real.cos (n * (p0 - x')))
        = rho m x y * U n * (Real.cos (m * (ph - x')) * Real.cos (n * (p0 - x'))) := fun _ => by ring
    simp only [this]
    rw [intervalIntegral.integral_const_mul, integral_cos_cos, if_neg (Ne.symm hn), mul_zero]

/-- The boundary values of the modes: only mode zero. -/
noncomputable def onlyZero (f : ℝ → ℝ) (m : ℕ) (y : ℝ) : ℝ := if m = 0 then f y else 0

theorem onlyZero_sum {F : ℕ} (hF : 0 < F) (f : ℝ → ℝ) (y p : ℝ) : ∑ m ∈ range F, onlyZero f m y * Real.cos (m * p) = f y := by
  rw [sum_eq_single_of_mem 0 (mem_range.2 hF) (fun m _ hm => by rw [onlyZero, if_neg hm, zero_mul])]
  simp [onlyZero]

/-- The Fourier series of solutions of all modes solves the equation with all directions. -/
theorem sky_of_modes (hacc : Accepted a) (hB : a.bdrf.length ≤ nLeg a) (hrc : ∀ m < a.bdrf.length, ContinuousOn (fun p : ℝ × ℝ => rho m p.1 p.2) (Set.Icc 0 1 ×ˢ Set.Icc 0 1))
    {v : ℕ → ℝ → ℝ → ℝ}
    (hv : ∀ m < nLeg a, ExactMode a (rho m) m (onlyZero up m) (onlyZero down m) (v m)) :
    SkySolution a rho up down fun t y ph => ∑ m ∈ range (nLeg a), v m t y * Real.cos (m * (a.phi0 - ph)) := by
  have hpos : 0 < nLeg a := by have := hacc.nLeg.1; unfold nLeg; omega
  have hpi := Real.pi_pos
  have hb0 := (bottom_pos hacc).le
  have hbm : bottom a ∈ Set.Icc 0 (bottom a) := ⟨hb0, le_rfl⟩
  constructor
  · have h1 : ∀ m, ∃ M, m < nLeg a → ∀ t ∈ Set.Icc 0 (bottom a), ∀ y ∈ Set.Icc (-1 : ℝ) 1, y ≠ 0 → |v m t y| ≤ M := by
      intro m
      by_cases hm : m < nLeg a
      · obtain ⟨M, hM⟩ := (hv m hm).bounded
        exact ⟨M, fun _ => hM⟩
      · exact ⟨0, fun h => absurd h hm⟩
    choose M hM using h1
    refine ⟨∑ m ∈ range (nLeg a), M m, fun t ht y hy hy0 ph => (abs_sum_le_sum_abs _ _).trans (sum_le_sum fun m hm => ?_)⟩
    rw [abs_mul]
    refine (mul_le_of_le_one_right (abs_nonneg _) (Real.abs_cos_le_one _)).trans (hM m (mem_range.1 hm) t ht y hy hy0)
  · refine continuousOn_finset_sum _ fun m hm => ContinuousOn.mul ?_ (by fun_prop)
    exact (hv m (mem_range.1 hm)).cont.comp (f := fun p : ℝ × ℝ × ℝ => (p.1, p.2.1)) (by fun_prop) fun p hp => ⟨hp.1, hp.2.1⟩
  · intro t _ y _ _ ph
    refine sum_congr rfl fun m _ => ?_
    rw [show (m : ℝ) * (a.phi0 - (ph + 2 * Real.pi)) = m * (a.phi0 - ph) - m * (2 * Real.pi) by ring, Real.cos_sub_nat_mul_two_pi]
  · intro l hl t h0 h1 y hy hy0 ph
    have ht : t ∈ Set.Icc 0 (bottom a) := layer_in_range hacc hl h0 h1
    have h3 : ∀ m ∈ range (nLeg a), ∃ d, HasDerivAt (fun x => v m x y) d t ∧ y * d = _ := fun m hm => (hv m (mem_range.1 hm)).ode l hl t h0 h1 y hy hy0
    choose! d hd he using h3
    refine ⟨∑ m ∈ range (nLeg a), d m * Real.cos (m * (a.phi0 - ph)), HasDerivAt.fun_sum fun m hm => (hd m hm).mul_const _, ?_⟩
    have hsc : omegaStar a l / (4 * Real.pi) * skyScatter a l (fun z ph' => ∑ m ∈ range (nLeg a), v m t z * Real.cos (m * (a.phi0 - ph'))) y ph
        = ∑ m ∈ range (nLeg a), (∫ z in (-1 : ℝ)..1, scatD (omegaStar a l) (nLeg a) (legStar a l) m y z * v m t z) * Real.cos (m * (a.phi0 - ph)) := by
      have e1 : skyScatter a l (fun z ph' => ∑ m ∈ range (nLeg a), v m t z * Real.cos (m * (a.phi0 - ph'))) y ph
          = ∫ z in (-1 : ℝ)..1, ∑ m ∈ range (nLeg a), (2 * Real.pi * Real.cos (m * (a.phi0 - ph))) * (phaseMoment (nLeg a) (legStar a l) m y z * v m t z) := by
        unfold skyScatter
        refine intervalIntegral.integral_congr fun z hz => ?_
        rw [Set.uIcc_of_le (by norm_num)] at hz
        unfold phase
        beta_reduce
        rw [scatter_series rfl _ (sq_le_of_mem hy) (sq_le_of_mem hz), mul_sum]
        exact sum_congr rfl fun m _ => by ring
      have hc : ∀ m, Continuous fun z => phaseMoment (nLeg a) (legStar a l) m y z := by
        intro m
        have := (continuous_scatD_mode 2 (nLeg a) (legStar a l) m).comp (f := fun z => (y, z)) (by fun_prop)
        simpa [scatD, Function.comp_def] using this
      rw [e1, intervalIntegral.integral_finsetSum fun m hm => ((hv m (mem_range.1 hm)).integrable (hc m) ht).const_mul _, mul_sum]
      refine sum_congr rfl fun m _ => ?_
      rw [intervalIntegral.integral_const_mul]
      unfold scatD
      simp only [mul_assoc, intervalIntegral.integral_const_mul]
      field_simp
      ring
    have hbeam : omegaStar a l * a.I0 / (4 * Real.pi) * phase a l (cosAngle y ph (-a.mu0) a.phi0)
        = ∑ m ∈ range (nLeg a), beamX (omegaStar a l) (nLeg a) (legStar a l) a.I0 a.mu0 m y * Real.cos (m * (a.phi0 - ph)) := by
      rcases hacc.beam.lt_or_eq with hI | hI
      · have hm := (hacc.beamDir hI).1
        unfold phase
        rw [phase_series _ (sq_le_of_mem hy) (by rw [neg_sq]; nlinarith [hm.1, hm.2]), mul_sum]
        refine sum_congr rfl fun m _ => ?_
        rw [show (m : ℝ) * (a.phi0 - ph) = -(m * (ph - a.phi0)) by ring, Real.cos_neg]
        unfold beamX
        ring
      · unfold beamX
        simp [← hI]
    have hsrc : (1 - a.omega.get l) * source a l t = ∑ m ∈ range (nLeg a), (if m = 0 then (1 - a.omega.get l) * source a l t else 0)
        * Real.cos (m * (a.phi0 - ph)) := (onlyZero_sum hpos (fun _ => (1 - a.omega.get l) * source a l t) 0 _).symm
    unfold skyRHS
    rw [hsc, hbeam, mul_sum]
    conv_rhs => rw [hsrc]
    rw [sum_mul, ← sum_sub_distrib, ← sum_sub_distrib, mul_sum, ← sum_sub_distrib]
    refine sum_congr rfl fun m hm => ?_
    rw [← mul_assoc, he m hm]
    ring
  · intro y hy ph
    refine Eq.trans (sum_congr rfl fun m hm => ?_) (onlyZero_sum hpos down y (a.phi0 - ph))
    rw [(hv m (mem_range.1 hm)).top y hy]
  · intro y hy ph
    have hy' := Set.Ioc_subset_Icc_self hy
    rw [← onlyZero_sum hpos up y (a.phi0 - ph)]
    have hsplit : ∀ f : ℕ → ℝ, ∑ m ∈ range (nLeg a), (if m < a.bdrf.length then f m else 0) * Real.cos (m * (a.phi0 - ph))
        = ∑ m ∈ range a.bdrf.length, f m * Real.cos (m * (a.phi0 - ph)) := by
      intro f
      rw [← sum_subset (range_subset_range.2 hB) (fun m _ hm => by rw [if_neg (by simpa using hm), zero_mul])]
      exact sum_congr rfl fun m hm => by rw [if_pos (mem_range.1 hm)]
    have hrf : skyReflect a rho (fun z ph' => ∑ m ∈ range (nLeg a), v m (bottom a) z * Real.cos (m * (a.phi0 - ph'))) y ph
        = ∑ m ∈ range a.bdrf.length, ((1 + if m = 0 then 1 else 0) * (∫ z in (0 : ℝ)..1, z * rho m y z * v m (bottom a) (-z))
          + a.mu0 * a.I0 / Real.pi * rho m y a.mu0 * Real.exp (-bdryStar a a.tauArr.n / a.mu0)) * Real.cos (m * (a.phi0 - ph)) := by
      unfold skyReflect
      have e1 : ∀ z, z * (∫ ph' in (0 : ℝ)..(2 * Real.pi), bdrfOf a rho y z (ph - ph') * ∑ m ∈ range (nLeg a), v m (bottom a) (-z) * Real.cos (m * (a.phi0 - ph')))
          = ∑ m ∈ range a.bdrf.length, ((1 + if m = 0 then 1 else 0) * Real.pi * Real.cos (m * (a.phi0 - ph))) * (z * rho m y z * v m (bottom a) (-z)) := by
        intro z
        rw [reflect_series hB _ _ _ _ (fun m => v m (bottom a) (-z)), mul_sum]
        exact sum_congr rfl fun m _ => by ring
      have hint : ∀ m ∈ range a.bdrf.length, IntervalIntegrable (fun z => z * rho m y z * v m (bottom a) (-z)) volume 0 1 := by
        intro m hm
        have hm' := mem_range.1 hm
        refine (hv m (by omega)).integrable_down (ContinuousOn.mul continuousOn_id ?_) hbm
        exact (hrc m hm').comp (f := fun z => (y, z)) (by fun_prop) fun z hz => ⟨hy', hz⟩
      simp only [e1]
      rw [intervalIntegral.integral_finsetSum fun m hm => (hint m hm).const_mul _]
      unfold bdrfOf
      simp only [intervalIntegral.integral_const_mul]
      rw [mul_sum, mul_sum, sum_mul, ← sum_add_distrib]
      refine sum_congr rfl fun m _ => ?_
      rw [show (m : ℝ) * (ph - a.phi0) = -(m * (a.phi0 - ph)) by ring, Real.cos_neg]
      field_simp
    rw [hrf, ← hsplit, ← sum_add_distrib]
    refine sum_congr rfl fun m hm => ?_
    rw [(hv m (mem_range.1 hm)).bot y hy, add_mul]

end Pydisort

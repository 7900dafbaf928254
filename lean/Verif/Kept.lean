import Verif.Spec.Kept
import Verif.AzimuthLemmas
import Verif.FullLemmas

/-! The phase function without the Fourier modes that are dropped: its action on cosine series and its distance from the phase function. -/

namespace Pydisort
open Finset Spec

/-- A cosine series of the difference of the azimuths acts on a cosine series mode by mode. -/
theorem cosine_conv (F : ℕ) (c U : ℕ → ℝ) (ph p0 : ℝ) :
    ∫ ph' in (0 : ℝ)..(2 * Real.pi), (∑ m ∈ range F, (2 - if m = 0 then 1 else 0) * c m * Real.cos (m * (ph - ph'))) * ∑ m ∈ range F, U m * Real.cos (m * (p0 - ph'))
      = 2 * Real.pi * ∑ m ∈ range F, c m * U m * Real.cos (m * (p0 - ph)) := by
  simp only [sum_mul_sum]
  rw [intervalIntegral.integral_finsetSum fun m _ => (Continuous.intervalIntegrable (by fun_prop) _ _)]
  rw [mul_sum]
  refine sum_congr rfl fun m hm => ?_
  rw [intervalIntegral.integral_finsetSum fun n _ => (Continuous.intervalIntegrable (by fun_prop) _ _)]
  rw [sum_eq_single m]
  · have : ∀ x' : ℝ, (2 - if m = 0 then (1 : ℝ) else 0) * c m * Real.cos (m * (ph - x')) * (U m * Real.cos (m * (p0 - x')))
        = (2 - if m = 0 then (1 : ℝ) else 0) * c m * U m * (Real.cos (m * (ph - x')) * Real.cos (m * (p0 - x'))) := fun _ => by ring
    simp only [this]
    rw [intervalIntegral.integral_const_mul, integral_cos_cos, if_pos rfl]
    split_ifs <;> ring
  · intro n _ hn
    have : ∀ x' : ℝ, (2 - if m = 0 then (1 : ℝ) else 0) * c m * Real.cos (m * (ph - x')) * (U n * Real.cos (n * (p0 - x')))
        = (2 - if m = 0 then (1 : ℝ) else 0) * c m * U n * (Real.cos (m * (ph - x')) * Real.cos (n * (p0 - x'))) := fun _ => by ring
    simp only [this]
    rw [intervalIntegral.integral_const_mul, integral_cos_cos, if_neg (Ne.symm hn), mul_zero]
  · intro h; exact absurd hm h

variable {E : Ext} {a : Args}

/-- The kernel of the solver is half the albedo times the kept modes. -/
theorem kept_eq_kernel (l : ℕ) (x ph y ph' : ℝ) :
    omegaStar a l * keptPhase a l x ph y ph' = ∑ m ∈ range (nFourier a), (2 - if m = 0 then 1 else 0) * (2 * kernel a m l x y) * Real.cos (m * (ph - ph')) := by
  unfold keptPhase kernel scatD
  rw [mul_sum]
  refine sum_congr rfl fun m _ => ?_
  split_ifs <;> ring

theorem kept_scattered (l : ℕ) (mu w : Vec) (U : ℕ → ℕ → ℝ) (i : ℕ) (ph : ℝ) :
    omegaStar a l / (4 * Real.pi) * ∑ j ∈ range (2 * nHalf a), streamW (nHalf a) w j *
        ∫ ph' in (0 : ℝ)..(2 * Real.pi), keptPhase a l (stream (nHalf a) mu i) ph (stream (nHalf a) mu j) ph'
          * ∑ m ∈ range (nFourier a), U m j * Real.cos (m * (a.phi0 - ph'))
      = ∑ m ∈ range (nFourier a), (∑ j ∈ range (2 * nHalf a), streamW (nHalf a) w j
          * kernel a m l (stream (nHalf a) mu i) (stream (nHalf a) mu j) * U m j) * Real.cos (m * (a.phi0 - ph)) := by
  simp only [sum_mul]
  rw [sum_comm, mul_sum]
  refine sum_congr rfl fun j hj => ?_
  have h : omegaStar a l * ∫ ph' in (0 : ℝ)..(2 * Real.pi), keptPhase a l (stream (nHalf a) mu i) ph (stream (nHalf a) mu j) ph'
          * ∑ m ∈ range (nFourier a), U m j * Real.cos (m * (a.phi0 - ph'))
      = 2 * Real.pi * ∑ m ∈ range (nFourier a), 2 * kernel a m l (stream (nHalf a) mu i) (stream (nHalf a) mu j) * U m j * Real.cos (m * (a.phi0 - ph)) := by
    rw [← cosine_conv, ← intervalIntegral.integral_const_mul]
    refine intervalIntegral.integral_congr fun q _ => ?_
    beta_reduce
    rw [← mul_assoc, kept_eq_kernel]
  rw [show omegaStar a l / (4 * Real.pi) * (streamW (nHalf a) w j * ∫ ph' in (0 : ℝ)..(2 * Real.pi), keptPhase a l (stream (nHalf a) mu i) ph (stream (nHalf a) mu j) ph'
          * ∑ m ∈ range (nFourier a), U m j * Real.cos (m * (a.phi0 - ph')))
      = streamW (nHalf a) w j / (4 * Real.pi) * (omegaStar a l * ∫ ph' in (0 : ℝ)..(2 * Real.pi), keptPhase a l (stream (nHalf a) mu i) ph (stream (nHalf a) mu j) ph'
          * ∑ m ∈ range (nFourier a), U m j * Real.cos (m * (a.phi0 - ph'))) by ring, h, mul_sum, mul_sum]
  refine sum_congr rfl fun m _ => ?_
  have := Real.pi_ne_zero
  field_simp
  ring

theorem kept_beam (l : ℕ) (x ph : ℝ) :
    omegaStar a l * a.I0 / (4 * Real.pi) * keptPhase a l x ph (-a.mu0) a.phi0 = ∑ m ∈ range (nFourier a), beamSource a m l x * Real.cos (m * (a.phi0 - ph)) := by
  unfold keptPhase beamSource beamX
  rw [mul_sum]
  refine sum_congr rfl fun m _ => ?_
  rw [show (m : ℝ) * (a.phi0 - ph) = -(m * (ph - a.phi0)) by ring, Real.cos_neg]
  split_ifs <;> ring

/-- The right-hand side of the equation with the kept modes for a cosine series. -/
theorem keptRHS_series (hpos : 0 < nFourier a) (mu w : Vec) (l : ℕ) (t : ℝ) (U : ℕ → ℕ → ℝ) (i : ℕ) (ph : ℝ) :
    keptRHS a mu w l t (fun j φ => ∑ m ∈ range (nFourier a), U m j * Real.cos (m * (a.phi0 - φ))) i ph
      = ∑ m ∈ range (nFourier a), rteUser a mu w m l t (U m) i * Real.cos (m * (a.phi0 - ph)) := by
  have h3 : (1 - a.omega.get l) * source a l t = ∑ m ∈ range (nFourier a), (if m = 0 then (1 - a.omega.get l) * source a l t else 0)
      * Real.cos (m * (a.phi0 - ph)) := by
    rw [sum_eq_single_of_mem 0 (mem_range.2 hpos) (fun m _ hm => by rw [if_neg hm, zero_mul])]
    simp
  unfold keptRHS rteUser rteRHS
  beta_reduce
  rw [kept_scattered, kept_beam]
  conv_lhs => rw [h3]
  rw [sum_mul, ← sum_sub_distrib, ← sum_sub_distrib, mul_sum, ← sum_sub_distrib]
  exact sum_congr rfl fun m _ => by ring

/-! ### What is dropped -/

/-- The weights of the modes of one Legendre polynomial add up to at most one. -/
theorem legendre_modes_le (k : ℕ) {x y : ℝ} (hx : x ∈ Set.Icc (-1 : ℝ) 1) (hy : y ∈ Set.Icc (-1 : ℝ) 1) :
    ∑ m ∈ range (k + 1), |(2 - if m = 0 then (1 : ℝ) else 0) * (((k - m).factorial : ℝ) / ((k + m).factorial : ℝ)) * assocLegendre m k x * assocLegendre m k y| ≤ 1 := by
  have hd : ∀ {z : ℝ}, z ∈ Set.Icc (-1 : ℝ) 1 → ∑ m ∈ range (k + 1), (2 - if m = 0 then (1 : ℝ) else 0) * (((k - m).factorial : ℝ) / ((k + m).factorial : ℝ))
      * assocLegendre m k z * assocLegendre m k z = 1 := by
    intro z hz
    have hz2 := sq_le_of_mem hz
    have h := addition_theorem k hz2 hz2 0
    have hs : Real.sqrt (1 - z ^ 2) * Real.sqrt (1 - z ^ 2) = 1 - z ^ 2 := Real.mul_self_sqrt (by linarith)
    rw [Real.cos_zero, mul_one, hs, show z * z + (1 - z ^ 2) = 1 by ring, legendreP_eval_one] at h
    simp only [mul_zero, Real.cos_zero, mul_one] at h
    exact h.symm
  have h1 : ∀ m ∈ range (k + 1), |(2 - if m = 0 then (1 : ℝ) else 0) * (((k - m).factorial : ℝ) / ((k + m).factorial : ℝ)) * assocLegendre m k x * assocLegendre m k y|
      ≤ 1 / 2 * ((2 - if m = 0 then (1 : ℝ) else 0) * (((k - m).factorial : ℝ) / ((k + m).factorial : ℝ)) * assocLegendre m k x * assocLegendre m k x)
        + 1 / 2 * ((2 - if m = 0 then (1 : ℝ) else 0) * (((k - m).factorial : ℝ) / ((k + m).factorial : ℝ)) * assocLegendre m k y * assocLegendre m k y) := by
    intro m _
    have hc : 0 ≤ (2 - if m = 0 then (1 : ℝ) else 0) * (((k - m).factorial : ℝ) / ((k + m).factorial : ℝ)) :=
      mul_nonneg (by split_ifs <;> norm_num) (by positivity)
    generalize (2 - if m = 0 then (1 : ℝ) else 0) * (((k - m).factorial : ℝ) / ((k + m).factorial : ℝ)) = c at hc ⊢
    generalize assocLegendre m k x = p
    generalize assocLegendre m k y = q
    rw [mul_assoc, abs_mul, abs_of_nonneg hc]
    have : |p * q| ≤ (p * p + q * q) / 2 := abs_le.2 ⟨by nlinarith [sq_nonneg (p + q)], by nlinarith [sq_nonneg (p - q)]⟩
    nlinarith [mul_le_mul_of_nonneg_left this hc]
  refine (sum_le_sum h1).trans ?_
  rw [sum_add_distrib, ← mul_sum, ← mul_sum, hd hx, hd hy]
  norm_num

open Classical in
/-- The phase function and what is kept of it differ by at most the coefficients from the first dropped mode on. -/
theorem kept_near_phase (hF : nFourier a ≤ nLeg a) (l : ℕ) {x y : ℝ} (hx : x ∈ Set.Icc (-1 : ℝ) 1) (hy : y ∈ Set.Icc (-1 : ℝ) 1) (ph ph' : ℝ) :
    |phase a l (cosAngle x ph y ph') - keptPhase a l x ph y ph'|
      ≤ ∑ k ∈ range (nLeg a), if k < nFourier a ∧ Significant (omegaStar a l) (nLeg a) (legStar a l) k then 0 else (2 * (k : ℝ) + 1) * |legStar a l k| := by
  set D : ℕ → Prop := fun m => m < nFourier a ∧ Significant (omegaStar a l) (nLeg a) (legStar a l) m with hD
  have hdown : ∀ m k, m ≤ k → D k → D m := fun m k hmk h => ⟨by have := h.1; omega, by
    obtain ⟨q, h1, h2⟩ := h.2
    exact ⟨q, by omega, h2⟩⟩
  have hkept : keptPhase a l x ph y ph'
      = ∑ m ∈ range (nLeg a), if D m then (2 - if m = 0 then 1 else 0) * phaseMoment (nLeg a) (legStar a l) m x y * Real.cos (m * (ph - ph')) else 0 := by
    unfold keptPhase
    rw [← sum_subset (range_subset_range.2 hF) fun m _ hm => if_neg fun h => hm (mem_range.2 h.1)]
    refine sum_congr rfl fun m hm => ?_
    simp only [hD, mem_range.1 hm, true_and]
  have hdiff : phase a l (cosAngle x ph y ph') - keptPhase a l x ph y ph'
      = ∑ k ∈ range (nLeg a), (2 * (k : ℝ) + 1) * legStar a l k * ∑ m ∈ range (k + 1), if D m then 0 else
          (2 - if m = 0 then (1 : ℝ) else 0) * (((k - m).factorial : ℝ) / ((k + m).factorial : ℝ)) * assocLegendre m k x * assocLegendre m k y * Real.cos (m * (ph - ph')) := by
    rw [hkept]
    unfold phase
    rw [phase_series _ (sq_le_of_mem hx) (sq_le_of_mem hy), ← sum_sub_distrib]
    have h := sum_Ico_Ico_comm 0 (nLeg a) (fun m k => (2 * (k : ℝ) + 1) * legStar a l k * if D m then 0 else ((2 - if m = 0 then 1 else 0)
      * (((k - m).factorial : ℝ) / ((k + m).factorial : ℝ)) * assocLegendre m k x * assocLegendre m k y * Real.cos (m * (ph - ph'))))
    simp only [range_eq_Ico, mul_sum]
    rw [← h]
    refine sum_congr rfl fun m _ => ?_
    by_cases hm : D m
    · simp only [if_pos hm, mul_zero, sum_const_zero, sub_self]
    · simp only [if_neg hm, sub_zero]
      unfold phaseMoment
      rw [mul_sum, sum_mul]
      exact sum_congr rfl fun k _ => by ring
  rw [hdiff]
  refine (abs_sum_le_sum_abs _ _).trans (sum_le_sum fun k _ => ?_)
  rw [abs_mul, abs_mul, abs_of_pos (by positivity : (0 : ℝ) < 2 * k + 1)]
  by_cases hk : D k
  · rw [if_pos hk, sum_eq_zero fun m hm => if_pos (hdown m k (by have := mem_range.1 hm; omega) hk), abs_zero, mul_zero]
  · rw [if_neg hk]
    refine mul_le_of_le_one_right (by positivity) ((abs_sum_le_sum_abs _ _).trans (le_trans (sum_le_sum fun m _ => ?_) (legendre_modes_le k hx hy)))
    by_cases hm : D m
    · rw [if_pos hm, abs_zero]; exact abs_nonneg _
    · rw [if_neg hm, abs_mul _ (Real.cos _)]
      exact mul_le_of_le_one_right (abs_nonneg _) (Real.abs_cos_le_one _)

end Pydisort

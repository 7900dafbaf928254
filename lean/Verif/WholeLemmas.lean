import Verif.KernelIntegral
import Verif.FullSlab
import Verif.SkyUnique
import Verif.Spec.FullSky

/-!
# The whole phase function as a function of two directions
-/

namespace Pydisort
open Finset Spec MeasureTheory Topology

variable {g : ℕ → ℝ}

theorem wholePhase_eq (g : ℕ → ℝ) (nu : ℝ) : wholePhase g nu = meanPhase g nu 1 := by
  unfold wholePhase meanPhase
  simp only [legendreP_eval_one, mul_one]

theorem one_mem_cos : (1 : ℝ) ∈ Set.Icc (-1 : ℝ) 1 := ⟨by norm_num, le_rfl⟩

theorem wholePhase_cont (hg : PhaseSeries g) : ContinuousOn (wholePhase g) (Set.Icc (-1) 1) := by
  have : wholePhase g = fun nu => meanPhase g nu 1 := funext (wholePhase_eq g)
  rw [this]
  exact (continuousOn_meanPhase hg).comp (f := fun nu => (nu, (1 : ℝ))) (by fun_prop) fun nu hnu => ⟨hnu, one_mem_cos⟩

theorem abs_wholePhase_le (hg : PhaseSeries g) {nu : ℝ} (h : nu ∈ Set.Icc (-1 : ℝ) 1) : |wholePhase g nu| ≤ ∑' k : ℕ, (2 * (k : ℝ) + 1) * |g k| := by
  rw [wholePhase_eq]
  exact abs_meanPhase_le hg h one_mem_cos

theorem whole_truncation (hg : PhaseSeries g) (f : ℝ) (L : ℕ) {nu : ℝ} (h : nu ∈ Set.Icc (-1 : ℝ) 1) :
    |∑ k ∈ range L, (2 * (k : ℝ) + 1) * (g k - f) * (legendreP k).eval nu - wholePhase g nu| ≤ tailSum g L + |f| * (L : ℝ) ^ 2 := by
  have := truncation_le hg f L h one_mem_cos
  simp only [legendreP_eval_one, mul_one] at this
  rwa [wholePhase_eq]

theorem cosAngle_mem {y z : ℝ} (hy : y ∈ Set.Icc (-1 : ℝ) 1) (hz : z ∈ Set.Icc (-1 : ℝ) 1) (ph ph' : ℝ) : cosAngle y ph z ph' ∈ Set.Icc (-1 : ℝ) 1 :=
  cosAngle_range (sq_le_of_mem hy) (sq_le_of_mem hz) ph ph'

theorem cosAngle_cont : Continuous fun p : ℝ × ℝ × ℝ × ℝ => cosAngle p.1 p.2.1 p.2.2.1 p.2.2.2 := by
  unfold cosAngle
  fun_prop

theorem whole_kernel (hg : PhaseSeries g) (hpos : ∀ nu ∈ Set.Icc (-1 : ℝ) 1, 0 ≤ wholePhase g nu) :
    GoodKernel (-1) 1 (Set.Icc (-1) 1) (fun y ph z ph' => wholePhase g (cosAngle y ph z ph')) := by
  refine ⟨by norm_num, ?_, fun y hy ph z hz ph' => hpos _ (cosAngle_mem hy hz ph ph'), ⟨_, fun y hy ph z hz ph' =>
    (le_abs_self _).trans (abs_wholePhase_le hg (cosAngle_mem hy hz ph ph'))⟩⟩
  exact (wholePhase_cont hg).comp cosAngle_cont.continuousOn fun p hp => cosAngle_mem hp.1 hp.2.2.1 _ _

theorem wholeScatter_eq (g : ℕ → ℝ) (w : ℝ → ℝ → ℝ) : wholeScatter g w = kint (-1) 1 (fun y ph z ph' => wholePhase g (cosAngle y ph z ph')) w := rfl

/-- The average over azimuth. -/
theorem whole_mean (hg : PhaseSeries g) {y z : ℝ} (hy : y ∈ Set.Icc (-1 : ℝ) 1) (hz : z ∈ Set.Icc (-1 : ℝ) 1) (ph : ℝ) :
    ∫ ph' in (0 : ℝ)..(2 * Real.pi), wholePhase g (cosAngle y ph z ph') = 2 * Real.pi * meanPhase g y z := by
  have hpi := Real.pi_pos
  have hint : IntervalIntegrable (fun ph' => wholePhase g (cosAngle y ph z ph')) volume 0 (2 * Real.pi) := by
    refine Continuous.intervalIntegrable ?_ _ _
    exact (wholePhase_cont hg).comp_continuous (cosAngle_continuous y ph z) fun p => cosAngle_mem hy hz ph p
  have hpoly : ∀ L : ℕ, 0 < L → ∫ ph' in (0 : ℝ)..(2 * Real.pi), ∑ k ∈ range L, (2 * (k : ℝ) + 1) * (g k - 0) * (legendreP k).eval (cosAngle y ph z ph')
      = 2 * Real.pi * ∑ k ∈ range L, (2 * (k : ℝ) + 1) * (g k - 0) * (legendreP k).eval y * (legendreP k).eval z := by
    intro L hL
    have h := scatter_series (F := L) rfl (fun k => g k - 0) (sq_le_of_mem hy) (sq_le_of_mem hz) ph 0 (fun n => if n = 0 then 1 else 0)
    have h1 : ∀ q : ℝ, ∑ n ∈ range L, (if n = 0 then (1 : ℝ) else 0) * Real.cos (n * (0 - q)) = 1 := by
      intro q
      rw [sum_eq_single_of_mem 0 (mem_range.2 hL) (fun n _ hn => by rw [if_neg hn, zero_mul])]
      simp
    simp only [h1, mul_one] at h
    rw [h, sum_eq_single_of_mem 0 (mem_range.2 hL) (fun n _ hn => by rw [if_neg hn]; ring), if_pos rfl]
    unfold phaseMoment
    simp only [Nat.cast_zero, zero_mul, Real.cos_zero, mul_one, range_eq_Ico]
    congr 1
    refine sum_congr rfl fun k _ => ?_
    have : (k.factorial : ℝ) ≠ 0 := by exact_mod_cast k.factorial_ne_zero
    simp [assocLegendre, this]
  have hb : ∀ L : ℕ, 0 < L → |(∫ ph' in (0 : ℝ)..(2 * Real.pi), wholePhase g (cosAngle y ph z ph')) - 2 * Real.pi * meanPhase g y z| ≤ 4 * Real.pi * tailSum g L := by
    intro L hL
    have e1 := truncation_le hg 0 L hy hz
    rw [abs_zero, zero_mul, add_zero] at e1
    have e2 : |(∫ ph' in (0 : ℝ)..(2 * Real.pi), ∑ k ∈ range L, (2 * (k : ℝ) + 1) * (g k - 0) * (legendreP k).eval (cosAngle y ph z ph'))
        - ∫ ph' in (0 : ℝ)..(2 * Real.pi), wholePhase g (cosAngle y ph z ph')| ≤ tailSum g L * (2 * Real.pi) := by
      rw [← intervalIntegral.integral_sub _ hint]
      · have := intervalIntegral.norm_integral_le_of_norm_le_const (a := (0 : ℝ)) (b := 2 * Real.pi) (C := tailSum g L)
          (f := fun ph' => (∑ k ∈ range L, (2 * (k : ℝ) + 1) * (g k - 0) * (legendreP k).eval (cosAngle y ph z ph')) - wholePhase g (cosAngle y ph z ph')) fun p _ => by
            have := whole_truncation hg 0 L (cosAngle_mem hy hz ph p)
            simpa using this
        rwa [Real.norm_eq_abs, sub_zero, abs_of_pos (by positivity : 0 < 2 * Real.pi)] at this
      · refine Continuous.intervalIntegrable ?_ _ _
        exact continuous_finsetSum _ fun k _ => continuous_const.mul ((legendreP k).continuous.comp (cosAngle_continuous y ph z))
    rw [hpoly L hL] at e2
    have e3 := mul_le_mul_of_nonneg_left e1 (by positivity : 0 ≤ 2 * Real.pi)
    rw [← abs_of_pos (by positivity : 0 < 2 * Real.pi), ← abs_mul, abs_of_pos (by positivity : 0 < 2 * Real.pi), mul_sub] at e3
    have e4 := abs_sub_le_iff.1 e2
    have e5 := abs_sub_le_iff.1 e3
    exact abs_sub_le_iff.2 ⟨by linarith [e4.2, e5.1], by linarith [e4.1, e5.2]⟩
  have hlim : Filter.Tendsto (fun L => 4 * Real.pi * tailSum g L) Filter.atTop (𝓝 (4 * Real.pi * 0)) := (tailSum_tendsto g).const_mul _
  rw [mul_zero] at hlim
  have := ge_of_tendsto hlim (Filter.eventually_atTop.2 ⟨1, fun L hL => hb L hL⟩)
  have := abs_nonpos_iff.1 this
  linarith

/-- Scattering does not create light. -/
theorem whole_mass (hg : PhaseSeries g) {y : ℝ} (hy : y ∈ Set.Icc (-1 : ℝ) 1) (ph : ℝ) :
    ∫ z in (-1 : ℝ)..1, ∫ ph' in (0 : ℝ)..(2 * Real.pi), wholePhase g (cosAngle y ph z ph') = 4 * Real.pi := by
  have : ∫ z in (-1 : ℝ)..1, ∫ ph' in (0 : ℝ)..(2 * Real.pi), wholePhase g (cosAngle y ph z ph') = ∫ z in (-1 : ℝ)..1, 2 * Real.pi * meanPhase g y z :=
    intervalIntegral.integral_congr fun z hz => by
      rw [Set.uIcc_of_le (by norm_num)] at hz
      exact whole_mean hg hy hz ph
  rw [this, intervalIntegral.integral_const_mul, meanPhase_mass hg hy]
  ring

/-! ### The surface -/

section
variable {a : Args} {rho : ℕ → ℝ → ℝ → ℝ}

theorem bdrf_kernel (hr : AbsorbingBDRF a rho) : GoodKernel 0 1 (Set.Icc 0 1) (fun y ph z ph' => z * bdrfOf a rho y z (ph - ph')) := by
  have hc : ContinuousOn (fun p : ℝ × ℝ × ℝ × ℝ => p.2.2.1 * bdrfOf a rho p.1 p.2.2.1 (p.2.1 - p.2.2.2)) (Set.Icc 0 1 ×ˢ Set.univ ×ˢ Set.Icc 0 1 ×ˢ Set.univ) := by
    refine ContinuousOn.mul (by fun_prop) ?_
    unfold bdrfOf
    refine continuousOn_finset_sum _ fun m hm => ContinuousOn.mul ?_ (by fun_prop)
    exact (hr.cont m (mem_range.1 hm)).comp (f := fun p : ℝ × ℝ × ℝ × ℝ => (p.1, p.2.2.1)) (by fun_prop) fun p hp => ⟨hp.1, hp.2.2.1⟩
  refine ⟨zero_le_one, hc, fun y hy ph z hz ph' => mul_nonneg hz.1 (hr.nonneg y hy z hz _), ?_⟩
  have : ∀ m, ∃ K, m < a.bdrf.length → ∀ p ∈ Set.Icc (0 : ℝ) 1 ×ˢ Set.Icc (0 : ℝ) 1, ‖rho m p.1 p.2‖ ≤ K := fun m => by
    by_cases hm : m < a.bdrf.length
    · obtain ⟨K, hK⟩ := (isCompact_Icc.prod isCompact_Icc : IsCompact (Set.Icc (0 : ℝ) 1 ×ˢ Set.Icc (0 : ℝ) 1)).exists_bound_of_continuousOn (hr.cont m hm)
      exact ⟨K, fun _ => hK⟩
    · exact ⟨0, fun h => absurd h hm⟩
  choose K hK using this
  refine ⟨∑ m ∈ range a.bdrf.length, K m, fun y hy ph z hz ph' => ?_⟩
  have h1 : bdrfOf a rho y z (ph - ph') ≤ ∑ m ∈ range a.bdrf.length, K m := by
    unfold bdrfOf
    refine sum_le_sum fun m hm => ?_
    have h2 := hK m (mem_range.1 hm) (y, z) ⟨hy, hz⟩
    rw [Real.norm_eq_abs] at h2
    refine (le_abs_self _).trans ?_
    rw [abs_mul]
    have h3 := Real.abs_cos_le_one ((m : ℝ) * (ph - ph'))
    nlinarith [abs_nonneg (rho m y z)]
  have h0 := hr.nonneg y hy z hz (ph - ph')
  nlinarith [hz.1, hz.2]

theorem wholeReflect_eq (a : Args) (rho : ℕ → ℝ → ℝ → ℝ) (w : ℝ → ℝ → ℝ) (y ph : ℝ) : wholeReflect a rho w y ph
    = 1 / Real.pi * kint 0 1 (fun y ph z ph' => z * bdrfOf a rho y z (ph - ph')) (fun z => w (-z)) y ph
      + a.mu0 * a.I0 / Real.pi * bdrfOf a rho y a.mu0 (ph - a.phi0) * Real.exp (-bottom a / a.mu0) := by
  unfold wholeReflect kint
  simp only [mul_assoc, intervalIntegral.integral_const_mul]

theorem bdrf_mass {κ : ℝ} (hκ : ∀ x ∈ Set.Icc (0 : ℝ) 1, 1 / Real.pi * (∫ z in (0 : ℝ)..1, z * ∫ ph' in (0 : ℝ)..(2 * Real.pi), bdrfOf a rho x z (0 - ph')) ≤ 1 - κ)
    {y : ℝ} (hy : y ∈ Set.Icc (0 : ℝ) 1) (ph : ℝ) : 1 / Real.pi * (∫ z in (0 : ℝ)..1, ∫ ph' in (0 : ℝ)..(2 * Real.pi), z * bdrfOf a rho y z (ph - ph')) ≤ 1 - κ := by
  have := hκ y hy
  simp only [bdrfOf_integral] at this
  simp only [intervalIntegral.integral_const_mul, bdrfOf_integral]
  exact this

end

end Pydisort

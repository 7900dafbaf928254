import Verif.WholeSlab
import Verif.Spec.AzMean
import Mathlib.Analysis.Calculus.ParametricIntervalIntegral

/-!
# Averages over azimuth
-/

namespace Pydisort
open MeasureTheory Set Filter Topology

section
variable {lo hi : ℝ} {Y : Set ℝ} {K : ℝ → ℝ → ℝ → ℝ → ℝ}

theorem goodField_az {M : ℝ} {f : ℝ → ℝ → ℝ} (hf : GoodField lo hi M f) {z : ℝ} (hz : z ∈ Icc lo hi \ {0}) : Continuous fun ph => f z ph :=
  hf.cont.comp_continuous (f := fun ph => (z, ph)) (by fun_prop) fun _ => ⟨hz, trivial⟩

/-- Average of the gathered light over the azimuth of the direction into which it goes. -/
theorem kint_mean (hK : GoodKernel lo hi Y K) {M : ℝ} {f : ℝ → ℝ → ℝ} (hf : GoodField lo hi M f) {y : ℝ} (hy : y ∈ Y) {c : ℝ → ℝ}
    (hc : ∀ z ∈ Icc lo hi, ∀ ph', ∫ ph in (0 : ℝ)..(2 * Real.pi), K y ph z ph' = c z) :
    ∫ ph in (0 : ℝ)..(2 * Real.pi), kint lo hi K f y ph = ∫ z in lo..hi, c z * ∫ ph' in (0 : ℝ)..(2 * Real.pi), f z ph' := by
  have hpi := Real.pi_pos
  obtain ⟨B, hB0, hB⟩ := mass_bound hK
  have hin : ContinuousOn (fun p : ℝ × ℝ => ∫ ph' in (0 : ℝ)..(2 * Real.pi), K y p.1 p.2 ph' * f p.2 ph') (univ ×ˢ (Icc lo hi \ {0})) := by
    have := inner_cont hK (X := Unit) (A := univ) (f := fun _ => f) (hf.cont.comp continuousOn_snd fun p hp => hp.2)
    exact this.comp (f := fun p : ℝ × ℝ => ((), y, p.1, p.2)) (by fun_prop) fun p hp => ⟨trivial, hy, trivial, hp.2⟩
  unfold kint
  rw [intervalIntegral_intervalIntegral_swap]
  · refine intervalIntegral.integral_congr_ae ((ae_cut lo hi hK.le).mono fun z hz hz' => ?_)
    obtain ⟨hz1, hz0⟩ := hz hz'
    have hcf := goodField_az hf ⟨hz1, hz0⟩
    rw [intervalIntegral_intervalIntegral_swap]
    · simp only [intervalIntegral.integral_mul_const]
      rw [← intervalIntegral.integral_const_mul]
      exact intervalIntegral.integral_congr fun p _ => by rw [hc z hz1]
    · have hcc : Continuous fun p : ℝ × ℝ => K y p.1 z p.2 * f z p.2 :=
        (hK.cont.comp_continuous (f := fun p : ℝ × ℝ => (y, p.1, z, p.2)) (by fun_prop) fun _ => ⟨hy, trivial, hz1, trivial⟩).mul (hcf.comp continuous_snd)
      refine (hcc.continuousOn.integrableOn_compact (isCompact_uIcc.prod isCompact_uIcc)).mono_set (Set.prod_mono uIoc_subset_uIcc uIoc_subset_uIcc)
  · have hS : MeasurableSet (uIoc 0 (2 * Real.pi) ×ˢ (uIoc lo hi \ {0}) : Set (ℝ × ℝ)) := measurableSet_uIoc.prod (measurableSet_uIoc.diff (measurableSet_singleton 0))
    have hae : (uIoc 0 (2 * Real.pi) ×ˢ (uIoc lo hi \ {0}) : Set (ℝ × ℝ)) =ᵐ[volume] uIoc 0 (2 * Real.pi) ×ˢ uIoc lo hi := by
      rw [Measure.volume_eq_prod]
      exact Measure.set_prod_ae_eq ae_eq_rfl (diff_null_ae_eq_self (by simp))
    have hsub : (uIoc 0 (2 * Real.pi) ×ˢ (uIoc lo hi \ {0}) : Set (ℝ × ℝ)) ⊆ univ ×ˢ (Icc lo hi \ {0}) := by
      rintro p ⟨-, h1, h2⟩
      rw [uIoc_of_le hK.le] at h1
      exact ⟨trivial, Ioc_subset_Icc_self h1, h2⟩
    refine IntegrableOn.congr_set_ae ?_ hae.symm
    have hfin : volume (uIoc 0 (2 * Real.pi) ×ˢ (uIoc lo hi \ {0}) : Set (ℝ × ℝ)) < ⊤ :=
      (measure_mono (Set.prod_mono uIoc_subset_uIcc (diff_subset.trans uIoc_subset_uIcc))).trans_lt (isCompact_uIcc.prod isCompact_uIcc).measure_lt_top
    refine IntegrableOn.of_bound hfin (C := |M| * B) ((hin.mono hsub).aestronglyMeasurable hS) ?_
    · refine (ae_restrict_iff' hS).2 (ae_of_all _ fun p hp => ?_)
      have hz := (hsub hp).2
      have h1 := inner_le hK (fun q => (hf.bdd p.2 hz q).trans (le_abs_self M)) hy p.1 hz.1
      exact h1.trans (mul_le_mul_of_nonneg_left (hB y hy p.1 p.2 hz.1) (abs_nonneg _))

end

/-! ### The averaged field -/

section
open Spec Finset
variable {a : Args} {g : ℕ → ℕ → ℝ} {rho : ℕ → ℝ → ℝ → ℝ} {up down : ℝ → ℝ} {w : ℝ → ℝ → ℝ → ℝ} {M : ℝ}

theorem cosAngle_comm_az (y ph z ph' : ℝ) : cosAngle y ph z ph' = cosAngle y ph' z ph := by
  unfold cosAngle
  rw [← Real.cos_neg (ph - ph'), neg_sub]

theorem bdrfOf_even (y z d : ℝ) : bdrfOf a rho y z (-d) = bdrfOf a rho y z d := by
  unfold bdrfOf
  refine sum_congr rfl fun m _ => ?_
  rw [mul_neg, Real.cos_neg]

theorem whole_mean' {g : ℕ → ℝ} (hg : PhaseSeries g) {y z : ℝ} (hy : y ∈ Icc (-1 : ℝ) 1) (hz : z ∈ Icc (-1 : ℝ) 1) (ph' : ℝ) :
    ∫ ph in (0 : ℝ)..(2 * Real.pi), wholePhase g (cosAngle y ph z ph') = 2 * Real.pi * meanPhase g y z := by
  simp only [cosAngle_comm_az y _ z ph']
  exact whole_mean hg hy hz ph'

theorem bdrf_mean' (y z ph' : ℝ) : ∫ ph in (0 : ℝ)..(2 * Real.pi), bdrfOf a rho y z (ph - ph') = if 0 < a.bdrf.length then 2 * Real.pi * rho 0 y z else 0 := by
  have : ∀ ph, bdrfOf a rho y z (ph - ph') = bdrfOf a rho y z (ph' - ph) := fun ph => by rw [← neg_sub, bdrfOf_even]
  simp only [this]
  exact bdrfOf_integral rho y z ph'

theorem azMean_mul (w : ℝ → ℝ → ℝ → ℝ) (t y : ℝ) : ∫ ph in (0 : ℝ)..(2 * Real.pi), w t y ph = 2 * Real.pi * azMean w t y := by
  have := Real.pi_ne_zero
  unfold azMean
  field_simp

theorem azMean_le (hw : NiceSky (bottom a) M w) {t y : ℝ} (ht : t ∈ Icc 0 (bottom a)) (hy : y ∈ Icc (-1 : ℝ) 1 \ {0}) : |azMean w t y| ≤ M := by
  have hpi := Real.pi_pos
  have := intervalIntegral.norm_integral_le_of_norm_le_const (a := (0 : ℝ)) (b := 2 * Real.pi) (C := M) (f := fun ph => w t y ph) fun p _ => hw.bdd t ht y hy p
  rw [Real.norm_eq_abs, sub_zero, abs_of_pos (by positivity : 0 < 2 * Real.pi), azMean_mul, abs_mul, abs_of_pos (by positivity : 0 < 2 * Real.pi), mul_comm] at this
  exact le_of_mul_le_mul_right this (by positivity)

theorem azMean_cont (hw : NiceSky (bottom a) M w) : ContinuousOn (fun p : ℝ × ℝ => azMean w p.1 p.2) (Icc 0 (bottom a) ×ˢ (Icc (-1 : ℝ) 1 \ {0} : Set ℝ)) := by
  refine ContinuousOn.mul continuousOn_const ?_
  rw [continuousOn_iff_continuous_domRestrict]
  refine intervalIntegral.continuous_parametric_intervalIntegral_of_continuous' (f := fun (p : ↥(Icc 0 (bottom a) ×ˢ (Icc (-1 : ℝ) 1 \ {0}))) ph => w p.1.1 p.1.2 ph) ?_ _ _
  exact hw.cont.comp_continuous (f := fun p : ↥(Icc 0 (bottom a) ×ˢ (Icc (-1 : ℝ) 1 \ {0})) × ℝ => (p.1.1.1, p.1.1.2, p.2)) (by fun_prop) fun p => ⟨p.1.2.1, p.1.2.2, trivial⟩

theorem azMean_scatter {l : ℕ} (hg : PhaseSeries (g l)) (hpos : ∀ nu ∈ Icc (-1 : ℝ) 1, 0 ≤ wholePhase (g l) nu) (hw : NiceSky (bottom a) M w) {t y : ℝ} (ht : t ∈ Icc 0 (bottom a))
    (hy : y ∈ Icc (-1 : ℝ) 1) :
    ∫ ph in (0 : ℝ)..(2 * Real.pi), wholeScatter (g l) (w t) y ph = 4 * Real.pi ^ 2 * ∫ z in (-1 : ℝ)..1, meanPhase (g l) y z * azMean w t z := by
  rw [wholeScatter_eq, kint_mean (whole_kernel hg hpos) (hw.field ht) hy (c := fun z => 2 * Real.pi * meanPhase (g l) y z) fun z hz p => whole_mean' hg hy hz p,
    ← intervalIntegral.integral_const_mul]
  refine intervalIntegral.integral_congr fun z _ => ?_
  simp only [azMean_mul]
  ring

theorem whole_scatter_az {l : ℕ} (hg : PhaseSeries (g l)) (hpos : ∀ nu ∈ Icc (-1 : ℝ) 1, 0 ≤ wholePhase (g l) nu) (hw : NiceSky (bottom a) M w) {t y : ℝ} (ht : t ∈ Icc 0 (bottom a))
    (hy : y ∈ Icc (-1 : ℝ) 1) : Continuous fun ph => wholeScatter (g l) (w t) y ph := by
  have h0 : 0 ≤ M := hw.nonneg (ht.1.trans ht.2)
  rw [wholeScatter_eq]
  have := kint_cont (whole_kernel hg hpos) (X := ℝ) (A := Icc 0 (bottom a)) (f := w) hw.cont h0 fun s hs z hz p => hw.bdd s hs z hz p
  exact this.comp_continuous (f := fun ph => (t, y, ph)) (by fun_prop) fun _ => ⟨ht, hy, trivial⟩

theorem azMean_rhs (hacc : Accepted a) {l : ℕ} (hl : l < a.tauArr.n) (hg : PhaseSeries (g l)) (hpos : ∀ nu ∈ Icc (-1 : ℝ) 1, 0 ≤ wholePhase (g l) nu) (hw : NiceSky (bottom a) M w) {t y : ℝ}
    (ht : t ∈ Icc 0 (bottom a)) (hy : y ∈ Icc (-1 : ℝ) 1 \ {0}) :
    ∫ ph in (0 : ℝ)..(2 * Real.pi), wholeRHS a g l t (w t) y ph = 2 * Real.pi * rteFull a g l t (azMean w t) y := by
  have hpi := Real.pi_ne_zero
  have c1 : Continuous fun ph => w t y ph := goodField_az (hw.field ht) hy
  have c2 := whole_scatter_az hg hpos hw ht hy.1
  have hi : ∀ {f : ℝ → ℝ}, Continuous f → IntervalIntegrable f volume 0 (2 * Real.pi) := fun h => h.intervalIntegrable _ _
  have hs := azMean_scatter hg hpos hw ht hy.1
  have hb : IntervalIntegrable (fun ph => a.omega.get l * a.I0 / (4 * Real.pi) * wholePhase (g l) (cosAngle y ph (-a.mu0) a.phi0) * Real.exp (-t / a.mu0)) volume 0 (2 * Real.pi)
      ∧ ∫ ph in (0 : ℝ)..(2 * Real.pi), a.omega.get l * a.I0 / (4 * Real.pi) * wholePhase (g l) (cosAngle y ph (-a.mu0) a.phi0) * Real.exp (-t / a.mu0)
        = 2 * Real.pi * (a.omega.get l * a.I0 / (4 * Real.pi) * meanPhase (g l) y (-a.mu0) * Real.exp (-t / a.mu0)) := by
    rcases hacc.beam.eq_or_lt with h0 | h0
    · simp [← h0]
    · have hm : -a.mu0 ∈ Icc (-1 : ℝ) 1 := by
        have := (hacc.beamDir h0).1
        exact ⟨by linarith, by linarith⟩
      have c3 : Continuous fun ph => wholePhase (g l) (cosAngle y ph (-a.mu0) a.phi0) :=
        (wholePhase_cont hg).comp_continuous (cosAngle_cont.comp (f := fun ph => (y, ph, -a.mu0, a.phi0)) (by fun_prop)) fun p => cosAngle_mem hy.1 hm p _
      refine ⟨hi (by fun_prop), ?_⟩
      rw [intervalIntegral.integral_mul_const, intervalIntegral.integral_const_mul, whole_mean' hg hy.1 hm]
      ring
  unfold wholeRHS rteFull
  rw [intervalIntegral.integral_sub (((hi c1).sub ((hi c2).const_mul _)).sub hb.1) (hi continuous_const), intervalIntegral.integral_sub ((hi c1).sub ((hi c2).const_mul _)) hb.1,
    intervalIntegral.integral_sub (hi c1) ((hi c2).const_mul _), hb.2, intervalIntegral.integral_const_mul, hs, azMean_mul, intervalIntegral.integral_const]
  simp only [sub_zero, smul_eq_mul]
  field_simp

/-- The average over azimuth solves the averaged equation. -/
theorem azMean_solves (hacc : Accepted a) (hg : ∀ l < a.tauArr.n, PhaseSeries (g l)) (hpos : NonnegWhole a g) (hr : AbsorbingBDRF a rho)
    (hw : WholeSolution a g rho up down w) : FullSolution a g (rho 0) up down (azMean w) := by
  have hpi := Real.pi_pos
  obtain ⟨M, hM⟩ := WholeSolution.field hw
  have hb0 := (bottom_pos hacc).le
  have hbm : bottom a ∈ Icc 0 (bottom a) := ⟨hb0, le_rfl⟩
  have hM0 : 0 ≤ M := hM.nonneg hb0
  refine ⟨⟨M, fun t ht y hy hy0 => azMean_le hM ht ⟨hy, hy0⟩⟩, azMean_cont hM, fun l hl t ht0 ht1 y hy hy0 => ?_, fun y hy => ?_, fun y hy => ?_⟩
  · have hK := whole_kernel (hg l hl) (hpos l hl)
    obtain ⟨S, hS⟩ := whole_src_bdd hacc (hg l hl)
    set C := (M + |a.omega.get l / (4 * Real.pi)| * (M * (4 * Real.pi)) + S) / |y| with hC
    have hder := intervalIntegral.hasDerivAt_integral_of_dominated_loc_of_deriv_le (μ := volume) (a := (0 : ℝ)) (b := 2 * Real.pi) (F := fun x ph => w x y ph)
      (F' := fun x ph => wholeRHS a g l x (w x) y ph / y) (x₀ := t) (s := Ioo (bdry a.tauArr.get l) (bdry a.tauArr.get (l + 1))) (bound := fun _ => C)
      (Ioo_mem_nhds ht0 ht1) ?_ ?_ ?_ ?_ (by simp) ?_
    · refine ⟨1 / (2 * Real.pi) * ∫ ph in (0 : ℝ)..(2 * Real.pi), wholeRHS a g l t (w t) y ph / y, hder.2.const_mul _, ?_⟩
      rw [intervalIntegral.integral_div, azMean_rhs hacc hl (hg l hl) (hpos l hl) hM (layer_in_range hacc hl ht0 ht1) ⟨hy, hy0⟩]
      field_simp
    · filter_upwards [Ioo_mem_nhds ht0 ht1] with x hx
      exact (goodField_az (hM.field (layer_in_range hacc hl hx.1 hx.2)) ⟨hy, hy0⟩).aestronglyMeasurable
    · exact (goodField_az (hM.field (layer_in_range hacc hl ht0 ht1)) ⟨hy, hy0⟩).intervalIntegrable _ _
    · have ht := layer_in_range hacc hl ht0 ht1
      have c1 : Continuous fun ph => w t y ph := goodField_az (hM.field ht) ⟨hy, hy0⟩
      have c2 := whole_scatter_az (hg l hl) (hpos l hl) hM ht hy
      have c3 : Continuous fun ph => a.omega.get l * a.I0 / (4 * Real.pi) * wholePhase (g l) (cosAngle y ph (-a.mu0) a.phi0) * Real.exp (-t / a.mu0) + (1 - a.omega.get l) * source a l t :=
        (whole_src_cont hacc (hg l hl)).comp_continuous (f := fun ph => (t, y, ph)) (by fun_prop) fun _ => ⟨trivial, hy, trivial⟩
      have : (fun ph => wholeRHS a g l t (w t) y ph / y) = fun ph => (w t y ph - a.omega.get l / (4 * Real.pi) * wholeScatter (g l) (w t) y ph
          - (a.omega.get l * a.I0 / (4 * Real.pi) * wholePhase (g l) (cosAngle y ph (-a.mu0) a.phi0) * Real.exp (-t / a.mu0) + (1 - a.omega.get l) * source a l t)) / y := by
        funext ph
        unfold wholeRHS
        ring
      rw [this]
      exact (((c1.sub (c2.const_mul _)).sub c3).div_const _).aestronglyMeasurable
    · refine ae_of_all _ fun ph _ x hx => ?_
      have ht := layer_in_range hacc hl hx.1 hx.2
      have e1 := hM.bdd x ht y ⟨hy, hy0⟩ ph
      have e2 := kint_le hK (hM.field ht) hy ph
      rw [whole_mass (hg l hl) hy] at e2
      have e3 := hS x ht y hy ph
      have e4 := mul_le_mul_of_nonneg_left e2 (abs_nonneg (a.omega.get l / (4 * Real.pi)))
      rw [← abs_mul] at e4
      rw [Real.norm_eq_abs, abs_div, hC]
      refine div_le_div_of_nonneg_right ?_ (abs_nonneg _)
      have e5 : wholeRHS a g l x (w x) y ph = w x y ph - a.omega.get l / (4 * Real.pi) * kint (-1) 1 (fun y ph z ph' => wholePhase (g l) (cosAngle y ph z ph')) (w x) y ph
          - (a.omega.get l * a.I0 / (4 * Real.pi) * wholePhase (g l) (cosAngle y ph (-a.mu0) a.phi0) * Real.exp (-x / a.mu0) + (1 - a.omega.get l) * source a l x) := by
        rw [← wholeScatter_eq]
        unfold wholeRHS
        ring
      rw [e5]
      exact (abs_sub _ _).trans (add_le_add ((abs_sub _ _).trans (add_le_add e1 e4)) e3)
    · refine ae_of_all _ fun ph _ x hx => ?_
      obtain ⟨d, h1, h2⟩ := hw.ode l hl x hx.1 hx.2 y hy hy0 ph
      rw [← h2, mul_div_cancel_left₀ _ hy0]
      exact h1
  · unfold azMean
    simp only [hw.top y hy, intervalIntegral.integral_const, sub_zero, smul_eq_mul]
    field_simp
  · have hy' := Ioc_subset_Icc_self hy
    have hK := bdrf_kernel hr
    have hm := kint_mean hK (hM.field hbm).flip hy' (c := fun z => z * if 0 < a.bdrf.length then 2 * Real.pi * rho 0 y z else 0) fun z _ p => by
      rw [intervalIntegral.integral_const_mul, bdrf_mean']
    have hc : Continuous fun ph => kint 0 1 (fun y ph z ph' => z * bdrfOf a rho y z (ph - ph')) (fun z => w (bottom a) (-z)) y ph := by
      have := kint_cont hK (X := Unit) (A := univ) (f := fun _ z => w (bottom a) (-z)) ((hM.field hbm).flip.cont.comp continuousOn_snd fun p hp => hp.2) hM0
        fun _ _ z hz p => (hM.field hbm).flip.bdd z hz p
      exact this.comp_continuous (f := fun ph => ((), y, ph)) (by fun_prop) fun _ => ⟨trivial, hy', trivial⟩
    have hcb : Continuous fun ph => bdrfOf a rho y a.mu0 (ph - a.phi0) := by
      unfold bdrfOf
      fun_prop
    have hi : ∀ {f : ℝ → ℝ}, Continuous f → IntervalIntegrable f volume 0 (2 * Real.pi) := fun h => h.intervalIntegrable _ _
    have e0 : azMean w (bottom a) y = 1 / (2 * Real.pi) * ∫ ph in (0 : ℝ)..(2 * Real.pi), (up y
        + (1 / Real.pi * kint 0 1 (fun y ph z ph' => z * bdrfOf a rho y z (ph - ph')) (fun z => w (bottom a) (-z)) y ph
          + a.mu0 * a.I0 / Real.pi * bdrfOf a rho y a.mu0 (ph - a.phi0) * Real.exp (-bottom a / a.mu0))) := by
      unfold azMean
      congr 1
      refine intervalIntegral.integral_congr fun ph _ => ?_
      beta_reduce
      rw [hw.bot y hy ph, wholeReflect_eq]
    rw [e0, intervalIntegral.integral_add (hi continuous_const) (hi (by fun_prop)), intervalIntegral.integral_add (hi (by fun_prop)) (hi (by fun_prop)),
      intervalIntegral.integral_const_mul, hm, intervalIntegral.integral_mul_const, intervalIntegral.integral_const_mul, bdrf_mean', intervalIntegral.integral_const]
    simp only [azMean_mul, sub_zero, smul_eq_mul]
    split_ifs with h
    · unfold reflectExact
      have : ∫ z in (0 : ℝ)..1, z * (2 * Real.pi * rho 0 y z) * (2 * Real.pi * azMean w (bottom a) (-z)) = 4 * Real.pi ^ 2 * ∫ z in (0 : ℝ)..1, z * rho 0 y z * azMean w (bottom a) (-z) := by
        rw [← intervalIntegral.integral_const_mul]
        refine intervalIntegral.integral_congr fun z _ => ?_
        ring
      rw [this]
      field_simp
      ring
    · simp
      field_simp

theorem upFlux_azMean (w : ℝ → ℝ → ℝ → ℝ) (t : ℝ) : upFluxExact (azMean w t) = upEnergy (w t) := by
  unfold upFluxExact upEnergy
  rw [← intervalIntegral.integral_const_mul]
  refine intervalIntegral.integral_congr fun y _ => ?_
  simp only [intervalIntegral.integral_const_mul, azMean_mul]
  ring

theorem downFlux_azMean (w : ℝ → ℝ → ℝ → ℝ) (t : ℝ) : downFluxExact (azMean w t) = downEnergy (w t) := by
  unfold downFluxExact downEnergy
  rw [← intervalIntegral.integral_const_mul]
  refine intervalIntegral.integral_congr fun y _ => ?_
  simp only [intervalIntegral.integral_const_mul, azMean_mul]
  ring

theorem nonneg_mean (hg : ∀ l < a.tauArr.n, PhaseSeries (g l)) (hpos : NonnegWhole a g) : NonnegMean a g := by
  intro l hl x hx y hy
  have hpi := Real.pi_pos
  have h1 := whole_mean (hg l hl) hx hy 0
  have h2 : 0 ≤ ∫ ph' in (0 : ℝ)..(2 * Real.pi), wholePhase (g l) (cosAngle x 0 y ph') :=
    intervalIntegral.integral_nonneg (by positivity) fun p _ => hpos l hl _ (cosAngle_mem hx hy 0 p)
  rw [h1] at h2
  exact nonneg_of_mul_nonneg_right h2 (by positivity)

theorem absorbing_mean (hr : AbsorbingBDRF a rho) (hb : 0 < a.bdrf.length) : AbsorbingSurface (rho 0) := by
  have hpi := Real.pi_pos
  refine ⟨hr.cont 0 hb, fun x hx y hy => ?_, ?_⟩
  · have h1 := bdrfOf_integral (a := a) rho x y 0
    rw [if_pos hb] at h1
    have h2 : 0 ≤ ∫ ph' in (0 : ℝ)..(2 * Real.pi), bdrfOf a rho x y (0 - ph') := intervalIntegral.integral_nonneg (by positivity) fun p _ => hr.nonneg x hx y hy _
    rw [h1] at h2
    exact nonneg_of_mul_nonneg_right h2 (by positivity)
  · obtain ⟨κ, hκ, h⟩ := hr.absorbs
    refine ⟨κ, hκ, fun x hx => ?_⟩
    have := h x hx
    simp only [bdrfOf_integral, if_pos hb] at this
    have e : ∫ z in (0 : ℝ)..1, z * (2 * Real.pi * rho 0 x z) = 2 * Real.pi * ∫ z in (0 : ℝ)..1, z * rho 0 x z := by
      rw [← intervalIntegral.integral_const_mul]
      refine intervalIntegral.integral_congr fun z _ => ?_
      ring
    rw [e] at this
    field_simp at this
    linarith

end

end Pydisort

import Verif.SkyLemmas

/-!
# The transfer equation with all directions has at most one solution
-/

namespace Pydisort
open Finset Spec MeasureTheory

variable {E : Ext} {a : Args} {rho : ℕ → ℝ → ℝ → ℝ} {up down : ℝ → ℝ} {w w' : ℝ → ℝ → ℝ → ℝ}

/-- Along one direction: light is attenuated towards its source, whatever the extinction `c l` of the layers. -/
theorem attenuate_of (hacc : Accepted a) {c : ℕ → ℝ} (hc : ∀ l < a.tauArr.n, 0 < c l) {f : ℝ → ℝ} (hf : ContinuousOn f (Set.Icc 0 (bottom a))) {y k : ℝ} (hk : 0 ≤ k) (hy : y ≠ 0)
    (hode : ∀ l < a.tauArr.n, ∀ t, bdry a.tauArr.get l < t → t < bdry a.tauArr.get (l + 1) → ∃ d Q, HasDerivAt f d t ∧ y * d = c l * (f t - Q) ∧ |Q| ≤ k)
    (htop : y < 0 → |f 0| ≤ k) (hbot : 0 < y → |f (bottom a)| ≤ k) : ∀ t ∈ Set.Icc 0 (bottom a), |f t| ≤ k := by
  have hbb := bdry_bottom hacc
  have hK1 : ∀ s ∈ ({-1, 1} : Set ℝ), |s| = 1 := by
    intro s hs
    rcases hs with rfl | rfl <;> simp
  have hlow : ∀ {s x : ℝ}, s ∈ ({-1, 1} : Set ℝ) → |x| ≤ k → 0 ≤ k + s * x := by
    intro s x hs hx
    have := neg_mul_le_of_abs (hK1 s hs) hx
    linarith
  set V : ℝ → ℝ → ℕ → ℝ := fun t s i => if (i = 0 ↔ 0 < y) then k + s * f t else k with hV
  have key := min_principle_azimuth (N := 1) (L := a.tauArr.n) (b := bdry a.tauArr.get) (bdry_zero _) (fun l hl => bdry_lt hacc hl)
    (K := {-1, 1}) (Set.toFinite _).isCompact (V := V) ?_
    (σ := fun i => if i = 0 then |y| else -|y|) (fun i hi => by rw [if_pos (by omega)]; exact abs_pos.2 hy)
    (fun i h1 h2 => by rw [if_neg (by omega)]; exact neg_neg_of_pos (abs_pos.2 hy))
    (c := c) (κ := fun _ => 0) hc (fun _ _ => zero_lt_one) (G := fun _ _ _ _ => 0)
    (fun _ _ _ _ _ _ => continuousOn_const) (fun _ _ _ _ _ _ _ _ M _ _ => by simp) ?_ ?_ ?_
  · intro t ht
    obtain ⟨i, hi, hiff⟩ : ∃ i < 2 * 1, (i = 0 ↔ 0 < y) := by
      by_cases h : 0 < y
      · exact ⟨0, by norm_num, by simp [h]⟩
      · exact ⟨1, by norm_num, by simp [h]⟩
    have p := key t ht.1 (by rw [hbb]; exact ht.2) 1 (by simp) i hi
    have q := key t ht.1 (by rw [hbb]; exact ht.2) (-1) (by simp) i hi
    simp only [hV, if_pos hiff] at p q
    exact abs_le.2 ⟨by linarith, by linarith⟩
  · intro i _
    rw [hbb]
    simp only [hV]
    split_ifs
    · exact continuousOn_const.add (continuousOn_snd.mul (hf.comp continuousOn_fst fun p hp => hp.1))
    · exact continuousOn_const
  · intro l hl t h0 h1 i _ s hs
    have hsc := hc l hl
    by_cases hiff : (i = 0 ↔ 0 < y)
    · obtain ⟨d, Q, hd, he, hQ⟩ := hode l hl t h0 h1
      simp only [hV, if_pos hiff]
      refine ⟨s * d, (hd.const_mul s).const_add k, ?_⟩
      have hσ : (if i = 0 then |y| else -|y|) = y := by
        by_cases hi : i = 0
        · rw [if_pos hi, abs_of_pos (hiff.1 hi)]
        · have : ¬ 0 < y := fun h => hi (hiff.2 h)
          rw [if_neg hi, abs_of_nonpos (not_lt.1 this), neg_neg]
      rw [hσ, show y * (s * d) = s * (y * d) by ring, he]
      have := mul_nonneg hsc.le (hlow hs hQ)
      linarith
    · simp only [hV, if_neg hiff]
      exact ⟨0, hasDerivAt_const _ _, by rw [mul_zero, sub_zero]; positivity⟩
  · intro i hi s hs
    simp only [hV]
    split_ifs with hiff
    · refine hlow hs (htop ?_)
      have : ¬ 0 < y := fun h => by have := hiff.2 h; omega
      exact lt_of_le_of_ne (not_lt.1 this) hy
    · exact hk
  · intro i hi s hs M hM _
    rw [hbb]
    simp only [hV]
    split_ifs with hiff
    · exact hM.trans (hlow hs (hbot (hiff.1 (by omega))))
    · exact hM.trans hk

/-- Along one direction: light is attenuated towards its source. -/
theorem attenuate (hacc : Accepted a) {f : ℝ → ℝ} (hf : ContinuousOn f (Set.Icc 0 (bottom a))) {y k : ℝ} (hk : 0 ≤ k) (hy : y ≠ 0)
    (hode : ∀ l < a.tauArr.n, ∀ t, bdry a.tauArr.get l < t → t < bdry a.tauArr.get (l + 1) → ∃ d Q, HasDerivAt f d t ∧ y * d = scale a l * (f t - Q) ∧ |Q| ≤ k)
    (htop : y < 0 → |f 0| ≤ k) (hbot : 0 < y → |f (bottom a)| ≤ k) : ∀ t ∈ Set.Icc 0 (bottom a), |f t| ≤ k :=
  attenuate_of hacc (fun _ hl => Args.scale_pos hacc hl) hf hk hy hode htop hbot

theorem azimuth_cont {P : Set ℝ} {g h : ℝ → ℝ → ℝ} (hg : ContinuousOn (fun p : ℝ × ℝ => g p.1 p.2) (P ×ˢ Set.univ))
    (hh : ContinuousOn (fun p : ℝ × ℝ => h p.1 p.2) (P ×ˢ Set.univ)) :
    ContinuousOn (fun z => ∫ ph' in (0 : ℝ)..(2 * Real.pi), g z ph' * h z ph') P := by
  rw [continuousOn_iff_continuous_domRestrict]
  refine intervalIntegral.continuous_parametric_intervalIntegral_of_continuous' (f := fun (z : P) ph' => g z ph' * h z ph') ?_ _ _
  exact (hg.mul hh).comp_continuous (f := fun p : P × ℝ => ((p.1 : ℝ), p.2)) (by fun_prop) fun p => ⟨p.1.2, trivial⟩

theorem azimuth_int {g h : ℝ → ℝ → ℝ} {P : Set ℝ} (hg : ContinuousOn (fun p : ℝ × ℝ => g p.1 p.2) (P ×ˢ Set.univ))
    (hh : ContinuousOn (fun p : ℝ × ℝ => h p.1 p.2) (P ×ˢ Set.univ)) {z : ℝ} (hz : z ∈ P) :
    IntervalIntegrable (fun ph' => g z ph' * h z ph') volume 0 (2 * Real.pi) := by
  refine Continuous.intervalIntegrable ?_ _ _
  exact (hg.mul hh).comp_continuous (f := fun ph' => (z, ph')) (by fun_prop) fun p => ⟨hz, trivial⟩

theorem azimuth_le {g e : ℝ → ℝ} {k : ℝ} (hg : Continuous g) (hg0 : ∀ p, 0 ≤ g p) (he : ∀ p, |e p| ≤ k) :
    |∫ ph' in (0 : ℝ)..(2 * Real.pi), g ph' * e ph'| ≤ k * ∫ ph' in (0 : ℝ)..(2 * Real.pi), g ph' := by
  rw [← intervalIntegral.integral_const_mul, ← Real.norm_eq_abs]
  refine intervalIntegral.norm_integral_le_of_norm_le (f := fun p => g p * e p) (g := fun p => k * g p) (by positivity)
    (ae_of_all _ fun p _ => ?_) ((hg.intervalIntegrable _ _).const_mul k)
  rw [Real.norm_eq_abs, abs_mul, abs_of_nonneg (hg0 p), mul_comm]
  exact mul_le_mul_of_nonneg_right (he p) (hg0 p)

section
variable (hw : SkySolution a rho up down w)
include hw

theorem sky_slice {t : ℝ} (ht : t ∈ Set.Icc 0 (bottom a)) : ContinuousOn (fun p : ℝ × ℝ => w t p.1 p.2) ((Set.Icc (-1) 1 \ {0}) ×ˢ Set.univ) :=
  hw.cont.comp (f := fun p : ℝ × ℝ => (t, p.1, p.2)) (by fun_prop) fun p hp => ⟨ht, hp.1, trivial⟩

end

theorem phase_angle_cont (a : Args) (l : ℕ) (y ph : ℝ) : Continuous fun p : ℝ × ℝ => phase a l (cosAngle y ph p.1 p.2) := by
  refine (phase_continuous a l).comp ?_
  unfold cosAngle
  fun_prop

/-- The light scattered by a uniform field. -/
theorem phase_total (hacc : Accepted a) {l : ℕ} (hp : peak a l < 1) (ho : omegaStar a l ≠ 0) {y : ℝ} (hy : y ∈ Set.Icc (-1 : ℝ) 1) (ph : ℝ) :
    omegaStar a l / (4 * Real.pi) * (∫ z in (-1 : ℝ)..1, ∫ ph' in (0 : ℝ)..(2 * Real.pi), phase a l (cosAngle y ph z ph')) = omegaStar a l := by
  have hL : 0 < nLeg a := by have := hacc.nLeg.1; unfold nLeg; omega
  have h1 : ∫ z in (-1 : ℝ)..1, ∫ ph' in (0 : ℝ)..(2 * Real.pi), phase a l (cosAngle y ph z ph')
      = ∫ z in (-1 : ℝ)..1, (4 * Real.pi / omegaStar a l) * scatD (omegaStar a l) (nLeg a) (legStar a l) 0 y z := by
    refine intervalIntegral.integral_congr fun z hz => ?_
    rw [Set.uIcc_of_le (by norm_num)] at hz
    have := phaseMoment_integral (a := a) (l := l) (sq_le_of_mem hy) (sq_le_of_mem hz) hL ph 0
    simp only [Nat.cast_zero, zero_mul, Real.cos_zero, mul_one] at this
    beta_reduce
    rw [this]
    unfold scatD
    field_simp
    ring
  rw [h1, intervalIntegral.integral_const_mul, scatD_mass hacc hp]
  have := Real.pi_ne_zero
  field_simp

theorem sky_scatter_sub (hacc : Accepted a) (hpk : ∀ l < a.tauArr.n, peak a l < 1) (hp : NonnegPhase a) (hw : SkySolution a rho up down w)
    (hw' : SkySolution a rho up down w') {k : ℝ}
    (hk : ∀ t ∈ Set.Icc 0 (bottom a), ∀ y ∈ Set.Icc (-1 : ℝ) 1, y ≠ 0 → ∀ ph, |w t y ph - w' t y ph| ≤ k) {l : ℕ} (hl : l < a.tauArr.n) {t : ℝ}
    (ht : t ∈ Set.Icc 0 (bottom a)) {y : ℝ} (hy : y ∈ Set.Icc (-1 : ℝ) 1) (ph : ℝ) :
    |omegaStar a l / (4 * Real.pi) * skyScatter a l (w t) y ph - omegaStar a l / (4 * Real.pi) * skyScatter a l (w' t) y ph| ≤ omegaStar a l * k := by
  by_cases ho : omegaStar a l = 0
  · rw [ho]; simp
  have ho0 := omegaStar_nonneg hacc hl (hpk l hl)
  have hpi := Real.pi_pos
  set g : ℝ → ℝ → ℝ := fun z ph' => phase a l (cosAngle y ph z ph') with hg
  have hgc : Continuous fun p : ℝ × ℝ => g p.1 p.2 := phase_angle_cont a l y ph
  have hg0 : ∀ z ∈ Set.Icc (-1 : ℝ) 1, ∀ p, 0 ≤ g z p := fun z hz p =>
    hp l hl _ (cosAngle_range (sq_le_of_mem hy) (sq_le_of_mem hz) _ _).1 (cosAngle_range (sq_le_of_mem hy) (sq_le_of_mem hz) _ _).2
  have hsl := sky_slice hw ht
  have hsl' := sky_slice hw' ht
  have hGint : Continuous fun z => ∫ ph' in (0 : ℝ)..(2 * Real.pi), g z ph' :=
    intervalIntegral.continuous_parametric_intervalIntegral_of_continuous' (f := g) (by exact hgc) _ _
  have hgz : ∀ z, Continuous (g z) := fun z => hgc.comp (f := fun p => (z, p)) (by fun_prop)
  have hint : ∀ {u : ℝ → ℝ → ℝ → ℝ}, SkySolution a rho up down u → IntervalIntegrable (fun z => ∫ ph' in (0 : ℝ)..(2 * Real.pi), g z ph' * u t z ph') volume (-1) 1 := by
    intro u hu
    obtain ⟨M, hM⟩ := hu.bounded
    have h1 := (hGint.intervalIntegrable (-1) 1).const_mul M (μ := volume)
    rw [intervalIntegrable_iff] at h1 ⊢
    refine h1.mono' (punctured_meas (azimuth_cont hgc.continuousOn (sky_slice hu ht))) ?_
    exact (ae_restrict_iff' measurableSet_uIoc).2 (ae_punctured.mono fun z hz hz' =>
      azimuth_le (hgz z) (hg0 z (hz hz').1) fun p => hM t ht z (hz hz').1 (hz hz').2 p)
  rw [← mul_sub, abs_mul, abs_of_nonneg (by positivity)]
  have h2 : |skyScatter a l (w t) y ph - skyScatter a l (w' t) y ph| ≤ ∫ z in (-1 : ℝ)..1, k * ∫ ph' in (0 : ℝ)..(2 * Real.pi), g z ph' := by
    unfold skyScatter
    rw [← intervalIntegral.integral_sub (hint hw) (hint hw'), ← Real.norm_eq_abs]
    refine intervalIntegral.norm_integral_le_of_norm_le (f := fun z => (∫ ph' in (0 : ℝ)..(2 * Real.pi), g z ph' * w t z ph') - ∫ ph' in (0 : ℝ)..(2 * Real.pi), g z ph' * w' t z ph')
      (g := fun z => k * ∫ ph' in (0 : ℝ)..(2 * Real.pi), g z ph') (by norm_num) ?_ ((hGint.intervalIntegrable _ _).const_mul k)
    refine ae_punctured.mono fun z hz hz' => ?_
    have hz1 := hz (by rwa [Set.uIoc_of_le (by norm_num)])
    rw [← intervalIntegral.integral_sub (azimuth_int hgc.continuousOn hsl hz1) (azimuth_int hgc.continuousOn hsl' hz1)]
    simp only [← mul_sub]
    exact azimuth_le (hgz z) (hg0 z hz1.1) fun p => hk t ht z hz1.1 hz1.2 p
  rw [intervalIntegral.integral_const_mul] at h2
  have h3 := phase_total hacc (hpk l hl) ho hy ph
  calc omegaStar a l / (4 * Real.pi) * |skyScatter a l (w t) y ph - skyScatter a l (w' t) y ph|
      ≤ omegaStar a l / (4 * Real.pi) * (k * ∫ z in (-1 : ℝ)..1, ∫ ph' in (0 : ℝ)..(2 * Real.pi), g z ph') := mul_le_mul_of_nonneg_left h2 (by positivity)
    _ = omegaStar a l * k := by
      conv_rhs => rw [← h3]
      ring

theorem bdrfOf_cont (hr : AbsorbingBDRF a rho) {y : ℝ} (hy : y ∈ Set.Icc (0 : ℝ) 1) (ph : ℝ) :
    ContinuousOn (fun p : ℝ × ℝ => bdrfOf a rho y p.1 (ph - p.2)) (Set.Icc 0 1 ×ˢ Set.univ) := by
  unfold bdrfOf
  refine continuousOn_finset_sum _ fun m hm => ContinuousOn.mul ?_ (by fun_prop)
  exact (hr.cont m (mem_range.1 hm)).comp (f := fun p : ℝ × ℝ => (y, p.1)) (by fun_prop) fun p hp => ⟨hy, hp.1⟩

theorem sky_reflect_sub (hacc : Accepted a) (hr : AbsorbingBDRF a rho) {κ : ℝ}
    (hκ : ∀ x ∈ Set.Icc (0 : ℝ) 1, 1 / Real.pi * (∫ z in (0 : ℝ)..1, z * ∫ ph' in (0 : ℝ)..(2 * Real.pi), bdrfOf a rho x z (0 - ph')) ≤ 1 - κ)
    (hw : SkySolution a rho up down w) (hw' : SkySolution a rho up down w') {k : ℝ} (hk0 : 0 ≤ k)
    (hk : ∀ t ∈ Set.Icc 0 (bottom a), ∀ y ∈ Set.Icc (-1 : ℝ) 1, y ≠ 0 → ∀ ph, |w t y ph - w' t y ph| ≤ k) {y : ℝ} (hy : y ∈ Set.Icc (0 : ℝ) 1) (ph : ℝ) :
    |skyReflect a rho (w (bottom a)) y ph - skyReflect a rho (w' (bottom a)) y ph| ≤ (1 - κ) * k := by
  have hpi := Real.pi_pos
  have hbm : bottom a ∈ Set.Icc 0 (bottom a) := ⟨(bottom_pos hacc).le, le_rfl⟩
  set g : ℝ → ℝ → ℝ := fun z ph' => bdrfOf a rho y z (ph - ph') with hg
  have hgc : ContinuousOn (fun p : ℝ × ℝ => g p.1 p.2) (Set.Icc 0 1 ×ˢ Set.univ) := bdrfOf_cont hr hy ph
  have hgc' : ContinuousOn (fun p : ℝ × ℝ => g p.1 p.2) (Set.Ioc 0 1 ×ˢ Set.univ) := hgc.mono fun p hp => ⟨Set.Ioc_subset_Icc_self hp.1, hp.2⟩
  have hg0 : ∀ z ∈ Set.Icc (0 : ℝ) 1, ∀ p, 0 ≤ g z p := fun z hz p => hr.nonneg y hy z hz _
  have hgz : ∀ z ∈ Set.Icc (0 : ℝ) 1, Continuous (g z) := fun z hz => hgc.comp_continuous (f := fun p => (z, p)) (by fun_prop) fun p => ⟨hz, trivial⟩
  have hsl : ∀ {u : ℝ → ℝ → ℝ → ℝ}, SkySolution a rho up down u → ContinuousOn (fun p : ℝ × ℝ => u (bottom a) (-p.1) p.2) (Set.Ioc 0 1 ×ˢ Set.univ) := fun hu =>
    (sky_slice hu hbm).comp (f := fun p : ℝ × ℝ => (-p.1, p.2)) (by fun_prop) fun p hp => ⟨neg_mem_punctured hp.1, trivial⟩
  have hGint : ContinuousOn (fun z => z * ∫ ph' in (0 : ℝ)..(2 * Real.pi), g z ph') (Set.Icc 0 1) := by
    have := azimuth_cont hgc (h := fun _ _ => 1) continuousOn_const
    simp only [mul_one] at this
    exact continuousOn_id.mul this
  have hGii : IntervalIntegrable (fun z => z * ∫ ph' in (0 : ℝ)..(2 * Real.pi), g z ph') volume 0 1 :=
    ContinuousOn.intervalIntegrable (by rwa [Set.uIcc_of_le zero_le_one])
  have hbd : ∀ {e : ℝ → ℝ} {M z : ℝ}, z ∈ Set.Ioc (0 : ℝ) 1 → (∀ p, |e p| ≤ M) → |z * ∫ ph' in (0 : ℝ)..(2 * Real.pi), g z ph' * e ph'| ≤ M * (z * ∫ ph' in (0 : ℝ)..(2 * Real.pi), g z ph') := by
    intro e M z hz he
    have := azimuth_le (hgz z (Set.Ioc_subset_Icc_self hz)) (hg0 z (Set.Ioc_subset_Icc_self hz)) he
    rw [abs_mul, abs_of_pos hz.1, mul_left_comm]
    exact mul_le_mul_of_nonneg_left this hz.1.le
  have hint : ∀ {u : ℝ → ℝ → ℝ → ℝ}, SkySolution a rho up down u → IntervalIntegrable (fun z => z * ∫ ph' in (0 : ℝ)..(2 * Real.pi), g z ph' * u (bottom a) (-z) ph') volume 0 1 := by
    intro u hu
    obtain ⟨M, hM⟩ := hu.bounded
    have h1 := hGii.const_mul M (μ := volume)
    rw [intervalIntegrable_iff] at h1 ⊢
    refine h1.mono' (unit_meas (continuousOn_id.mul (azimuth_cont hgc' (hsl hu)))) ?_
    refine (ae_restrict_iff' measurableSet_uIoc).2 (ae_unit.mono fun z hz hz' => ?_)
    have hz1 := neg_mem_punctured (hz hz')
    exact hbd (hz hz') fun p => hM _ hbm _ hz1.1 hz1.2 p
  have h2 : |(∫ z in (0 : ℝ)..1, z * ∫ ph' in (0 : ℝ)..(2 * Real.pi), g z ph' * w (bottom a) (-z) ph')
      - ∫ z in (0 : ℝ)..1, z * ∫ ph' in (0 : ℝ)..(2 * Real.pi), g z ph' * w' (bottom a) (-z) ph'| ≤ ∫ z in (0 : ℝ)..1, k * (z * ∫ ph' in (0 : ℝ)..(2 * Real.pi), g z ph') := by
    rw [← intervalIntegral.integral_sub (hint hw) (hint hw'), ← Real.norm_eq_abs]
    refine intervalIntegral.norm_integral_le_of_norm_le (f := fun z => (z * ∫ ph' in (0 : ℝ)..(2 * Real.pi), g z ph' * w (bottom a) (-z) ph') - z * ∫ ph' in (0 : ℝ)..(2 * Real.pi), g z ph' * w' (bottom a) (-z) ph')
      (g := fun z => k * (z * ∫ ph' in (0 : ℝ)..(2 * Real.pi), g z ph')) zero_le_one (ae_of_all _ fun z hz => ?_) (hGii.const_mul k)
    have hz1 := neg_mem_punctured hz
    rw [← mul_sub, ← intervalIntegral.integral_sub (azimuth_int (h := fun z p => w (bottom a) (-z) p) hgc' (hsl hw) hz)
      (azimuth_int (h := fun z p => w' (bottom a) (-z) p) hgc' (hsl hw') hz)]
    simp only [← mul_sub]
    exact hbd hz fun p => hk _ hbm _ hz1.1 hz1.2 p
  have h3 : 1 / Real.pi * (∫ z in (0 : ℝ)..1, z * ∫ ph' in (0 : ℝ)..(2 * Real.pi), g z ph') ≤ 1 - κ := by
    have := hκ y hy
    simp only [bdrfOf_integral] at this
    simp only [hg, bdrfOf_integral]
    exact this
  rw [intervalIntegral.integral_const_mul] at h2
  unfold skyReflect
  rw [add_sub_add_right_eq_sub, ← mul_sub, abs_mul, abs_of_nonneg (by positivity)]
  have h4 := mul_le_mul_of_nonneg_left h2 (show 0 ≤ 1 / Real.pi by positivity)
  have h5 := mul_le_mul_of_nonneg_left h3 hk0
  linarith

/-- The equation with all directions has at most one solution. -/
theorem sky_unique (hacc : Accepted a) (hpk : ∀ l < a.tauArr.n, peak a l < 1) (hp : NonnegPhase a) (hr : AbsorbingBDRF a rho)
    (hw : SkySolution a rho up down w) (hw' : SkySolution a rho up down w') :
    ∀ t ∈ Set.Icc 0 (bottom a), ∀ y ∈ Set.Icc (-1 : ℝ) 1, y ≠ 0 → ∀ ph, w t y ph = w' t y ph := by
  obtain ⟨l₀, hl₀, hmax⟩ := exists_max_image (range a.tauArr.n) (omegaStar a) ⟨0, mem_range.2 hacc.layers⟩
  have hl₀' := mem_range.1 hl₀
  have hom := albedoStar_range hacc hl₀' (hpk _ hl₀')
  obtain ⟨κ, hκ, hab⟩ := hr.absorbs
  obtain ⟨M, hM⟩ := hw.bounded
  obtain ⟨M', hM'⟩ := hw'.bounded
  have hb0 := (bottom_pos hacc).le
  set q := max (omegaStar a l₀) (1 - κ) with hq
  have hq0 : 0 ≤ q := hom.1.trans (le_max_left _ _)
  have hq1 : q < 1 := max_lt hom.2 (by linarith)
  have hMM : 0 ≤ M + M' := add_nonneg ((abs_nonneg _).trans (hM 0 ⟨le_rfl, hb0⟩ 1 ⟨by norm_num, le_rfl⟩ one_ne_zero 0))
    ((abs_nonneg _).trans (hM' 0 ⟨le_rfl, hb0⟩ 1 ⟨by norm_num, le_rfl⟩ one_ne_zero 0))
  have main : ∀ n : ℕ, ∀ t ∈ Set.Icc 0 (bottom a), ∀ y ∈ Set.Icc (-1 : ℝ) 1, y ≠ 0 → ∀ ph, |w t y ph - w' t y ph| ≤ q ^ n * (M + M') := by
    intro n
    induction n with
    | zero =>
      intro t ht y hy hy0 ph
      rw [pow_zero, one_mul]
      exact (abs_sub _ _).trans (add_le_add (hM t ht y hy hy0 ph) (hM' t ht y hy hy0 ph))
    | succ n ih =>
      intro t ht y hy hy0 ph
      have hk0 : 0 ≤ q ^ n * (M + M') := mul_nonneg (pow_nonneg hq0 n) hMM
      have hk1 : q ^ (n + 1) * (M + M') = q * (q ^ n * (M + M')) := by ring
      rw [hk1]
      have hcw : ∀ {u : ℝ → ℝ → ℝ → ℝ}, SkySolution a rho up down u → ContinuousOn (fun t => u t y ph) (Set.Icc 0 (bottom a)) := fun hu =>
        hu.cont.comp (f := fun t => (t, y, ph)) (by fun_prop) fun t ht => ⟨ht, ⟨hy, hy0⟩, trivial⟩
      refine attenuate (f := fun t => w t y ph - w' t y ph) hacc ((hcw hw).sub (hcw hw')) (mul_nonneg hq0 hk0) hy0 ?_ ?_ ?_ t ht
      · intro l hl s h0 h1
        obtain ⟨d₁, k₁, e₁⟩ := hw.ode l hl s h0 h1 y hy hy0 ph
        obtain ⟨d₂, k₂, e₂⟩ := hw'.ode l hl s h0 h1 y hy hy0 ph
        refine ⟨d₁ - d₂, omegaStar a l / (4 * Real.pi) * skyScatter a l (w s) y ph - omegaStar a l / (4 * Real.pi) * skyScatter a l (w' s) y ph, k₁.sub k₂, ?_, ?_⟩
        · rw [mul_sub, e₁, e₂]
          unfold skyRHS
          ring
        · refine (sky_scatter_sub hacc hpk hp hw hw' ih hl (layer_in_range hacc hl h0 h1) hy ph).trans (mul_le_mul_of_nonneg_right ?_ hk0)
          exact (hmax l (mem_range.2 hl)).trans (le_max_left _ _)
      · intro hneg
        have hy' : -y ∈ Set.Ioc (0 : ℝ) 1 := ⟨by linarith, by linarith [hy.1]⟩
        have x1 := hw.top _ hy' ph
        have x2 := hw'.top _ hy' ph
        rw [neg_neg] at x1 x2
        beta_reduce
        rw [x1, x2, sub_self, abs_zero]
        exact mul_nonneg hq0 hk0
      · intro hpos
        have hy' : y ∈ Set.Ioc (0 : ℝ) 1 := ⟨hpos, hy.2⟩
        beta_reduce
        rw [hw.bot y hy' ph, hw'.bot y hy' ph, add_sub_add_left_eq_sub]
        exact (sky_reflect_sub hacc hr hab hw hw' hk0 ih (Set.Ioc_subset_Icc_self hy') ph).trans (mul_le_mul_of_nonneg_right (le_max_right _ _) hk0)
  intro t ht y hy hy0 ph
  have hlim : Filter.Tendsto (fun n : ℕ => q ^ n * (M + M')) Filter.atTop (nhds 0) := by
    simpa using (tendsto_pow_atTop_nhds_zero_of_lt_one hq0 hq1).mul_const (M + M')
  have := ge_of_tendsto' hlim fun n => main n t ht y hy hy0 ph
  exact sub_eq_zero.1 (abs_eq_zero.1 (le_antisymm this (abs_nonneg _)))

end Pydisort

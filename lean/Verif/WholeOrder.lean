import Verif.WholeSlab
import Verif.MinPrinciple

/-!
# Order: no light is negative
-/

namespace Pydisort
open MeasureTheory Set

section
variable {lo hi : ℝ} {Y : Set ℝ} {K : ℝ → ℝ → ℝ → ℝ → ℝ}

theorem kint_ge (hK : GoodKernel lo hi Y K) {M k : ℝ} {f : ℝ → ℝ → ℝ} (hf : GoodField lo hi M f) (hk : ∀ z ∈ Icc lo hi \ {0}, ∀ ph, -k ≤ f z ph) {y : ℝ} (hy : y ∈ Y) (ph : ℝ) :
    -k * (∫ z in lo..hi, ∫ ph' in (0 : ℝ)..(2 * Real.pi), K y ph z ph') ≤ kint lo hi K f y ph := by
  have hpi := Real.pi_pos
  unfold kint
  rw [← intervalIntegral.integral_const_mul]
  refine intervalIntegral.integral_mono_ae_restrict hK.le ((mass_int hK hy ph).const_mul _) (kint_integrable hK hf hy ph) ?_
  have h := ae_cut lo hi hK.le
  rw [uIoc_of_le hK.le] at h
  have h2 : ∀ᵐ z ∂(volume.restrict (Icc lo hi)), z ∈ Icc lo hi \ {0} := by
    rw [ae_restrict_iff' measurableSet_Icc]
    have : ∀ᵐ z : ℝ, z ≠ 0 := by simp [ae_iff]
    filter_upwards [this] with z hz hz'
    exact ⟨hz', hz⟩
  filter_upwards [h2] with z hz
  rw [← intervalIntegral.integral_const_mul]
  refine intervalIntegral.integral_mono_on (by positivity) (((kern_az hK hy ph hz.1).const_mul _).intervalIntegrable _ _) ?_ fun p _ => ?_
  · exact ((kern_az hK hy ph hz.1).mul (hf.cont.comp_continuous (f := fun ph' => (z, ph')) (by fun_prop) fun _ => ⟨hz, trivial⟩)).intervalIntegrable _ _
  · rw [mul_comm]
    exact mul_le_mul_of_nonneg_left (hk z hz p) (hK.nonneg y hy ph z hz.1 p)

theorem kint_diff (hK : GoodKernel lo hi Y K) {M M' : ℝ} {f f' : ℝ → ℝ → ℝ} (hf : GoodField lo hi M f) (hf' : GoodField lo hi M' f') {y : ℝ} (hy : y ∈ Y) (ph : ℝ) :
    kint lo hi K (fun z p => f z p - f' z p) y ph = kint lo hi K f y ph - kint lo hi K f' y ph := by
  unfold kint
  rw [← intervalIntegral.integral_sub (kint_integrable hK hf hy ph) (kint_integrable hK hf' hy ph)]
  refine intervalIntegral.integral_congr_ae ((ae_cut lo hi hK.le).mono fun z hz hz' => ?_)
  have hz1 := hz hz'
  have hi : ∀ {M : ℝ} {f : ℝ → ℝ → ℝ}, GoodField lo hi M f → IntervalIntegrable (fun ph' => K y ph z ph' * f z ph') volume 0 (2 * Real.pi) := fun hf =>
    Continuous.intervalIntegrable ((kern_az hK hy ph hz1.1).mul (hf.cont.comp_continuous (f := fun ph' => (z, ph')) (by fun_prop) fun _ => ⟨hz1, trivial⟩)) _ _
  rw [← intervalIntegral.integral_sub (hi hf) (hi hf')]
  simp only [mul_sub]

end

section
open Spec Finset
variable {a : Args} {g : ℕ → ℕ → ℝ} {rho : ℕ → ℝ → ℝ → ℝ} {e : ℝ → ℝ → ℝ → ℝ} {M : ℝ}

/-- Along one direction: what is attenuated does not fall below its source. -/
theorem attenuate_low (hacc : Accepted a) {f : ℝ → ℝ} (hf : ContinuousOn f (Set.Icc 0 (bottom a))) {y k : ℝ} (hy : y ≠ 0)
    (hode : ∀ l < a.tauArr.n, ∀ t, bdry a.tauArr.get l < t → t < bdry a.tauArr.get (l + 1) → ∃ d Q, HasDerivAt f d t ∧ y * d = f t - Q ∧ -k ≤ Q)
    (htop : y < 0 → -k ≤ f 0) (hbot : 0 < y → -k ≤ f (bottom a)) : ∀ t ∈ Set.Icc 0 (bottom a), -k ≤ f t := by
  have hbb := bdry_bottom hacc
  set V : ℝ → ℕ → ℝ := fun t i => if (i = 0 ↔ 0 < y) then k + f t else 0 with hV
  have key := min_principle (N := 1) (L := a.tauArr.n) (b := bdry a.tauArr.get) (bdry_zero _) (fun l hl => bdry_lt hacc hl) (V := V) ?_
    (σ := fun i => if i = 0 then |y| else -|y|) (fun i hi => by rw [if_pos (by omega)]; exact abs_pos.2 hy)
    (fun i h1 h2 => by rw [if_neg (by omega)]; exact neg_neg_of_pos (abs_pos.2 hy))
    (c := fun _ => 1) (k := fun _ _ _ => 0) (fun _ _ => one_pos) (fun _ _ _ _ _ _ => le_rfl) (fun _ _ _ _ => by simp) ?_ ?_ (r := fun _ _ => 0) (fun _ _ _ _ => le_rfl) ?_ ?_
  · intro t ht
    obtain ⟨i, hi, hiff⟩ : ∃ i < 2 * 1, (i = 0 ↔ 0 < y) := by
      by_cases h : 0 < y
      · exact ⟨0, by norm_num, by simp [h]⟩
      · exact ⟨1, by norm_num, by simp [h]⟩
    have p := key t ht.1 (by rw [hbb]; exact ht.2) i hi
    simp only [hV, if_pos hiff] at p
    linarith
  · intro i _
    rw [hbb]
    simp only [hV]
    split_ifs
    · exact continuousOn_const.add hf
    · exact continuousOn_const
  · intro l hl t h0 h1 i _
    by_cases hiff : (i = 0 ↔ 0 < y)
    · obtain ⟨d, Q, hd, he, hQ⟩ := hode l hl t h0 h1
      simp only [hV, if_pos hiff]
      refine ⟨d, hd.const_add k, ?_⟩
      have hσ : (if i = 0 then |y| else -|y|) = y := by
        by_cases hi : i = 0
        · rw [if_pos hi, abs_of_pos (hiff.1 hi)]
        · have : ¬ 0 < y := fun h => hi (hiff.2 h)
          rw [if_neg hi, abs_of_nonpos (not_lt.1 this), neg_neg]
      rw [hσ, he]
      simp only [zero_mul, sum_const_zero]
      linarith
    · simp only [hV, if_neg hiff]
      exact ⟨0, hasDerivAt_const _ _, by simp⟩
  · intro i hi
    simp only [hV]
    split_ifs with h
    · have : y < 0 := lt_of_le_of_ne (not_lt.1 fun h' => absurd (h.2 h') (by omega)) hy
      linarith [htop this]
    · exact le_rfl
  · exact fun _ _ => by simp
  · intro i hi
    simp only [zero_mul, sum_const_zero, hV]
    split_ifs with h
    · rw [hbb]
      linarith [hbot (h.1 (by omega))]
    · exact le_rfl

/-- A field whose emission, scattering and reflection add nothing negative is not negative. -/
theorem whole_low (hacc : Accepted a) (hg : ∀ l < a.tauArr.n, PhaseSeries (g l)) (hpos : NonnegWhole a g) (hr : AbsorbingBDRF a rho) (he : NiceSky (bottom a) M e)
    (hode : ∀ l < a.tauArr.n, ∀ t, bdry a.tauArr.get l < t → t < bdry a.tauArr.get (l + 1) → ∀ y ∈ Set.Icc (-1 : ℝ) 1, y ≠ 0 → ∀ ph,
      ∃ d S, HasDerivAt (fun x => e x y ph) d t ∧ y * d = e t y ph - a.omega.get l / (4 * Real.pi) * wholeScatter (g l) (e t) y ph - S ∧ 0 ≤ S)
    (htop : ∀ y ∈ Set.Ioc (0 : ℝ) 1, ∀ ph, 0 ≤ e 0 (-y) ph)
    (hbot : ∀ y ∈ Set.Ioc (0 : ℝ) 1, ∀ ph, 1 / Real.pi * kint 0 1 (fun y ph z ph' => z * bdrfOf a rho y z (ph - ph')) (fun z => e (bottom a) (-z)) y ph ≤ e (bottom a) y ph) :
    ∀ t ∈ Set.Icc 0 (bottom a), ∀ y ∈ Set.Icc (-1 : ℝ) 1, y ≠ 0 → ∀ ph, 0 ≤ e t y ph := by
  have hpi := Real.pi_pos
  obtain ⟨l₀, hl₀, hmax⟩ := exists_max_image (range a.tauArr.n) a.omega.get ⟨0, mem_range.2 hacc.layers⟩
  have hom := hacc.omega l₀ (mem_range.1 hl₀)
  obtain ⟨κ, hκ, hab⟩ := hr.absorbs
  have hb0 := (bottom_pos hacc).le
  have hbm : bottom a ∈ Set.Icc 0 (bottom a) := ⟨hb0, le_rfl⟩
  set q := max (a.omega.get l₀) (1 - κ) with hq
  have hq0 : 0 ≤ q := hom.1.trans (le_max_left _ _)
  have hq1 : q < 1 := max_lt hom.2 (by linarith)
  have hM0 : 0 ≤ M := he.nonneg hb0
  have main : ∀ n : ℕ, ∀ t ∈ Set.Icc 0 (bottom a), ∀ y ∈ Set.Icc (-1 : ℝ) 1 \ {0}, ∀ ph, -(q ^ n * M) ≤ e t y ph := by
    intro n
    induction n with
    | zero =>
      intro t ht y hy ph
      rw [pow_zero, one_mul]
      exact (abs_le.1 (he.bdd t ht y hy ph)).1
    | succ n ih =>
      intro t ht y hy ph
      have hk0 : 0 ≤ q ^ n * M := mul_nonneg (pow_nonneg hq0 n) hM0
      have hk1 : q ^ (n + 1) * M = q * (q ^ n * M) := by ring
      rw [hk1]
      refine attenuate_low (f := fun t => e t y ph) hacc (he.cont.comp (f := fun t => (t, y, ph)) (by fun_prop) fun t ht => ⟨ht, hy, trivial⟩) hy.2 ?_ ?_ ?_ t ht
      · intro l hl s h0 h1
        obtain ⟨d, S, h2, h3, h4⟩ := hode l hl s h0 h1 y hy.1 hy.2 ph
        have hs := layer_in_range hacc hl h0 h1
        refine ⟨d, a.omega.get l / (4 * Real.pi) * wholeScatter (g l) (e s) y ph + S, h2, by linarith, ?_⟩
        have h5 := kint_ge (whole_kernel (hg l hl) (hpos l hl)) (he.field hs) (fun z hz p => ih s hs z hz p) hy.1 ph
        rw [whole_mass (hg l hl) hy.1, ← wholeScatter_eq] at h5
        have ho := (hacc.omega l hl).1
        have h6 := mul_le_mul_of_nonneg_left h5 (show 0 ≤ a.omega.get l / (4 * Real.pi) by positivity)
        have h7 : a.omega.get l / (4 * Real.pi) * (-(q ^ n * M) * (4 * Real.pi)) = -(a.omega.get l * (q ^ n * M)) := by field_simp
        have h8 := mul_le_mul_of_nonneg_right ((hmax l (mem_range.2 hl)).trans (le_max_left _ (1 - κ))) hk0
        rw [← hq] at h8
        linarith
      · intro hneg
        have := htop (-y) ⟨by linarith, by linarith [hy.1.1]⟩ ph
        rw [neg_neg] at this
        have := mul_nonneg hq0 hk0
        linarith
      · intro hp
        have hy' : y ∈ Set.Ioc (0 : ℝ) 1 := ⟨hp, hy.1.2⟩
        refine le_trans ?_ (hbot y hy' ph)
        have h5 := kint_ge (bdrf_kernel hr) (he.field hbm).flip (fun z hz p => ih _ hbm _ (flip_punctured hz) p) (Set.Ioc_subset_Icc_self hy') ph
        have h6 := mul_le_mul_of_nonneg_left h5 (show 0 ≤ 1 / Real.pi by positivity)
        have h7 := mul_le_mul_of_nonneg_right ((bdrf_mass hab (Set.Ioc_subset_Icc_self hy') ph).trans (le_max_right (a.omega.get l₀) _)) hk0
        rw [← hq] at h7
        linarith
  intro t ht y hy hy0 ph
  have hlim : Filter.Tendsto (fun n : ℕ => -(q ^ n * M)) Filter.atTop (nhds 0) := by
    simpa using ((tendsto_pow_atTop_nhds_zero_of_lt_one hq0 hq1).mul_const M).neg
  exact le_of_tendsto' hlim fun n => main n t ht y ⟨hy, hy0⟩ ph

end

end Pydisort

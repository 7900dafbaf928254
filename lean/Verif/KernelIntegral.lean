import Verif.Transport

/-!
# Integrals over directions against a kernel
-/

namespace Pydisort
open MeasureTheory Set Filter Topology

/-- Light gathered from all directions `(z, φ')`, `z` between `lo` and `hi`, with the weight `K y φ z φ'`. -/
noncomputable def kint (lo hi : ℝ) (K : ℝ → ℝ → ℝ → ℝ → ℝ) (f : ℝ → ℝ → ℝ) (y ph : ℝ) : ℝ :=
  ∫ z in lo..hi, ∫ ph' in (0 : ℝ)..(2 * Real.pi), K y ph z ph' * f z ph'

/-- A non-negative continuous kernel for `y ∈ Y` and `z ∈ [lo, hi]`. -/
structure GoodKernel (lo hi : ℝ) (Y : Set ℝ) (K : ℝ → ℝ → ℝ → ℝ → ℝ) : Prop where
  le : lo ≤ hi
  cont : ContinuousOn (fun p : ℝ × ℝ × ℝ × ℝ => K p.1 p.2.1 p.2.2.1 p.2.2.2) (Y ×ˢ univ ×ˢ Icc lo hi ×ˢ univ)
  nonneg : ∀ y ∈ Y, ∀ ph, ∀ z ∈ Icc lo hi, ∀ ph', 0 ≤ K y ph z ph'
  bdd : ∃ B, ∀ y ∈ Y, ∀ ph, ∀ z ∈ Icc lo hi, ∀ ph', K y ph z ph' ≤ B

/-- A field for `z ∈ [lo, hi]` other than the horizontal direction. -/
structure GoodField (lo hi M : ℝ) (f : ℝ → ℝ → ℝ) : Prop where
  cont : ContinuousOn (fun p : ℝ × ℝ => f p.1 p.2) ((Icc lo hi \ {0}) ×ˢ univ)
  bdd : ∀ z ∈ Icc lo hi \ {0}, ∀ ph, |f z ph| ≤ M

section
variable {lo hi : ℝ} {Y : Set ℝ} {K : ℝ → ℝ → ℝ → ℝ → ℝ}

theorem ae_cut (lo hi : ℝ) (h : lo ≤ hi) : ∀ᵐ z : ℝ, z ∈ uIoc lo hi → z ∈ Icc lo hi \ {0} := by
  have : ∀ᵐ z : ℝ, z ≠ 0 := by simp [ae_iff]
  filter_upwards [this] with z hz hz'
  rw [uIoc_of_le h] at hz'
  exact ⟨Ioc_subset_Icc_self hz', hz⟩

theorem cut_meas {f : ℝ → ℝ} (h : lo ≤ hi) (hf : ContinuousOn f (Icc lo hi \ {0})) : AEStronglyMeasurable f (volume.restrict (uIoc lo hi)) := by
  have hm : MeasurableSet (Icc lo hi \ {0}) := measurableSet_Icc.diff (measurableSet_singleton 0)
  have h1 := hf.aestronglyMeasurable (μ := volume) hm
  have hae : (Icc lo hi \ {0} : Set ℝ) =ᵐ[volume] Icc lo hi := diff_null_ae_eq_self (by simp)
  rw [Measure.restrict_congr_set hae] at h1
  refine h1.mono_measure (Measure.restrict_mono ?_ le_rfl)
  rw [uIoc_of_le h]
  exact Ioc_subset_Icc_self

variable (hK : GoodKernel lo hi Y K)
include hK

theorem kern_az {y : ℝ} (hy : y ∈ Y) (ph : ℝ) {z : ℝ} (hz : z ∈ Icc lo hi) : Continuous fun ph' => K y ph z ph' :=
  hK.cont.comp_continuous (f := fun ph' => (y, ph, z, ph')) (by fun_prop) fun _ => ⟨hy, trivial, hz, trivial⟩

/-- The inner integral is continuous in all the other variables. -/
theorem inner_cont {X : Type*} [TopologicalSpace X] {A : Set X} {f : X → ℝ → ℝ → ℝ}
    (hf : ContinuousOn (fun p : X × ℝ × ℝ => f p.1 p.2.1 p.2.2) (A ×ˢ (Icc lo hi \ {0}) ×ˢ univ)) :
    ContinuousOn (fun p : X × ℝ × ℝ × ℝ => ∫ ph' in (0 : ℝ)..(2 * Real.pi), K p.2.1 p.2.2.1 p.2.2.2 ph' * f p.1 p.2.2.2 ph') (A ×ˢ Y ×ˢ univ ×ˢ (Icc lo hi \ {0})) := by
  rw [continuousOn_iff_continuous_domRestrict]
  refine intervalIntegral.continuous_parametric_intervalIntegral_of_continuous'
    (f := fun (p : ↥(A ×ˢ Y ×ˢ (univ : Set ℝ) ×ˢ (Icc lo hi \ {0}))) ph' => K p.1.2.1 p.1.2.2.1 p.1.2.2.2 ph' * f p.1.1 p.1.2.2.2 ph') ?_ _ _
  refine Continuous.mul ?_ ?_
  · exact hK.cont.comp_continuous (f := fun p : ↥(A ×ˢ Y ×ˢ (univ : Set ℝ) ×ˢ (Icc lo hi \ {0})) × ℝ => (p.1.1.2.1, p.1.1.2.2.1, p.1.1.2.2.2, p.2)) (by fun_prop)
      fun p => ⟨p.1.2.2.1, trivial, p.1.2.2.2.2.1, trivial⟩
  · exact hf.comp_continuous (f := fun p : ↥(A ×ˢ Y ×ˢ (univ : Set ℝ) ×ˢ (Icc lo hi \ {0})) × ℝ => (p.1.1.1, p.1.1.2.2.2, p.2)) (by fun_prop)
      fun p => ⟨p.1.2.1, p.1.2.2.2.2, trivial⟩

theorem inner_le {e : ℝ → ℝ} {k : ℝ} (he : ∀ p, |e p| ≤ k) {y : ℝ} (hy : y ∈ Y) (ph : ℝ) {z : ℝ} (hz : z ∈ Icc lo hi) :
    |∫ ph' in (0 : ℝ)..(2 * Real.pi), K y ph z ph' * e ph'| ≤ k * ∫ ph' in (0 : ℝ)..(2 * Real.pi), K y ph z ph' := by
  have hpi := Real.pi_pos
  rw [← intervalIntegral.integral_const_mul, ← Real.norm_eq_abs]
  refine intervalIntegral.norm_integral_le_of_norm_le (f := fun p => K y ph z p * e p) (g := fun p => k * K y ph z p) (by positivity)
    (ae_of_all _ fun p _ => ?_) (((kern_az hK hy ph hz).intervalIntegrable _ _).const_mul k)
  rw [Real.norm_eq_abs, abs_mul, abs_of_nonneg (hK.nonneg y hy ph z hz p), mul_comm]
  exact mul_le_mul_of_nonneg_right (he p) (hK.nonneg y hy ph z hz p)

theorem mass_cont {y : ℝ} (hy : y ∈ Y) (ph : ℝ) : ContinuousOn (fun z => ∫ ph' in (0 : ℝ)..(2 * Real.pi), K y ph z ph') (Icc lo hi) := by
  rw [continuousOn_iff_continuous_domRestrict]
  refine intervalIntegral.continuous_parametric_intervalIntegral_of_continuous' (f := fun (z : Icc lo hi) ph' => K y ph z ph') ?_ _ _
  exact hK.cont.comp_continuous (f := fun p : Icc lo hi × ℝ => (y, ph, (p.1 : ℝ), p.2)) (by fun_prop) fun p => ⟨hy, trivial, p.1.2, trivial⟩

theorem mass_int {y : ℝ} (hy : y ∈ Y) (ph : ℝ) : IntervalIntegrable (fun z => ∫ ph' in (0 : ℝ)..(2 * Real.pi), K y ph z ph') volume lo hi :=
  ContinuousOn.intervalIntegrable (by rw [uIcc_of_le hK.le]; exact mass_cont hK hy ph)

theorem mass_bound : ∃ B, 0 ≤ B ∧ ∀ y ∈ Y, ∀ ph, ∀ z ∈ Icc lo hi, ∫ ph' in (0 : ℝ)..(2 * Real.pi), K y ph z ph' ≤ B := by
  obtain ⟨B, hB⟩ := hK.bdd
  have hpi := Real.pi_pos
  refine ⟨|B| * (2 * Real.pi), by positivity, fun y hy ph z hz => ?_⟩
  have := intervalIntegral.norm_integral_le_of_norm_le_const (a := 0) (b := 2 * Real.pi) (C := |B|) (f := fun ph' => K y ph z ph') fun p _ => by
    rw [Real.norm_eq_abs, abs_of_nonneg (hK.nonneg y hy ph z hz p)]
    exact (hB y hy ph z hz p).trans (le_abs_self _)
  rw [sub_zero, abs_of_pos (by positivity : 0 < 2 * Real.pi)] at this
  exact (le_abs_self _).trans this

theorem kint_integrable {M : ℝ} {f : ℝ → ℝ → ℝ} (hf : GoodField lo hi M f) {y : ℝ} (hy : y ∈ Y) (ph : ℝ) :
    IntervalIntegrable (fun z => ∫ ph' in (0 : ℝ)..(2 * Real.pi), K y ph z ph' * f z ph') volume lo hi := by
  have h1 := (mass_int hK hy ph).const_mul M
  rw [intervalIntegrable_iff] at h1 ⊢
  have hc : ContinuousOn (fun z => ∫ ph' in (0 : ℝ)..(2 * Real.pi), K y ph z ph' * f z ph') (Icc lo hi \ {0}) := by
    have := inner_cont hK (X := Unit) (A := univ) (f := fun _ => f) (hf.cont.comp continuousOn_snd fun p hp => hp.2)
    exact this.comp (f := fun z => ((), y, ph, z)) (by fun_prop) fun z hz => ⟨trivial, hy, trivial, hz⟩
  refine h1.mono' (cut_meas hK.le hc) ?_
  exact (ae_restrict_iff' measurableSet_uIoc).2 ((ae_cut lo hi hK.le).mono fun z hz hz' => inner_le hK (fun p => hf.bdd z (hz hz') p) hy ph (hz hz').1)

theorem kint_sub {M M' k : ℝ} {f f' : ℝ → ℝ → ℝ} (hf : GoodField lo hi M f) (hf' : GoodField lo hi M' f') (hk : ∀ z ∈ Icc lo hi \ {0}, ∀ ph, |f z ph - f' z ph| ≤ k)
    {y : ℝ} (hy : y ∈ Y) (ph : ℝ) :
    |kint lo hi K f y ph - kint lo hi K f' y ph| ≤ k * ∫ z in lo..hi, ∫ ph' in (0 : ℝ)..(2 * Real.pi), K y ph z ph' := by
  unfold kint
  rw [← intervalIntegral.integral_sub (kint_integrable hK hf hy ph) (kint_integrable hK hf' hy ph), ← intervalIntegral.integral_const_mul, ← Real.norm_eq_abs]
  refine intervalIntegral.norm_integral_le_of_norm_le
    (f := fun z => (∫ ph' in (0 : ℝ)..(2 * Real.pi), K y ph z ph' * f z ph') - ∫ ph' in (0 : ℝ)..(2 * Real.pi), K y ph z ph' * f' z ph')
    (g := fun z => k * ∫ ph' in (0 : ℝ)..(2 * Real.pi), K y ph z ph') hK.le ?_ ((mass_int hK hy ph).const_mul k)
  refine (ae_cut lo hi hK.le).mono fun z hz hz' => ?_
  have hz1 := hz (by rwa [uIoc_of_le hK.le])
  have hi : ∀ {M : ℝ} {f : ℝ → ℝ → ℝ}, GoodField lo hi M f → IntervalIntegrable (fun ph' => K y ph z ph' * f z ph') volume 0 (2 * Real.pi) := fun hf =>
    Continuous.intervalIntegrable ((kern_az hK hy ph hz1.1).mul (hf.cont.comp_continuous (f := fun ph' => (z, ph')) (by fun_prop) fun _ => ⟨hz1, trivial⟩)) _ _
  rw [← intervalIntegral.integral_sub (hi hf) (hi hf')]
  simp only [← mul_sub]
  exact inner_le hK (fun p => hk z hz1 p) hy ph hz1.1

theorem kint_le {M : ℝ} {f : ℝ → ℝ → ℝ} (hf : GoodField lo hi M f) {y : ℝ} (hy : y ∈ Y) (ph : ℝ) :
    |kint lo hi K f y ph| ≤ M * ∫ z in lo..hi, ∫ ph' in (0 : ℝ)..(2 * Real.pi), K y ph z ph' := by
  have h0 : GoodField lo hi 0 (fun _ _ => 0) := ⟨continuousOn_const, fun _ _ _ => by simp⟩
  have := kint_sub hK hf h0 (fun z hz ph => by rw [sub_zero]; exact hf.bdd z hz ph) hy ph
  have e : kint lo hi K (fun _ _ => 0) y ph = 0 := by simp [kint]
  rwa [e, sub_zero] at this

theorem kint_cont {X : Type*} [TopologicalSpace X] [FirstCountableTopology X] {A : Set X} {M : ℝ} {f : X → ℝ → ℝ → ℝ}
    (hf : ContinuousOn (fun p : X × ℝ × ℝ => f p.1 p.2.1 p.2.2) (A ×ˢ (Icc lo hi \ {0}) ×ˢ univ)) (hM0 : 0 ≤ M)
    (hM : ∀ s ∈ A, ∀ z ∈ Icc lo hi \ {0}, ∀ ph, |f s z ph| ≤ M) :
    ContinuousOn (fun p : X × ℝ × ℝ => kint lo hi K (f p.1) p.2.1 p.2.2) (A ×ˢ Y ×ˢ univ) := by
  obtain ⟨B, hB0, hB⟩ := mass_bound hK
  have hin := inner_cont hK hf
  intro p hp
  refine intervalIntegral.continuousWithinAt_of_dominated_interval (bound := fun _ => M * B) ?_ ?_ (by simp) ?_
  · filter_upwards [self_mem_nhdsWithin] with p' hp'
    refine cut_meas hK.le ?_
    exact hin.comp (f := fun z => (p'.1, p'.2.1, p'.2.2, z)) (by fun_prop) fun z hz => ⟨hp'.1, hp'.2.1, trivial, hz⟩
  · filter_upwards [self_mem_nhdsWithin] with p' hp'
    refine (ae_cut lo hi hK.le).mono fun z hz hz' => ?_
    exact (inner_le hK (fun q => hM _ hp'.1 z (hz hz') q) hp'.2.1 _ (hz hz').1).trans (mul_le_mul_of_nonneg_left (hB _ hp'.2.1 _ _ (hz hz').1) hM0)
  · refine (ae_cut lo hi hK.le).mono fun z hz hz' => ?_
    exact hin.comp (f := fun p : X × ℝ × ℝ => (p.1, p.2.1, p.2.2, z)) (by fun_prop) (fun p' hp' => ⟨hp'.1, hp'.2.1, trivial, hz hz'⟩) p hp

end

end Pydisort

import Verif.FormalSolution
import Verif.Spec.Continuum
import Mathlib.Topology.ContinuousMap.Bounded.Normed
import Mathlib.Topology.MetricSpace.Contracting

/-!
# Existence and uniqueness of the solution of the transfer equation for a continuum of directions

Banach's fixed point theorem for "emit, then solve along every direction", in the supremum norm, on pairs (downward field, upward field).
-/

namespace Pydisort
open MeasureTheory Set Filter Topology
open scoped BoundedContinuousFunction

/-- A slab: thickness, exceptional depths, extinction, optical depth, scattering, internal and beam source, surface, illumination. -/
structure Slab where
  b : ℝ
  P : Set ℝ
  c : ℝ → ℝ
  T : ℝ → ℝ
  D : ℝ → ℝ → ℝ → ℝ
  src : ℝ → ℝ → ℝ
  rho : ℝ → ℝ → ℝ
  up : ℝ → ℝ
  down : ℝ → ℝ
  ω : ℝ

/-- Depths at which the equation is imposed. -/
def Slab.S (σ : Slab) : Set ℝ := Ioo 0 σ.b \ σ.P

structure Slab.Valid (σ : Slab) : Prop where
  col : Column σ.b σ.P σ.c σ.T
  Dcont : ContinuousOn (fun p : ℝ × ℝ × ℝ => σ.D p.1 p.2.1 p.2.2) (σ.S ×ˢ Icc (-1) 1 ×ˢ Icc (-1) 1)
  Dbdd : ∃ K, ∀ s ∈ σ.S, ∀ y ∈ Icc (-1 : ℝ) 1, ∀ z ∈ Icc (-1 : ℝ) 1, |σ.D s y z| ≤ K
  Dmass : ∀ s ∈ σ.S, ∀ y ∈ Icc (-1 : ℝ) 1, ∫ z in (-1 : ℝ)..1, |σ.D s y z| ≤ σ.ω
  ωnonneg : 0 ≤ σ.ω
  ωlt : σ.ω < 1
  srccont : ContinuousOn (fun p : ℝ × ℝ => σ.src p.1 p.2) (σ.S ×ˢ Icc (-1) 1)
  srcbdd : ∃ Q, 0 ≤ Q ∧ ∀ s ∈ σ.S, ∀ y ∈ Icc (-1 : ℝ) 1, |σ.src s y| ≤ Q * σ.c s
  rhocont : ContinuousOn (fun p : ℝ × ℝ => σ.rho p.1 p.2) (Icc 0 1 ×ˢ Icc 0 1)
  absorbs : ∃ κ > 0, ∀ x ∈ Icc (0 : ℝ) 1, (2 * ∫ y in (0 : ℝ)..1, y * |σ.rho x y|) ≤ 1 - κ
  upcont : ContinuousOn σ.up (Ioc 0 1)
  upbdd : ∃ M, ∀ m ∈ Ioc (0 : ℝ) 1, |σ.up m| ≤ M
  downcont : ContinuousOn σ.down (Ioc 0 1)
  downbdd : ∃ M, ∀ m ∈ Ioc (0 : ℝ) 1, |σ.down m| ≤ M

/-- Bounded by `M` and continuous, except for the horizontal direction. -/
structure Nice (b M : ℝ) (v : ℝ → ℝ → ℝ) : Prop where
  bdd : ∀ t ∈ Icc 0 b, ∀ y ∈ Icc (-1 : ℝ) 1 \ {0}, |v t y| ≤ M
  cont : ContinuousOn (fun p : ℝ × ℝ => v p.1 p.2) (Icc 0 b ×ˢ (Icc (-1) 1 \ {0}))

/-- `v` solves the equation of the slab. -/
structure Slab.Solves (σ : Slab) (v : ℝ → ℝ → ℝ) : Prop where
  nice : ∃ M, Nice σ.b M v
  ode : ∀ t ∈ σ.S, ∀ y ∈ Icc (-1 : ℝ) 1 \ {0},
    ∃ d, HasDerivAt (fun x => v x y) d t ∧ y * d = σ.c t * (v t y - ∫ z in (-1 : ℝ)..1, σ.D t y z * v t z) - σ.src t y
  top : ∀ m ∈ Ioc (0 : ℝ) 1, v 0 (-m) = σ.down m
  bot : ∀ m ∈ Ioc (0 : ℝ) 1, v σ.b m = σ.up m + Spec.reflectExact σ.rho (v σ.b) m

theorem cont_glue {A : Set ℝ} {u d : ℝ → ℝ → ℝ} (hu : ContinuousOn (fun p : ℝ × ℝ => u p.1 p.2) (A ×ˢ Ioc 0 1))
    (hd : ContinuousOn (fun p : ℝ × ℝ => d p.1 p.2) (A ×ˢ Ioc 0 1)) :
    ContinuousOn (fun p : ℝ × ℝ => if 0 < p.2 then u p.1 p.2 else d p.1 (-p.2)) (A ×ˢ (Icc (-1) 1 \ {0})) := by
  rintro ⟨t, y⟩ ⟨ht, hy, hy0⟩
  simp only [mem_singleton_iff] at hy0 ht hy
  rcases lt_or_gt_of_ne hy0 with hneg | hpos
  · have ho : IsOpen {p : ℝ × ℝ | p.2 < 0} := isOpen_lt continuous_snd continuous_const
    have hmem : A ×ˢ Ico (-1) 0 ∈ 𝓝[A ×ˢ (Icc (-1 : ℝ) 1 \ {0})] (t, y) := by
      refine mem_nhdsWithin.2 ⟨_, ho, hneg, ?_⟩
      rintro ⟨s, z⟩ ⟨hz, hs, hz1, -⟩
      exact ⟨hs, hz1.1, hz⟩
    have h1 : ContinuousOn (fun p : ℝ × ℝ => d p.1 (-p.2)) (A ×ˢ Ico (-1) 0) :=
      hd.comp (f := fun p : ℝ × ℝ => (p.1, -p.2)) (by fun_prop) fun p hp => ⟨hp.1, by have := hp.2.2; simp; linarith, by have := hp.2.1; simp; linarith⟩
    refine ((h1 (t, y) ⟨ht, hy.1, hneg⟩).mono_of_mem_nhdsWithin hmem).congr_of_eventuallyEq ?_ (by simp [not_lt.2 hneg.le])
    filter_upwards [nhdsWithin_le_nhds (ho.mem_nhds hneg)] with p hp
    have : ¬ 0 < p.2 := not_lt.2 (le_of_lt hp)
    simp [this]
  · have ho : IsOpen {p : ℝ × ℝ | 0 < p.2} := isOpen_lt continuous_const continuous_snd
    have hmem : A ×ˢ Ioc 0 1 ∈ 𝓝[A ×ˢ (Icc (-1 : ℝ) 1 \ {0})] (t, y) := by
      refine mem_nhdsWithin.2 ⟨_, ho, hpos, ?_⟩
      rintro ⟨s, z⟩ ⟨hz, hs, hz1, -⟩
      exact ⟨hs, hz, hz1.2⟩
    refine ((hu (t, y) ⟨ht, hpos, hy.2⟩).mono_of_mem_nhdsWithin hmem).congr_of_eventuallyEq ?_ (by simp [hpos])
    filter_upwards [nhdsWithin_le_nhds (ho.mem_nhds hpos)] with p hp
    have : 0 < p.2 := hp
    simp [this]

theorem neg_mem_punctured {z : ℝ} (hz : z ∈ Ioc (0 : ℝ) 1) : -z ∈ Icc (-1 : ℝ) 1 \ {0} :=
  ⟨⟨by linarith [hz.2], by linarith [hz.1]⟩, by simpa using hz.1.ne'⟩

theorem pos_mem_punctured {z : ℝ} (hz : z ∈ Ioc (0 : ℝ) 1) : z ∈ Icc (-1 : ℝ) 1 \ {0} :=
  ⟨⟨by linarith [hz.1], hz.2⟩, by simpa using hz.1.ne'⟩

section
variable {σ : Slab} {M M' : ℝ} {v v' : ℝ → ℝ → ℝ}

theorem Slab.S_sub (σ : Slab) {s : ℝ} (hs : s ∈ σ.S) : s ∈ Icc 0 σ.b := Ioo_subset_Icc_self hs.1

theorem Nice.sub (h : Nice σ.b M v) (h' : Nice σ.b M' v') {k : ℝ} (hk : ∀ t ∈ Icc 0 σ.b, ∀ y ∈ Icc (-1 : ℝ) 1 \ {0}, |v t y - v' t y| ≤ k) :
    Nice σ.b k (fun t y => v t y - v' t y) := ⟨hk, h.cont.sub h'.cont⟩

theorem ae_punctured : ∀ᵐ z : ℝ, z ∈ uIoc (-1 : ℝ) 1 → z ∈ Icc (-1 : ℝ) 1 \ {0} := by
  have : ∀ᵐ z : ℝ, z ≠ 0 := by simp [ae_iff]
  filter_upwards [this] with z hz hz'
  rw [uIoc_of_le (by norm_num)] at hz'
  exact ⟨Ioc_subset_Icc_self hz', hz⟩

/-- The integrand of the scattered light. -/
theorem scat_cont (hσ : σ.Valid) (h : Nice σ.b M v) {s y : ℝ} (hs : s ∈ σ.S) (hy : y ∈ Icc (-1 : ℝ) 1) :
    ContinuousOn (fun z => σ.D s y z * v s z) (Icc (-1) 1 \ {0}) := by
  refine ContinuousOn.mul ?_ ?_
  · exact hσ.Dcont.comp (f := fun z => (s, y, z)) (by fun_prop) fun z hz => ⟨hs, hy, hz.1⟩
  · exact h.cont.comp (f := fun z => (s, z)) (by fun_prop) fun z hz => ⟨σ.S_sub hs, hz⟩

theorem punctured_meas {f : ℝ → ℝ} (hf : ContinuousOn f (Icc (-1) 1 \ {0})) : AEStronglyMeasurable f (volume.restrict (uIoc (-1 : ℝ) 1)) := by
  have hm : MeasurableSet (Icc (-1 : ℝ) 1 \ {0}) := measurableSet_Icc.diff (measurableSet_singleton 0)
  have h1 := hf.aestronglyMeasurable (μ := volume) hm
  have hae : (Icc (-1 : ℝ) 1 \ {0} : Set ℝ) =ᵐ[volume] Icc (-1) 1 := diff_null_ae_eq_self (by simp)
  rw [Measure.restrict_congr_set hae] at h1
  refine h1.mono_measure (Measure.restrict_mono ?_ le_rfl)
  rw [uIoc_of_le (by norm_num)]
  exact Ioc_subset_Icc_self

theorem scat_bound (h : Nice σ.b M v) {s y : ℝ} (hs : s ∈ σ.S) (hy : y ∈ Icc (-1 : ℝ) 1) {z : ℝ} (hz : z ∈ Icc (-1 : ℝ) 1 \ {0}) :
    |σ.D s y z * v s z| ≤ M * |σ.D s y z| := by
  rw [abs_mul, mul_comm]
  exact mul_le_mul_of_nonneg_right (h.bdd s (σ.S_sub hs) z hz) (abs_nonneg _)

theorem Dint (hσ : σ.Valid) {s y : ℝ} (hs : s ∈ σ.S) (hy : y ∈ Icc (-1 : ℝ) 1) : IntervalIntegrable (fun z => |σ.D s y z|) volume (-1) 1 := by
  refine ContinuousOn.intervalIntegrable ?_
  rw [uIcc_of_le (by norm_num)]
  exact (hσ.Dcont.comp (f := fun z => (s, y, z)) (by fun_prop) fun z hz => ⟨hs, hy, hz⟩).abs

theorem Nice.nonneg (hσ : σ.Valid) (h : Nice σ.b M v) : 0 ≤ M :=
  (abs_nonneg _).trans (h.bdd 0 ⟨le_rfl, hσ.col.pos.le⟩ 1 ⟨by norm_num, by norm_num⟩)

theorem scat_integrable (hσ : σ.Valid) (h : Nice σ.b M v) {s y : ℝ} (hs : s ∈ σ.S) (hy : y ∈ Icc (-1 : ℝ) 1) :
    IntervalIntegrable (fun z => σ.D s y z * v s z) volume (-1) 1 := by
  have := (Dint hσ hs hy).const_mul M
  rw [intervalIntegrable_iff] at this ⊢
  refine this.mono' (punctured_meas (scat_cont hσ h hs hy)) ?_
  exact (ae_restrict_iff' measurableSet_uIoc).2 (ae_punctured.mono fun z hz hz' => scat_bound h hs hy (hz hz'))

/-- Scattered light is at most `ω` times the incident light. -/
theorem scat_le (hσ : σ.Valid) (h : Nice σ.b M v) {s y : ℝ} (hs : s ∈ σ.S) (hy : y ∈ Icc (-1 : ℝ) 1) :
    |∫ z in (-1 : ℝ)..1, σ.D s y z * v s z| ≤ σ.ω * M := by
  have h1 : |∫ z in (-1 : ℝ)..1, σ.D s y z * v s z| ≤ ∫ z in (-1 : ℝ)..1, M * |σ.D s y z| := by
    rw [← Real.norm_eq_abs]
    refine intervalIntegral.norm_integral_le_of_norm_le (f := fun z => σ.D s y z * v s z) (g := fun z => M * |σ.D s y z|) (by norm_num) ?_
      ((Dint hσ hs hy).const_mul M)
    refine ae_punctured.mono fun z hz hz' => scat_bound h hs hy (hz ?_)
    rwa [uIoc_of_le (by norm_num)]
  rw [intervalIntegral.integral_const_mul] at h1
  have := mul_le_mul_of_nonneg_left (hσ.Dmass s hs y hy) (Nice.nonneg hσ h)
  linarith

theorem scat_continuousOn (hσ : σ.Valid) (h : Nice σ.b M v) :
    ContinuousOn (fun p : ℝ × ℝ => ∫ z in (-1 : ℝ)..1, σ.D p.1 p.2 z * v p.1 z) (σ.S ×ˢ Icc (-1) 1) := by
  obtain ⟨K, hK⟩ := hσ.Dbdd
  have hM := Nice.nonneg hσ h
  intro p hp
  refine intervalIntegral.continuousWithinAt_of_dominated_interval (bound := fun _ => M * K) ?_ ?_ (by simp) ?_
  · filter_upwards [self_mem_nhdsWithin] with p' hp'
    exact punctured_meas (scat_cont hσ h hp'.1 hp'.2)
  · filter_upwards [self_mem_nhdsWithin] with p' hp'
    refine ae_punctured.mono fun z hz hz' => ?_
    exact (scat_bound h hp'.1 hp'.2 (hz hz')).trans (mul_le_mul_of_nonneg_left (hK _ hp'.1 _ hp'.2 _ (hz hz').1) hM)
  · refine ae_punctured.mono fun z hz hz' => ?_
    refine ContinuousWithinAt.mul ?_ ?_
    · exact hσ.Dcont.comp (f := fun p : ℝ × ℝ => (p.1, p.2, z)) (by fun_prop) (fun p' hp' => ⟨hp'.1, hp'.2, (hz hz').1⟩) p hp
    · exact h.cont.comp (f := fun p : ℝ × ℝ => (p.1, z)) (by fun_prop) (fun p' hp' => ⟨σ.S_sub hp'.1, hz hz'⟩) p hp

open Classical in
/-- Light emitted into direction `y`. -/
noncomputable def Slab.emis (σ : Slab) (v : ℝ → ℝ → ℝ) (s y : ℝ) : ℝ :=
  if s ∈ σ.S then σ.c s * (∫ z in (-1 : ℝ)..1, σ.D s y z * v s z) + σ.src s y else 0

theorem emis_cont (hσ : σ.Valid) (h : Nice σ.b M v) : ContinuousOn (fun p : ℝ × ℝ => σ.emis v p.1 p.2) (σ.S ×ˢ Icc (-1) 1) := by
  have hc : ContinuousOn (fun p : ℝ × ℝ => σ.c p.1) (σ.S ×ˢ Icc (-1) 1) := hσ.col.ccont.comp continuousOn_fst fun p hp => hp.1
  refine ((hc.mul (scat_continuousOn hσ h)).add hσ.srccont).congr fun p hp => ?_
  simp [Slab.emis, hp.1]

theorem emis_le (hσ : σ.Valid) (h : Nice σ.b M v) : ∃ k, 0 ≤ k ∧ ∀ s, ∀ y ∈ Icc (-1 : ℝ) 1, |σ.emis v s y| ≤ k * σ.c s := by
  obtain ⟨Q, hQ0, hQ⟩ := hσ.srcbdd
  have hM := Nice.nonneg hσ h
  refine ⟨σ.ω * M + Q, add_nonneg (mul_nonneg hσ.ωnonneg hM) hQ0, fun s y hy => ?_⟩
  unfold Slab.emis
  split_ifs with hs
  · refine (abs_add_le _ _).trans ?_
    rw [abs_mul, abs_of_nonneg (hσ.col.nonneg s), add_mul]
    have := mul_le_mul_of_nonneg_left (scat_le hσ h hs hy) (hσ.col.nonneg s)
    linarith [hQ s hs y hy]
  · rw [abs_zero]
    exact mul_nonneg (add_nonneg (mul_nonneg hσ.ωnonneg hM) hQ0) (hσ.col.nonneg s)

theorem emis_sub_le (hσ : σ.Valid) (h : Nice σ.b M v) (h' : Nice σ.b M' v') {k : ℝ} (hk : Nice σ.b k (fun t y => v t y - v' t y)) (s : ℝ) {y : ℝ}
    (hy : y ∈ Icc (-1 : ℝ) 1) : |σ.emis v s y - σ.emis v' s y| ≤ σ.ω * k * σ.c s := by
  unfold Slab.emis
  split_ifs with hs
  · have e : σ.c s * (∫ z in (-1 : ℝ)..1, σ.D s y z * v s z) + σ.src s y - (σ.c s * (∫ z in (-1 : ℝ)..1, σ.D s y z * v' s z) + σ.src s y)
        = σ.c s * ∫ z in (-1 : ℝ)..1, σ.D s y z * (v s z - v' s z) := by
      have : ∀ z, σ.D s y z * (v s z - v' s z) = σ.D s y z * v s z - σ.D s y z * v' s z := fun z => by ring
      simp only [this]
      rw [intervalIntegral.integral_sub (scat_integrable hσ h hs hy) (scat_integrable hσ h' hs hy)]
      ring
    rw [e, abs_mul, abs_of_nonneg (hσ.col.nonneg s)]
    have := mul_le_mul_of_nonneg_left (scat_le hσ hk hs hy) (hσ.col.nonneg s)
    linarith
  · rw [sub_zero, abs_zero]
    exact mul_nonneg (mul_nonneg hσ.ωnonneg (Nice.nonneg hσ hk)) (hσ.col.nonneg s)

/-! ### The surface -/

theorem ae_unit : ∀ᵐ z : ℝ, z ∈ uIoc (0 : ℝ) 1 → z ∈ Ioc (0 : ℝ) 1 := ae_of_all _ fun z hz => by rwa [uIoc_of_le zero_le_one] at hz

theorem refl_cont (hσ : σ.Valid) (h : Nice σ.b M v) {m : ℝ} (hm : m ∈ Icc (0 : ℝ) 1) :
    ContinuousOn (fun z => z * σ.rho m z * v σ.b (-z)) (Ioc 0 1) := by
  refine (continuousOn_id.mul ?_).mul ?_
  · exact hσ.rhocont.comp (f := fun z => (m, z)) (by fun_prop) fun z hz => ⟨hm, Ioc_subset_Icc_self hz⟩
  · exact h.cont.comp (f := fun z => (σ.b, -z)) (by fun_prop) fun z hz => ⟨⟨hσ.col.pos.le, le_rfl⟩, neg_mem_punctured hz⟩

theorem refl_bound (hσ : σ.Valid) (h : Nice σ.b M v) {m : ℝ} {z : ℝ} (hz : z ∈ Ioc (0 : ℝ) 1) :
    |z * σ.rho m z * v σ.b (-z)| ≤ M * (z * |σ.rho m z|) := by
  have h0 : 0 ≤ z * |σ.rho m z| := mul_nonneg hz.1.le (abs_nonneg _)
  rw [abs_mul, abs_mul, abs_of_pos hz.1, mul_comm]
  exact mul_le_mul_of_nonneg_right (h.bdd σ.b ⟨hσ.col.pos.le, le_rfl⟩ _ (neg_mem_punctured hz)) h0

theorem rho_int (hσ : σ.Valid) {m : ℝ} (hm : m ∈ Icc (0 : ℝ) 1) : IntervalIntegrable (fun z => z * |σ.rho m z|) volume 0 1 := by
  refine ContinuousOn.intervalIntegrable ?_
  rw [uIcc_of_le zero_le_one]
  exact continuousOn_id.mul (hσ.rhocont.comp (f := fun z => (m, z)) (by fun_prop) fun z hz => ⟨hm, hz⟩).abs

theorem unit_meas {f : ℝ → ℝ} (hf : ContinuousOn f (Ioc 0 1)) : AEStronglyMeasurable f (volume.restrict (uIoc (0 : ℝ) 1)) := by
  rw [uIoc_of_le zero_le_one]
  exact hf.aestronglyMeasurable measurableSet_Ioc

theorem refl_integrable (hσ : σ.Valid) (h : Nice σ.b M v) {m : ℝ} (hm : m ∈ Icc (0 : ℝ) 1) :
    IntervalIntegrable (fun z => z * σ.rho m z * v σ.b (-z)) volume 0 1 := by
  have := (rho_int hσ hm).const_mul M
  rw [intervalIntegrable_iff] at this ⊢
  refine this.mono' (unit_meas (refl_cont hσ h hm)) ?_
  exact (ae_restrict_iff' measurableSet_uIoc).2 (ae_unit.mono fun z hz hz' => refl_bound hσ h (hz hz'))

theorem refl_le (hσ : σ.Valid) (h : Nice σ.b M v) {κ : ℝ} (hκ : ∀ x ∈ Icc (0 : ℝ) 1, (2 * ∫ y in (0 : ℝ)..1, y * |σ.rho x y|) ≤ 1 - κ)
    {m : ℝ} (hm : m ∈ Icc (0 : ℝ) 1) : |Spec.reflectExact σ.rho (v σ.b) m| ≤ (1 - κ) * M := by
  have h1 : |∫ z in (0 : ℝ)..1, z * σ.rho m z * v σ.b (-z)| ≤ ∫ z in (0 : ℝ)..1, M * (z * |σ.rho m z|) := by
    rw [← Real.norm_eq_abs]
    exact intervalIntegral.norm_integral_le_of_norm_le (f := fun z => z * σ.rho m z * v σ.b (-z)) (g := fun z => M * (z * |σ.rho m z|)) zero_le_one
      (ae_of_all _ fun z hz => refl_bound hσ h hz) ((rho_int hσ hm).const_mul M)
  rw [intervalIntegral.integral_const_mul] at h1
  unfold Spec.reflectExact
  rw [abs_mul, abs_two]
  have := mul_le_mul_of_nonneg_left (hκ m hm) (Nice.nonneg hσ h)
  linarith

theorem refl_continuousOn (hσ : σ.Valid) (h : Nice σ.b M v) : ContinuousOn (fun m => Spec.reflectExact σ.rho (v σ.b) m) (Icc 0 1) := by
  obtain ⟨K, hK⟩ := (isCompact_Icc.prod isCompact_Icc).exists_bound_of_continuousOn hσ.rhocont
  have hM := Nice.nonneg hσ h
  unfold Spec.reflectExact
  refine continuousOn_const.mul fun m hm => ?_
  refine intervalIntegral.continuousWithinAt_of_dominated_interval (bound := fun _ => M * K) ?_ ?_ (by simp) ?_
  · filter_upwards [self_mem_nhdsWithin] with m' hm'
    exact unit_meas (refl_cont hσ h hm')
  · filter_upwards [self_mem_nhdsWithin] with m' hm'
    refine ae_unit.mono fun z hz hz' => ?_
    refine (refl_bound hσ h (hz hz')).trans (mul_le_mul_of_nonneg_left ?_ hM)
    have h1 := hK (m', z) ⟨hm', Ioc_subset_Icc_self (hz hz')⟩
    rw [Real.norm_eq_abs] at h1
    exact (mul_le_of_le_one_left (abs_nonneg _) (hz hz').2).trans h1
  · refine ae_unit.mono fun z hz hz' => ?_
    have hz1 := Ioc_subset_Icc_self (hz hz')
    have : ContinuousOn (fun m => σ.rho m z) (Icc 0 1) := hσ.rhocont.comp (f := fun m => (m, z)) (by fun_prop) fun m' hm' => ⟨hm', hz1⟩
    exact ((continuousOn_const.mul this).mul continuousOn_const) m hm

theorem refl_sub (hσ : σ.Valid) (h : Nice σ.b M v) (h' : Nice σ.b M' v') {m : ℝ} (hm : m ∈ Icc (0 : ℝ) 1) :
    Spec.reflectExact σ.rho (v σ.b) m - Spec.reflectExact σ.rho (v' σ.b) m = Spec.reflectExact σ.rho (fun y => v σ.b y - v' σ.b y) m := by
  unfold Spec.reflectExact
  have : ∀ z, z * σ.rho m z * (v σ.b (-z) - v' σ.b (-z)) = z * σ.rho m z * v σ.b (-z) - z * σ.rho m z * v' σ.b (-z) := fun z => by ring
  simp only [this]
  rw [intervalIntegral.integral_sub (refl_integrable hσ h hm) (refl_integrable hσ h' hm)]
  ring

/-! ### Solving along every direction -/

theorem emission_down (hσ : σ.Valid) (h : Nice σ.b M v) : Emission σ.b σ.P (fun s m => σ.emis v s (-m)) := by
  obtain ⟨k, hk0, hk⟩ := emis_le hσ h
  obtain ⟨C, hC⟩ := hσ.col.bdd
  have hneg : ∀ m ∈ Ioc (0 : ℝ) 1, -m ∈ Icc (-1 : ℝ) 1 := fun m hm => (neg_mem_punctured hm).1
  refine ⟨fun s hs m => by have : s ∉ σ.S := hs; simp [Slab.emis, this], ?_, ⟨k * C, fun s m hm => ?_⟩⟩
  · exact (emis_cont hσ h).comp (f := fun p : ℝ × ℝ => (p.1, -p.2)) (by fun_prop) fun p hp => ⟨hp.1, hneg _ hp.2⟩
  · exact (hk s _ (hneg m hm)).trans (mul_le_mul_of_nonneg_left (hC s) hk0)

/-- The slab upside down, as far as attenuation is concerned. -/
theorem column_up (hσ : σ.Valid) : Column σ.b ((fun s => σ.b - s) ⁻¹' σ.P) (fun s => σ.c (σ.b - s)) (fun s => -σ.T (σ.b - s)) := by
  have hc := hσ.col
  have hmap : ∀ s ∈ Ioo 0 σ.b \ ((fun s => σ.b - s) ⁻¹' σ.P), σ.b - s ∈ σ.S := fun s hs => ⟨⟨by linarith [hs.1.2], by linarith [hs.1.1]⟩, hs.2⟩
  refine ⟨hc.pos, ?_, fun s => hc.nonneg _, ?_, ?_, ?_, ?_⟩
  · exact hc.fin.preimage (fun x _ y _ h => by simpa using h)
  · obtain ⟨C, hC⟩ := hc.bdd
    exact ⟨C, fun s => hC _⟩
  · exact hc.ccont.comp (f := fun s => σ.b - s) (by fun_prop) hmap
  · exact (hc.Tcont.comp (f := fun s => σ.b - s) (by fun_prop) fun s hs => ⟨by linarith [hs.2], by linarith [hs.1]⟩).neg
  · intro s hs
    have h1 := hc.deriv _ (hmap s hs)
    have h2 : HasDerivAt (fun s => σ.b - s) (-1) s := by simpa using (hasDerivAt_id s).const_sub σ.b
    exact (h1.comp s h2).neg.congr_deriv (by ring)

theorem mem_up (hs : σ.b - M ∈ σ.S) : M ∈ Ioo 0 σ.b \ ((fun s => σ.b - s) ⁻¹' σ.P) :=
  ⟨⟨by have := hs.1.2; linarith, by have := hs.1.1; linarith⟩, hs.2⟩

theorem emission_up (hσ : σ.Valid) (h : Nice σ.b M v) : Emission σ.b ((fun s => σ.b - s) ⁻¹' σ.P) (fun s m => σ.emis v (σ.b - s) m) := by
  obtain ⟨k, hk0, hk⟩ := emis_le hσ h
  obtain ⟨C, hC⟩ := hσ.col.bdd
  have hpos : ∀ m ∈ Ioc (0 : ℝ) 1, m ∈ Icc (-1 : ℝ) 1 := fun m hm => (pos_mem_punctured hm).1
  refine ⟨fun s hs m => ?_, ?_, ⟨k * C, fun s m hm => ?_⟩⟩
  · have : σ.b - s ∉ σ.S := fun h' => hs (mem_up h')
    simp [Slab.emis, this]
  · exact (emis_cont hσ h).comp (f := fun p : ℝ × ℝ => (σ.b - p.1, p.2)) (by fun_prop)
      fun p hp => ⟨⟨⟨by linarith [hp.1.1.2], by linarith [hp.1.1.1]⟩, hp.1.2⟩, hpos _ hp.2⟩
  · exact (hk _ _ (hpos m hm)).trans (mul_le_mul_of_nonneg_left (hC _) hk0)

noncomputable def Slab.solveDown (σ : Slab) (v : ℝ → ℝ → ℝ) (t m : ℝ) : ℝ := formal σ.T (fun s m => σ.emis v s (-m)) σ.down t m

noncomputable def Slab.solveUp (σ : Slab) (v : ℝ → ℝ → ℝ) (t m : ℝ) : ℝ :=
  formal (fun s => -σ.T (σ.b - s)) (fun s m => σ.emis v (σ.b - s) m) (fun m => σ.up m + Spec.reflectExact σ.rho (v σ.b) m) (σ.b - t) m

theorem flip_mem {t b : ℝ} (ht : t ∈ Icc 0 b) : b - t ∈ Icc 0 b := ⟨by linarith [ht.2], by linarith [ht.1]⟩

theorem solveDown_cont (hσ : σ.Valid) (h : Nice σ.b M v) : ContinuousOn (fun p : ℝ × ℝ => σ.solveDown v p.1 p.2) (Icc 0 σ.b ×ˢ Ioc 0 1) :=
  formal_cont hσ.col (emission_down hσ h) hσ.downcont

theorem solveUp_cont (hσ : σ.Valid) (h : Nice σ.b M v) : ContinuousOn (fun p : ℝ × ℝ => σ.solveUp v p.1 p.2) (Icc 0 σ.b ×ˢ Ioc 0 1) := by
  have h1 := formal_cont (column_up hσ) (emission_up hσ h) (hσ.upcont.add ((refl_continuousOn hσ h).mono Ioc_subset_Icc_self))
  exact h1.comp (f := fun p : ℝ × ℝ => (σ.b - p.1, p.2)) (by fun_prop) fun p hp => ⟨flip_mem hp.1, hp.2⟩

theorem solveDown_bdd (hσ : σ.Valid) (h : Nice σ.b M v) : ∃ K, ∀ t ∈ Icc 0 σ.b, ∀ m ∈ Ioc (0 : ℝ) 1, |σ.solveDown v t m| ≤ K := by
  obtain ⟨k, hk0, hk⟩ := emis_le hσ h
  obtain ⟨B, hB⟩ := hσ.downbdd
  refine ⟨max k B, fun t ht m hm => formal_le hσ.col hm (hk0.trans (le_max_left _ _)) (fun s => ?_) ((hB m hm).trans (le_max_right _ _)) ht⟩
  exact (hk s _ (neg_mem_punctured hm).1).trans (mul_le_mul_of_nonneg_right (le_max_left _ _) (hσ.col.nonneg s))

theorem solveUp_bdd (hσ : σ.Valid) (h : Nice σ.b M v) : ∃ K, ∀ t ∈ Icc 0 σ.b, ∀ m ∈ Ioc (0 : ℝ) 1, |σ.solveUp v t m| ≤ K := by
  obtain ⟨k, hk0, hk⟩ := emis_le hσ h
  obtain ⟨B, hB⟩ := hσ.upbdd
  obtain ⟨κ, -, hκ⟩ := hσ.absorbs
  refine ⟨max k (B + (1 - κ) * M), fun t ht m hm => formal_le (column_up hσ) hm (hk0.trans (le_max_left _ _)) (fun s => ?_) ?_ (flip_mem ht)⟩
  · exact (hk _ _ (pos_mem_punctured hm).1).trans (mul_le_mul_of_nonneg_right (le_max_left _ _) (hσ.col.nonneg _))
  · refine le_trans ?_ (le_max_right _ _)
    exact (abs_add_le _ _).trans (add_le_add (hB m hm) (refl_le hσ h hκ (Ioc_subset_Icc_self hm)))

theorem solveDown_sub (hσ : σ.Valid) (h : Nice σ.b M v) (h' : Nice σ.b M' v') {k : ℝ} (hk : Nice σ.b k (fun t y => v t y - v' t y)) {t : ℝ}
    (ht : t ∈ Icc 0 σ.b) {m : ℝ} (hm : m ∈ Ioc (0 : ℝ) 1) : |σ.solveDown v t m - σ.solveDown v' t m| ≤ σ.ω * k := by
  unfold Slab.solveDown
  rw [formal_sub hσ.col (emission_down hσ h) (emission_down hσ h') hm]
  have h0 : 0 ≤ σ.ω * k := mul_nonneg hσ.ωnonneg (Nice.nonneg hσ hk)
  refine formal_le hσ.col hm h0 (fun s => emis_sub_le hσ h h' hk s (neg_mem_punctured hm).1) ?_ ht
  simpa using h0

theorem solveUp_sub (hσ : σ.Valid) (h : Nice σ.b M v) (h' : Nice σ.b M' v') {k κ : ℝ} (hk : Nice σ.b k (fun t y => v t y - v' t y))
    (hκ : ∀ x ∈ Icc (0 : ℝ) 1, (2 * ∫ y in (0 : ℝ)..1, y * |σ.rho x y|) ≤ 1 - κ) {t : ℝ}
    (ht : t ∈ Icc 0 σ.b) {m : ℝ} (hm : m ∈ Ioc (0 : ℝ) 1) : |σ.solveUp v t m - σ.solveUp v' t m| ≤ max σ.ω (1 - κ) * k := by
  unfold Slab.solveUp
  rw [formal_sub (column_up hσ) (emission_up hσ h) (emission_up hσ h') hm]
  have hk0 := Nice.nonneg hσ hk
  have h0 : 0 ≤ max σ.ω (1 - κ) * k := mul_nonneg (hσ.ωnonneg.trans (le_max_left _ _)) hk0
  refine formal_le (column_up hσ) hm h0 (fun s => (emis_sub_le hσ h h' hk _ (pos_mem_punctured hm).1).trans ?_) ?_ (flip_mem ht)
  · exact mul_le_mul_of_nonneg_right (mul_le_mul_of_nonneg_right (le_max_left _ _) hk0) (hσ.col.nonneg _)
  · rw [add_sub_add_left_eq_sub, refl_sub hσ h h' (Ioc_subset_Icc_self hm)]
    exact (refl_le (v := fun t y => v t y - v' t y) hσ hk hκ (Ioc_subset_Icc_self hm)).trans (mul_le_mul_of_nonneg_right (le_max_right _ _) hk0)

/-! ### The space of fields -/

/-- Depths and cosines. -/
abbrev Dom (b : ℝ) := Icc (0 : ℝ) b × Ioc (0 : ℝ) 1

open Classical in
noncomputable def toB (b : ℝ) (f : ℝ → ℝ → ℝ) : Dom b →ᵇ ℝ :=
  if h : ContinuousOn (fun p : ℝ × ℝ => f p.1 p.2) (Icc 0 b ×ˢ Ioc 0 1) ∧ ∃ K, ∀ t ∈ Icc 0 b, ∀ m ∈ Ioc (0 : ℝ) 1, |f t m| ≤ K then
    BoundedContinuousFunction.ofNormedAddCommGroup (fun p : Dom b => f p.1 p.2)
      (h.1.comp_continuous (f := fun p : Dom b => ((p.1 : ℝ), (p.2 : ℝ))) (by fun_prop) fun p => ⟨p.1.2, p.2.2⟩) h.2.choose
      (fun p => h.2.choose_spec _ p.1.2 _ p.2.2)
  else 0

theorem toB_apply {b : ℝ} {f : ℝ → ℝ → ℝ} (h1 : ContinuousOn (fun p : ℝ × ℝ => f p.1 p.2) (Icc 0 b ×ˢ Ioc 0 1))
    (h2 : ∃ K, ∀ t ∈ Icc 0 b, ∀ m ∈ Ioc (0 : ℝ) 1, |f t m| ≤ K) (p : Dom b) : toB b f p = f p.1 p.2 := by
  rw [toB, dif_pos ⟨h1, h2⟩]
  rfl

open Classical in
noncomputable def ofB {b : ℝ} (f : Dom b →ᵇ ℝ) (t m : ℝ) : ℝ :=
  if h : t ∈ Icc 0 b ∧ m ∈ Ioc (0 : ℝ) 1 then f (⟨t, h.1⟩, ⟨m, h.2⟩) else 0

theorem ofB_apply {b : ℝ} (f : Dom b →ᵇ ℝ) {t m : ℝ} (ht : t ∈ Icc 0 b) (hm : m ∈ Ioc (0 : ℝ) 1) : ofB f t m = f (⟨t, ht⟩, ⟨m, hm⟩) := by
  rw [ofB, dif_pos ⟨ht, hm⟩]

theorem ofB_cont {b : ℝ} (f : Dom b →ᵇ ℝ) : ContinuousOn (fun p : ℝ × ℝ => ofB f p.1 p.2) (Icc 0 b ×ˢ Ioc 0 1) := by
  rw [continuousOn_iff_continuous_domRestrict]
  have : (Icc 0 b ×ˢ Ioc (0 : ℝ) 1).domRestrict (fun p : ℝ × ℝ => ofB f p.1 p.2) = fun p => f (⟨p.1.1, p.2.1⟩, ⟨p.1.2, p.2.2⟩) := by
    funext p
    exact ofB_apply f p.2.1 p.2.2
  rw [this]
  exact f.continuous.comp (f := fun p : ↥(Icc 0 b ×ˢ Ioc (0 : ℝ) 1) => (⟨p.1.1, p.2.1⟩, ⟨p.1.2, p.2.2⟩)) (by fun_prop)

/-- The field made of a downward and an upward part. -/
noncomputable def fld {b : ℝ} (F : (Dom b →ᵇ ℝ) × (Dom b →ᵇ ℝ)) (t y : ℝ) : ℝ := if 0 < y then ofB F.2 t y else ofB F.1 t (-y)

theorem fld_pos {b : ℝ} (F : (Dom b →ᵇ ℝ) × (Dom b →ᵇ ℝ)) {t m : ℝ} (ht : t ∈ Icc 0 b) (hm : m ∈ Ioc (0 : ℝ) 1) :
    fld F t m = F.2 (⟨t, ht⟩, ⟨m, hm⟩) := by
  rw [fld, if_pos hm.1, ofB_apply _ ht hm]

theorem fld_neg {b : ℝ} (F : (Dom b →ᵇ ℝ) × (Dom b →ᵇ ℝ)) {t m : ℝ} (ht : t ∈ Icc 0 b) (hm : m ∈ Ioc (0 : ℝ) 1) :
    fld F t (-m) = F.1 (⟨t, ht⟩, ⟨m, hm⟩) := by
  rw [fld, if_neg (by linarith [hm.1]), neg_neg, ofB_apply _ ht hm]

theorem punctured_cases {y : ℝ} (hy : y ∈ Icc (-1 : ℝ) 1 \ {0}) : y ∈ Ioc (0 : ℝ) 1 ∨ ∃ m ∈ Ioc (0 : ℝ) 1, y = -m := by
  rcases lt_or_gt_of_ne (show y ≠ 0 from hy.2) with h | h
  · exact Or.inr ⟨-y, ⟨by linarith, by linarith [hy.1.1]⟩, by ring⟩
  · exact Or.inl ⟨h, hy.1.2⟩

theorem fld_nice (σ : Slab) (F : (Dom σ.b →ᵇ ℝ) × (Dom σ.b →ᵇ ℝ)) : Nice σ.b (max ‖F.1‖ ‖F.2‖) (fld F) := by
  refine ⟨fun t ht y hy => ?_, cont_glue (ofB_cont F.2) (ofB_cont F.1)⟩
  rcases punctured_cases hy with h | ⟨m, hm, rfl⟩
  · rw [fld_pos F ht h]
    exact (F.2.norm_coe_le_norm _).trans (le_max_right _ _)
  · rw [fld_neg F ht hm]
    exact (F.1.norm_coe_le_norm _).trans (le_max_left _ _)

theorem fld_sub_nice (σ : Slab) (F G : (Dom σ.b →ᵇ ℝ) × (Dom σ.b →ᵇ ℝ)) : Nice σ.b (dist F G) (fun t y => fld F t y - fld G t y) := by
  refine (fld_nice σ F).sub (fld_nice σ G) fun t ht y hy => ?_
  rw [Prod.dist_eq]
  rcases punctured_cases hy with h | ⟨m, hm, rfl⟩
  · rw [fld_pos F ht h, fld_pos G ht h]
    exact (BoundedContinuousFunction.dist_coe_le_dist (f := F.2) (g := G.2) _).trans (le_max_right _ _)
  · rw [fld_neg F ht hm, fld_neg G ht hm]
    exact (BoundedContinuousFunction.dist_coe_le_dist (f := F.1) (g := G.1) _).trans (le_max_left _ _)

/-- One step: emit, then solve. -/
noncomputable def Slab.step (σ : Slab) (F : (Dom σ.b →ᵇ ℝ) × (Dom σ.b →ᵇ ℝ)) : (Dom σ.b →ᵇ ℝ) × (Dom σ.b →ᵇ ℝ) :=
  (toB σ.b (σ.solveDown (fld F)), toB σ.b (σ.solveUp (fld F)))

theorem step_contracting (hσ : σ.Valid) : ∃ K, ContractingWith K σ.step := by
  obtain ⟨κ, hκ0, hκ⟩ := hσ.absorbs
  have hK : 0 ≤ max σ.ω (1 - κ) := hσ.ωnonneg.trans (le_max_left _ _)
  refine ⟨⟨max σ.ω (1 - κ), hK⟩, ?_, LipschitzWith.of_dist_le_mul fun F G => ?_⟩
  · exact_mod_cast (max_lt hσ.ωlt (by linarith) : max σ.ω (1 - κ) < 1)
  · have hd := fld_sub_nice σ F G
    have hk0 : 0 ≤ max σ.ω (1 - κ) * dist F G := mul_nonneg hK dist_nonneg
    rw [Prod.dist_eq (x := σ.step F)]
    refine max_le ?_ ?_
    · refine (BoundedContinuousFunction.dist_le hk0).2 fun p => ?_
      simp only [Slab.step]
      rw [toB_apply (solveDown_cont hσ (fld_nice σ F)) (solveDown_bdd hσ (fld_nice σ F)),
        toB_apply (solveDown_cont hσ (fld_nice σ G)) (solveDown_bdd hσ (fld_nice σ G)), Real.dist_eq]
      exact (solveDown_sub hσ (fld_nice σ F) (fld_nice σ G) hd p.1.2 p.2.2).trans (mul_le_mul_of_nonneg_right (le_max_left _ _) dist_nonneg)
    · refine (BoundedContinuousFunction.dist_le hk0).2 fun p => ?_
      simp only [Slab.step]
      rw [toB_apply (solveUp_cont hσ (fld_nice σ F)) (solveUp_bdd hσ (fld_nice σ F)),
        toB_apply (solveUp_cont hσ (fld_nice σ G)) (solveUp_bdd hσ (fld_nice σ G)), Real.dist_eq]
      exact solveUp_sub hσ (fld_nice σ F) (fld_nice σ G) hd hκ p.1.2 p.2.2

theorem step_down (hσ : σ.Valid) {F : (Dom σ.b →ᵇ ℝ) × (Dom σ.b →ᵇ ℝ)} (hF : σ.step F = F) {t m : ℝ} (ht : t ∈ Icc 0 σ.b) (hm : m ∈ Ioc (0 : ℝ) 1) :
    fld F t (-m) = σ.solveDown (fld F) t m := by
  rw [fld_neg F ht hm]
  conv_lhs => rw [← hF]
  exact toB_apply (solveDown_cont hσ (fld_nice σ F)) (solveDown_bdd hσ (fld_nice σ F)) _

theorem step_up (hσ : σ.Valid) {F : (Dom σ.b →ᵇ ℝ) × (Dom σ.b →ᵇ ℝ)} (hF : σ.step F = F) {t m : ℝ} (ht : t ∈ Icc 0 σ.b) (hm : m ∈ Ioc (0 : ℝ) 1) :
    fld F t m = σ.solveUp (fld F) t m := by
  rw [fld_pos F ht hm]
  conv_lhs => rw [← hF]
  exact toB_apply (solveUp_cont hσ (fld_nice σ F)) (solveUp_bdd hσ (fld_nice σ F)) _

theorem S_open (hσ : σ.Valid) : IsOpen σ.S := isOpen_away hσ.col.fin σ.b

/-- A fixed point solves the equation. -/
theorem fixed_solves (hσ : σ.Valid) {F : (Dom σ.b →ᵇ ℝ) × (Dom σ.b →ᵇ ℝ)} (hF : σ.step F = F) : σ.Solves (fld F) := by
  have hN := fld_nice σ F
  have h0 : (0 : ℝ) ∈ Icc 0 σ.b := ⟨le_rfl, hσ.col.pos.le⟩
  have hb : σ.b ∈ Icc 0 σ.b := ⟨hσ.col.pos.le, le_rfl⟩
  refine ⟨⟨_, hN⟩, fun t ht y hy => ?_, fun m hm => ?_, fun m hm => ?_⟩
  · rcases punctured_cases hy with hm | ⟨m, hm, rfl⟩
    · have ht' : σ.b - (σ.b - t) ∈ σ.S := by rwa [sub_sub_cancel]
      have d1 := formal_deriv (g := fun m => σ.up m + Spec.reflectExact σ.rho (fld F σ.b) m) (column_up hσ) (emission_up hσ hN) hm (mem_up ht')
      have d2 : HasDerivAt (fun s => σ.b - s) (-1) t := by simpa using (hasDerivAt_id t).const_sub σ.b
      have d3 := d1.comp t d2
      have hev : (fun x => fld F x y) =ᶠ[𝓝 t] fun x => σ.solveUp (fld F) x y := by
        filter_upwards [(S_open hσ).mem_nhds ht] with x hx
        exact step_up hσ hF (σ.S_sub hx) hm
      refine ⟨_, d3.congr_of_eventuallyEq hev, ?_⟩
      have e := step_up hσ hF (σ.S_sub ht) hm
      unfold Slab.solveUp at e
      rw [← e]
      simp only [Slab.emis, if_pos ht', sub_sub_cancel]
      have := hm.1.ne'
      field_simp
      ring
    · have d1 := formal_deriv (g := σ.down) hσ.col (emission_down hσ hN) hm ht
      have hev : (fun x => fld F x (-m)) =ᶠ[𝓝 t] fun x => σ.solveDown (fld F) x m := by
        filter_upwards [(S_open hσ).mem_nhds ht] with x hx
        exact step_down hσ hF (σ.S_sub hx) hm
      refine ⟨_, d1.congr_of_eventuallyEq hev, ?_⟩
      have e := step_down hσ hF (σ.S_sub ht) hm
      unfold Slab.solveDown at e
      rw [← e]
      simp only [Slab.emis, if_pos ht]
      have := hm.1.ne'
      field_simp
      ring
  · rw [step_down hσ hF h0 hm]
    exact formal_zero _ _ _ _
  · rw [step_up hσ hF hb hm]
    unfold Slab.solveUp
    rw [sub_self]
    exact formal_zero _ _ _ _

theorem emis_congr (hσ : σ.Valid) {v v' : ℝ → ℝ → ℝ} (h : ∀ t ∈ Icc 0 σ.b, ∀ y ∈ Icc (-1 : ℝ) 1 \ {0}, v t y = v' t y) : σ.emis v = σ.emis v' := by
  funext s y
  unfold Slab.emis
  split_ifs with hs
  · congr 2
    refine intervalIntegral.integral_congr_ae (ae_punctured.mono fun z hz hz' => ?_)
    rw [h s (σ.S_sub hs) z (hz hz')]
  · rfl

/-- A solution is a fixed point. -/
theorem solves_fixed (hσ : σ.Valid) (hv : σ.Solves v) :
    ∃ F, σ.step F = F ∧ ∀ t ∈ Icc 0 σ.b, ∀ y ∈ Icc (-1 : ℝ) 1 \ {0}, v t y = fld F t y := by
  obtain ⟨M, hN⟩ := hv.nice
  have h0 : (0 : ℝ) ∈ Icc 0 σ.b := ⟨le_rfl, hσ.col.pos.le⟩
  have hb : σ.b ∈ Icc 0 σ.b := ⟨hσ.col.pos.le, le_rfl⟩
  have c1 : ContinuousOn (fun p : ℝ × ℝ => v p.1 (-p.2)) (Icc 0 σ.b ×ˢ Ioc 0 1) :=
    hN.cont.comp (f := fun p : ℝ × ℝ => (p.1, -p.2)) (by fun_prop) fun p hp => ⟨hp.1, neg_mem_punctured hp.2⟩
  have c2 : ContinuousOn (fun p : ℝ × ℝ => v p.1 p.2) (Icc 0 σ.b ×ˢ Ioc 0 1) := hN.cont.mono fun p hp => ⟨hp.1, pos_mem_punctured hp.2⟩
  have b1 : ∃ K, ∀ t ∈ Icc 0 σ.b, ∀ m ∈ Ioc (0 : ℝ) 1, |v t (-m)| ≤ K := ⟨M, fun t ht m hm => hN.bdd t ht _ (neg_mem_punctured hm)⟩
  have b2 : ∃ K, ∀ t ∈ Icc 0 σ.b, ∀ m ∈ Ioc (0 : ℝ) 1, |v t m| ≤ K := ⟨M, fun t ht m hm => hN.bdd t ht _ (pos_mem_punctured hm)⟩
  let F : (Dom σ.b →ᵇ ℝ) × (Dom σ.b →ᵇ ℝ) := (toB σ.b (fun t m => v t (-m)), toB σ.b v)
  have hF : ∀ t ∈ Icc 0 σ.b, ∀ y ∈ Icc (-1 : ℝ) 1 \ {0}, v t y = fld F t y := by
    intro t ht y hy
    rcases punctured_cases hy with hm | ⟨m, hm, rfl⟩
    · rw [fld_pos F ht hm]
      exact (toB_apply (f := v) c2 b2 (⟨t, ht⟩, ⟨y, hm⟩)).symm
    · rw [fld_neg F ht hm]
      exact (toB_apply (f := fun t m => v t (-m)) c1 b1 (⟨t, ht⟩, ⟨m, hm⟩)).symm
  have hem := emis_congr hσ hF
  have hrf : ∀ m, Spec.reflectExact σ.rho (v σ.b) m = Spec.reflectExact σ.rho (fld F σ.b) m := by
    intro m
    unfold Spec.reflectExact
    congr 1
    refine intervalIntegral.integral_congr_ae (ae_unit.mono fun z hz hz' => ?_)
    rw [hF σ.b hb _ (neg_mem_punctured (hz hz'))]
  have e1 : ∀ t ∈ Icc 0 σ.b, ∀ m ∈ Ioc (0 : ℝ) 1, v t (-m) = σ.solveDown (fld F) t m := by
    intro t ht m hm
    unfold Slab.solveDown
    refine formal_unique (f := fun t => v t (-m)) hσ.col (emission_down hσ (fld_nice σ F)) hm ?_ (hv.top m hm) (fun s hs => ?_) ht
    · exact hN.cont.comp (f := fun t => (t, -m)) (by fun_prop) fun t ht => ⟨ht, neg_mem_punctured hm⟩
    · obtain ⟨d, hd, he⟩ := hv.ode s hs _ (neg_mem_punctured hm)
      refine hd.congr_deriv ?_
      rw [← hem]
      have hs' : s ∈ σ.S := hs
      simp only [Slab.emis, if_pos hs']
      rw [eq_div_iff hm.1.ne']
      linarith
  have e2 : ∀ t ∈ Icc 0 σ.b, ∀ m ∈ Ioc (0 : ℝ) 1, v t m = σ.solveUp (fld F) t m := by
    intro t ht m hm
    unfold Slab.solveUp
    have := formal_unique (f := fun t => v (σ.b - t) m) (g := fun m => σ.up m + Spec.reflectExact σ.rho (fld F σ.b) m) (column_up hσ)
      (emission_up hσ (fld_nice σ F)) hm ?_ ?_ (fun s hs => ?_) (flip_mem ht)
    · simpa using this
    · exact hN.cont.comp (f := fun t => (σ.b - t, m)) (by fun_prop) fun t ht => ⟨flip_mem ht, pos_mem_punctured hm⟩
    · simp only [sub_zero]
      rw [hv.bot m hm, hrf]
    · have hs' : σ.b - s ∈ σ.S := ⟨⟨by linarith [hs.1.2], by linarith [hs.1.1]⟩, hs.2⟩
      obtain ⟨d, hd, he⟩ := hv.ode _ hs' _ (pos_mem_punctured hm)
      have d2 : HasDerivAt (fun s => σ.b - s) (-1) s := by simpa using (hasDerivAt_id s).const_sub σ.b
      refine (hd.comp s d2).congr_deriv ?_
      rw [← hem]
      simp only [Slab.emis, if_pos hs']
      rw [eq_div_iff hm.1.ne']
      linarith
  refine ⟨F, Prod.ext ?_ ?_, hF⟩
  · ext p
    have := toB_apply (solveDown_cont hσ (fld_nice σ F)) (solveDown_bdd hσ (fld_nice σ F)) p
    refine this.trans ?_
    rw [← e1 _ p.1.2 _ p.2.2]
    exact (toB_apply (f := fun t m => v t (-m)) c1 b1 p).symm
  · ext p
    have := toB_apply (solveUp_cont hσ (fld_nice σ F)) (solveUp_bdd hσ (fld_nice σ F)) p
    refine this.trans ?_
    rw [← e2 _ p.1.2 _ p.2.2]
    exact (toB_apply (f := v) c2 b2 p).symm

theorem slab_exists (hσ : σ.Valid) : ∃ v, σ.Solves v := by
  obtain ⟨K, hK⟩ := step_contracting hσ
  exact ⟨_, fixed_solves hσ hK.fixedPoint_isFixedPt⟩

theorem slab_unique (hσ : σ.Valid) (hv : σ.Solves v) (hv' : σ.Solves v') {t : ℝ} (ht : t ∈ Icc 0 σ.b) {y : ℝ} (hy : y ∈ Icc (-1 : ℝ) 1 \ {0}) :
    v t y = v' t y := by
  obtain ⟨K, hK⟩ := step_contracting hσ
  obtain ⟨F, hF, h1⟩ := solves_fixed hσ hv
  obtain ⟨G, hG, h2⟩ := solves_fixed hσ hv'
  rw [h1 t ht y hy, h2 t ht y hy, hK.fixedPoint_unique hF, hK.fixedPoint_unique hG]

end

end Pydisort

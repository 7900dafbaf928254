import Verif.WholeLemmas

/-!
# The transfer equation with the whole phase function, in all directions, as transport of light
-/

namespace Pydisort
open Finset Spec MeasureTheory Topology

section
variable {a : Args} {g : ℕ → ℕ → ℝ} {rho : ℕ → ℝ → ℝ → ℝ} {up down : ℝ → ℝ} {w w' v v' : ℝ → ℝ → ℝ → ℝ} {M M' : ℝ}

/-- `continuousOn_layered` for functions that are continuous inside the atmosphere only. -/
theorem continuousOn_layered_in (h : Accepted a) {β : Type*} [TopologicalSpace β] {f : ℕ → ℝ × β → ℝ} {B : Set β}
    (hf : ∀ l < a.tauArr.n, ContinuousOn (f l) (Set.Icc 0 (bottom a) ×ˢ B)) :
    ContinuousOn (fun p : ℝ × β => f (layOf a p.1) p) ((Set.Ioo 0 (bottom a) \ breaks a) ×ˢ B) := by
  intro p hp
  have h1 := (hf (layOf a p.1) (inside_of_away h hp.1).1 p ⟨Set.Ioo_subset_Icc_self hp.1.1, hp.2⟩).mono (s := (Set.Ioo 0 (bottom a) \ breaks a) ×ˢ B)
    fun q hq => ⟨Set.Ioo_subset_Icc_self hq.1.1, hq.2⟩
  refine h1.congr_of_eventuallyEq ?_ rfl
  have h2 := (continuous_fst.continuousAt (x := p)).eventually (layOf_eventually h hp.1)
  filter_upwards [nhdsWithin_le_nhds h2] with q hq
  rw [hq]

/-- What layer `l` emits at depth `s` when lit by the field `v`. -/
noncomputable def wholeEmis (a : Args) (g : ℕ → ℕ → ℝ) (l : ℕ) (v : ℝ → ℝ → ℝ → ℝ) (s y ph : ℝ) : ℝ :=
  a.omega.get l / (4 * Real.pi) * wholeScatter (g l) (v s) y ph
    + (a.omega.get l * a.I0 / (4 * Real.pi) * wholePhase (g l) (cosAngle y ph (-a.mu0) a.phi0) * Real.exp (-s / a.mu0) + (1 - a.omega.get l) * source a l s)

open Classical in
noncomputable def wholeTransport (a : Args) (g : ℕ → ℕ → ℝ) (rho : ℕ → ℝ → ℝ → ℝ) (up down : ℝ → ℝ) (q : ℝ) : Transport where
  b := bottom a
  P := breaks a
  c := fun _ => 1
  T := fun t => t
  emis := fun v s y ph => if s ∈ Set.Ioo 0 (bottom a) \ breaks a then wholeEmis a g (layOf a s) v s y ph else 0
  refl := fun v m ph => up m + wholeReflect a rho (v (bottom a)) m ph
  down := fun m _ => down m
  q := q

theorem NiceSky.field {b : ℝ} (h : NiceSky b M v) {s : ℝ} (hs : s ∈ Set.Icc 0 b) : GoodField (-1) 1 M (v s) :=
  ⟨h.cont.comp (f := fun p : ℝ × ℝ => (s, p.1, p.2)) (by fun_prop) fun p hp => ⟨hs, hp.1, trivial⟩, fun z hz ph => h.bdd s hs z hz ph⟩

theorem flip_punctured {z : ℝ} (hz : z ∈ Set.Icc (0 : ℝ) 1 \ {0}) : -z ∈ Set.Icc (-1 : ℝ) 1 \ {0} :=
  neg_mem_punctured ⟨lt_of_le_of_ne hz.1.1 fun e => hz.2 e.symm, hz.1.2⟩

theorem GoodField.flip {f : ℝ → ℝ → ℝ} (h : GoodField (-1) 1 M f) : GoodField 0 1 M (fun z => f (-z)) :=
  ⟨h.cont.comp (f := fun p : ℝ × ℝ => (-p.1, p.2)) (by fun_prop) fun p hp => ⟨flip_punctured hp.1, trivial⟩, fun z hz ph => h.bdd _ (flip_punctured hz) ph⟩

theorem whole_scatter_lip (hacc : Accepted a) (hg : ∀ l < a.tauArr.n, PhaseSeries (g l)) (hpos : NonnegWhole a g) {l : ℕ} (hl : l < a.tauArr.n) {f f' : ℝ → ℝ → ℝ}
    (hf : GoodField (-1) 1 M f) (hf' : GoodField (-1) 1 M' f') {k : ℝ} (hk : ∀ z ∈ Set.Icc (-1 : ℝ) 1 \ {0}, ∀ ph, |f z ph - f' z ph| ≤ k) {y : ℝ}
    (hy : y ∈ Set.Icc (-1 : ℝ) 1) (ph : ℝ) :
    |a.omega.get l / (4 * Real.pi) * wholeScatter (g l) f y ph - a.omega.get l / (4 * Real.pi) * wholeScatter (g l) f' y ph| ≤ a.omega.get l * k := by
  have hpi := Real.pi_pos
  have ho := (hacc.omega l hl).1
  have h1 := kint_sub (whole_kernel (hg l hl) (hpos l hl)) hf hf' hk hy ph
  rw [whole_mass (hg l hl) hy] at h1
  rw [← mul_sub, abs_mul, abs_of_nonneg (by positivity), wholeScatter_eq]
  calc _ ≤ a.omega.get l / (4 * Real.pi) * (k * (4 * Real.pi)) := mul_le_mul_of_nonneg_left h1 (by positivity)
    _ = a.omega.get l * k := by field_simp

theorem whole_reflect_lip (hr : AbsorbingBDRF a rho) {κ : ℝ}
    (hκ : ∀ x ∈ Set.Icc (0 : ℝ) 1, 1 / Real.pi * (∫ z in (0 : ℝ)..1, z * ∫ ph' in (0 : ℝ)..(2 * Real.pi), bdrfOf a rho x z (0 - ph')) ≤ 1 - κ) {f f' : ℝ → ℝ → ℝ}
    (hf : GoodField (-1) 1 M f) (hf' : GoodField (-1) 1 M' f') {k : ℝ} (hk0 : 0 ≤ k) (hk : ∀ z ∈ Set.Icc (-1 : ℝ) 1 \ {0}, ∀ ph, |f z ph - f' z ph| ≤ k) {y : ℝ}
    (hy : y ∈ Set.Icc (0 : ℝ) 1) (ph : ℝ) : |wholeReflect a rho f y ph - wholeReflect a rho f' y ph| ≤ (1 - κ) * k := by
  have hpi := Real.pi_pos
  have h1 := kint_sub (bdrf_kernel hr) hf.flip hf'.flip (fun z hz p => hk _ (flip_punctured hz) p) hy ph
  have h2 := bdrf_mass hκ hy ph
  rw [wholeReflect_eq, wholeReflect_eq, add_sub_add_right_eq_sub, ← mul_sub, abs_mul, abs_of_nonneg (by positivity)]
  have h4 := mul_le_mul_of_nonneg_left h1 (show 0 ≤ 1 / Real.pi by positivity)
  have h5 := mul_le_mul_of_nonneg_left h2 hk0
  linarith

theorem whole_src_cont (hacc : Accepted a) {l : ℕ} (hg : PhaseSeries (g l)) : ContinuousOn (fun p : ℝ × ℝ × ℝ =>
    a.omega.get l * a.I0 / (4 * Real.pi) * wholePhase (g l) (cosAngle p.2.1 p.2.2 (-a.mu0) a.phi0) * Real.exp (-p.1 / a.mu0) + (1 - a.omega.get l) * source a l p.1)
    (Set.univ ×ˢ Set.Icc (-1) 1 ×ˢ Set.univ) := by
  have h2 := (continuous_source a l).comp (continuous_fst (X := ℝ) (Y := ℝ × ℝ))
  refine ContinuousOn.add ?_ (continuous_const.mul h2).continuousOn
  rcases hacc.beam.eq_or_lt with h0 | h0
  · simp only [← h0, mul_zero, zero_div, zero_mul]
    exact continuousOn_const
  · have hb := (hacc.beamDir h0).1
    have hm : -a.mu0 ∈ Set.Icc (-1 : ℝ) 1 := ⟨by linarith, by linarith⟩
    refine (continuousOn_const.mul ((wholePhase_cont hg).comp (f := fun p : ℝ × ℝ × ℝ => cosAngle p.2.1 p.2.2 (-a.mu0) a.phi0) ?_ fun p hp => cosAngle_mem hp.2.1 hm _ _)).mul
      (Continuous.continuousOn (by fun_prop))
    exact (cosAngle_cont.comp (f := fun p : ℝ × ℝ × ℝ => (p.2.1, p.2.2, -a.mu0, a.phi0)) (by fun_prop)).continuousOn

theorem whole_src_bdd (hacc : Accepted a) {l : ℕ} (hg : PhaseSeries (g l)) : ∃ K, ∀ s ∈ Set.Icc 0 (bottom a), ∀ y ∈ Set.Icc (-1 : ℝ) 1, ∀ ph,
    |a.omega.get l * a.I0 / (4 * Real.pi) * wholePhase (g l) (cosAngle y ph (-a.mu0) a.phi0) * Real.exp (-s / a.mu0) + (1 - a.omega.get l) * source a l s| ≤ K := by
  obtain ⟨K, hK⟩ := isCompact_Icc.exists_bound_of_continuousOn (s := Set.Icc 0 (bottom a)) (continuous_source a l).continuousOn
  refine ⟨|a.omega.get l * a.I0 / (4 * Real.pi)| * (∑' k : ℕ, (2 * (k : ℝ) + 1) * |g l k|) + |1 - a.omega.get l| * K, fun s hs y hy ph => (abs_add_le _ _).trans (add_le_add ?_ ?_)⟩
  · rcases hacc.beam.eq_or_lt with h0 | h0
    · rw [← h0]
      simp
    · have hb := (hacc.beamDir h0).1
      have hm : -a.mu0 ∈ Set.Icc (-1 : ℝ) 1 := ⟨by linarith, by linarith⟩
      have h1 := abs_wholePhase_le hg (cosAngle_mem hy hm ph a.phi0)
      have h2 : Real.exp (-s / a.mu0) ≤ 1 := Real.exp_le_one_iff.2 (div_nonpos_of_nonpos_of_nonneg (by linarith [hs.1]) hb.1.le)
      rw [abs_mul, abs_mul, abs_of_pos (Real.exp_pos _)]
      have h3 := mul_le_mul_of_nonneg_left h1 (abs_nonneg (a.omega.get l * a.I0 / (4 * Real.pi)))
      exact (mul_le_of_le_one_right (by positivity) h2).trans h3
  · rw [abs_mul]
    exact mul_le_mul_of_nonneg_left (hK s hs) (abs_nonneg _)

theorem wholeTransport_valid (hacc : Accepted a) (hg : ∀ l < a.tauArr.n, PhaseSeries (g l)) (hpos : NonnegWhole a g) (hr : AbsorbingBDRF a rho) (hup : Tame up) (hdown : Tame down) :
    ∃ q, (wholeTransport a g rho up down q).Valid := by
  classical
  obtain ⟨l₀, hl₀, hmax⟩ := exists_max_image (range a.tauArr.n) a.omega.get ⟨0, mem_range.2 hacc.layers⟩
  have hom := hacc.omega l₀ (mem_range.1 hl₀)
  have hin := layOf_lt hacc
  obtain ⟨κ, hκ, hab⟩ := hr.absorbs
  have hb0 := (bottom_pos hacc).le
  have hbm : bottom a ∈ Set.Icc 0 (bottom a) := ⟨hb0, le_rfl⟩
  set q := max (a.omega.get l₀) (1 - κ) with hq
  have hq0 : 0 ≤ q := hom.1.trans (le_max_left _ _)
  have hq1 : q < 1 := max_lt hom.2 (by linarith)
  refine ⟨q, ?_⟩
  have hS : (wholeTransport a g rho up down q).S = Set.Ioo 0 (bottom a) \ breaks a := rfl
  have hdir : ContinuousOn (fun p : ℝ × ℝ => a.mu0 * a.I0 / Real.pi * bdrfOf a rho p.1 a.mu0 (p.2 - a.phi0) * Real.exp (-bottom a / a.mu0)) (Set.Icc 0 1 ×ˢ Set.univ) := by
    rcases hacc.beam.eq_or_lt with h0 | h0
    · simp only [← h0, mul_zero, zero_div, zero_mul]
      exact continuousOn_const
    · have hb := (hacc.beamDir h0).1
      refine (continuousOn_const.mul ?_).mul continuousOn_const
      unfold bdrfOf
      refine continuousOn_finset_sum _ fun m hm => ContinuousOn.mul ?_ (by fun_prop)
      exact (hr.cont m (mem_range.1 hm)).comp (f := fun p : ℝ × ℝ => (p.1, a.mu0)) (by fun_prop) fun p hp => ⟨hp.1, hb.1.le, hb.2⟩
  constructor
  · exact ⟨bottom_pos hacc, (Set.finite_Iic _).image _, fun _ => zero_le_one, ⟨1, fun _ => le_rfl⟩, continuousOn_const, continuousOn_id, fun s _ => hasDerivAt_id s⟩
  · intro v s hs y x
    exact if_neg hs
  · intro v M hv
    have hv' : NiceSky (bottom a) M v := hv
    have h1 : ContinuousOn (fun p : ℝ × ℝ × ℝ => wholeEmis a g (layOf a p.1) v p.1 p.2.1 p.2.2) ((Set.Ioo 0 (bottom a) \ breaks a) ×ˢ Set.Icc (-1) 1 ×ˢ Set.univ) := by
      refine continuousOn_layered_in (f := fun l (p : ℝ × ℝ × ℝ) => wholeEmis a g l v p.1 p.2.1 p.2.2) hacc fun l hl => ?_
      unfold wholeEmis
      refine ContinuousOn.add (continuousOn_const.mul ?_) ((whole_src_cont hacc (hg l hl)).mono fun p hp => ⟨trivial, hp.2⟩)
      exact kint_cont (whole_kernel (hg l hl) (hpos l hl)) hv'.cont (hv'.nonneg hb0) hv'.bdd
    refine h1.congr fun p hp => ?_
    exact if_pos hp.1
  · intro v M hv
    have hv' : NiceSky (bottom a) M v := hv
    have hM0 := hv'.nonneg hb0
    have : ∀ l, ∃ K, l < a.tauArr.n → ∀ s ∈ Set.Icc 0 (bottom a), ∀ y ∈ Set.Icc (-1 : ℝ) 1, ∀ ph,
        |a.omega.get l * a.I0 / (4 * Real.pi) * wholePhase (g l) (cosAngle y ph (-a.mu0) a.phi0) * Real.exp (-s / a.mu0) + (1 - a.omega.get l) * source a l s| ≤ K := fun l => by
      by_cases hl : l < a.tauArr.n
      · obtain ⟨K, hK⟩ := whole_src_bdd hacc (hg l hl)
        exact ⟨K, fun _ => hK⟩
      · exact ⟨0, fun h => absurd h hl⟩
    choose K hK using this
    obtain ⟨Q, hQ0, hQ⟩ := exists_layer_bound K a.tauArr.n
    refine ⟨M + Q, add_nonneg hM0 hQ0, fun s y hy x => ?_⟩
    simp only [wholeTransport, mul_one]
    split_ifs with hs
    · have hsb := Set.Ioo_subset_Icc_self hs.1
      have h0 : GoodField (-1) 1 0 (fun _ _ => 0) := ⟨continuousOn_const, fun _ _ _ => by simp⟩
      have h1 := whole_scatter_lip hacc hg hpos (hin s) (hv'.field hsb) h0 (k := M) (fun z hz ph => by rw [sub_zero]; exact hv'.bdd s hsb z hz ph) hy x
      have e0 : wholeScatter (g (layOf a s)) (fun _ _ => 0) y x = 0 := by simp [wholeScatter]
      rw [e0, mul_zero, sub_zero] at h1
      have ho := hacc.omega _ (hin s)
      unfold wholeEmis
      refine (abs_add_le _ _).trans (add_le_add (h1.trans (mul_le_of_le_one_left hM0 ho.2.le)) ?_)
      exact (hK _ (hin s) s hsb y hy x).trans (hQ _ (hin s))
    · rw [abs_zero]
      exact add_nonneg hM0 hQ0
  · intro v M v' M' k hv hv' hk s y hy x
    have hk' : NiceSky (bottom a) k (fun t y x => v t y x - v' t y x) := hk
    have hk0 := hk'.nonneg hb0
    simp only [wholeTransport, mul_one]
    split_ifs with hs
    · have hsb := Set.Ioo_subset_Icc_self hs.1
      unfold wholeEmis
      rw [add_sub_add_right_eq_sub]
      refine (whole_scatter_lip hacc hg hpos (hin s) (NiceSky.field hv hsb) (NiceSky.field hv' hsb) (k := k) (fun z hz ph => hk'.bdd s hsb z hz ph) hy x).trans ?_
      exact mul_le_mul_of_nonneg_right ((hmax _ (mem_range.2 (hin s))).trans (le_max_left _ _)) hk0
    · rw [sub_self, abs_zero]
      exact mul_nonneg hq0 hk0
  · intro v M hv
    have hv' : NiceSky (bottom a) M v := hv
    simp only [wholeTransport, wholeReflect_eq]
    refine (hup.cont.comp continuousOn_fst fun p hp => hp.1).add (ContinuousOn.add (continuousOn_const.mul ?_)
      (hdir.mono fun p hp => ⟨Set.Ioc_subset_Icc_self hp.1, trivial⟩))
    have hf := (hv'.field hbm).flip
    have := kint_cont (bdrf_kernel hr) (X := Unit) (A := Set.univ) (M := M) (f := fun _ z => v (bottom a) (-z)) (hf.cont.comp continuousOn_snd fun p hp => hp.2)
      (hv'.nonneg hb0) fun _ _ => hf.bdd
    exact this.comp (f := fun p : ℝ × ℝ => ((), p.1, p.2)) (by fun_prop) fun p hp => ⟨trivial, Set.Ioc_subset_Icc_self hp.1, trivial⟩
  · intro v M hv
    have hv' : NiceSky (bottom a) M v := hv
    have hM0 := hv'.nonneg hb0
    obtain ⟨U, hU⟩ := hup.bdd
    have h0 : GoodField (-1) 1 0 (fun _ _ => 0) := ⟨continuousOn_const, fun _ _ _ => by simp⟩
    obtain ⟨B, hB⟩ : ∃ B, ∀ y ∈ Set.Icc (0 : ℝ) 1, ∀ ph, |a.mu0 * a.I0 / Real.pi * bdrfOf a rho y a.mu0 (ph - a.phi0) * Real.exp (-bottom a / a.mu0)| ≤ B := by
      obtain ⟨K, hK⟩ := (isCompact_Icc.prod isCompact_Icc : IsCompact (Set.Icc (0 : ℝ) 1 ×ˢ Set.Icc 0 (2 * Real.pi))).exists_bound_of_continuousOn
        (hdir.mono fun p hp => ⟨hp.1, trivial⟩)
      refine ⟨K, fun y hy ph => ?_⟩
      obtain ⟨ph₀, hph₀, n, hn⟩ : ∃ ph₀ ∈ Set.Icc (0 : ℝ) (2 * Real.pi), ∃ n : ℤ, ph = ph₀ + n * (2 * Real.pi) := by
        have hp : (0 : ℝ) < 2 * Real.pi := by positivity
        refine ⟨toIcoMod hp 0 ph, ?_, toIcoDiv hp 0 ph, ?_⟩
        · have := toIcoMod_mem_Ico hp 0 ph
          rw [zero_add] at this
          exact Set.Ico_subset_Icc_self this
        · rw [← zsmul_eq_mul, toIcoMod_add_toIcoDiv_zsmul]
      have h1 := hK (y, ph₀) ⟨hy, hph₀⟩
      have e : bdrfOf a rho y a.mu0 (ph - a.phi0) = bdrfOf a rho y a.mu0 (ph₀ - a.phi0) := by
        unfold bdrfOf
        refine sum_congr rfl fun m _ => ?_
        congr 1
        rw [hn, show (m : ℝ) * (ph₀ + n * (2 * Real.pi) - a.phi0) = m * (ph₀ - a.phi0) + ((m * n : ℤ) : ℝ) * (2 * Real.pi) by push_cast; ring]
        exact Real.cos_add_int_mul_two_pi _ _
      rw [e]
      exact h1
    refine ⟨U + (M + B), fun m hm x => ?_⟩
    have hmI := Set.Ioc_subset_Icc_self hm
    have h1 := whole_reflect_lip hr hab (hv'.field hbm) h0 hM0 (fun z hz ph => by rw [sub_zero]; exact hv'.bdd _ hbm z hz ph) hmI x
    have e0 : wholeReflect a rho (fun _ _ => 0) m x = a.mu0 * a.I0 / Real.pi * bdrfOf a rho m a.mu0 (x - a.phi0) * Real.exp (-bottom a / a.mu0) := by
      simp [wholeReflect]
    rw [e0] at h1
    have h2 : (1 - κ) * M ≤ M := mul_le_of_le_one_left hM0 (by linarith)
    have h3 := hB m hmI x
    have h4 := abs_sub_abs_le_abs_sub (wholeReflect a rho (v (bottom a)) m x) (a.mu0 * a.I0 / Real.pi * bdrfOf a rho m a.mu0 (x - a.phi0) * Real.exp (-bottom a / a.mu0))
    exact (abs_add_le _ _).trans (add_le_add (hU m hm) (by linarith))
  · intro v M v' M' k hv hv' hk m hm x
    have hk' : NiceSky (bottom a) k (fun t y x => v t y x - v' t y x) := hk
    have hk0 := hk'.nonneg hb0
    simp only [wholeTransport]
    rw [add_sub_add_left_eq_sub]
    refine (whole_reflect_lip hr hab (NiceSky.field hv hbm) (NiceSky.field hv' hbm) hk0 (fun z hz ph => hk'.bdd _ hbm z hz ph) (Set.Ioc_subset_Icc_self hm) x).trans ?_
    exact mul_le_mul_of_nonneg_right (le_max_right _ _) hk0
  · exact hdown.cont.comp continuousOn_fst fun p hp => hp.1
  · obtain ⟨D, hD⟩ := hdown.bdd
    exact ⟨D, fun m hm _ => hD m hm⟩
  · exact hq0
  · exact hq1

theorem whole_exists (hacc : Accepted a) (hg : ∀ l < a.tauArr.n, PhaseSeries (g l)) (hpos : NonnegWhole a g) (hr : AbsorbingBDRF a rho) (hup : Tame up) (hdown : Tame down) :
    ∃ w, WholeSolution a g rho up down w := by
  classical
  obtain ⟨q, hσ⟩ := wholeTransport_valid hacc hg hpos hr hup hdown
  obtain ⟨v, ⟨M, hN⟩, hv⟩ := transport_exists hσ
  obtain ⟨h1, h2, h3⟩ := transport_ode hσ hN hv
  refine ⟨v, ⟨M, fun t ht y hy hy0 ph => hN.bdd t ht y ⟨hy, hy0⟩ ph⟩, hN.cont, fun t ht y hy hy0 ph => ?_, ?_, h2, h3⟩
  · have hcos : ∀ y z p, cosAngle y (ph + 2 * Real.pi) z p = cosAngle y ph z p := fun y z p => by
      unfold cosAngle
      rw [show ph + 2 * Real.pi - p = ph - p + 2 * Real.pi by ring, Real.cos_add_two_pi]
    refine transport_periodic hv (p := 2 * Real.pi) ?_ ?_ (fun _ _ => rfl) ht ⟨hy, hy0⟩ ph
    · intro s y x
      have hcos : ∀ z p, cosAngle y (x + 2 * Real.pi) z p = cosAngle y x z p := fun z p => by
        unfold cosAngle
        rw [show x + 2 * Real.pi - p = x - p + 2 * Real.pi by ring, Real.cos_add_two_pi]
      simp only [wholeTransport, wholeEmis, wholeScatter, hcos]
    · intro m x
      have hb : ∀ z p, bdrfOf a rho m z (x + 2 * Real.pi - p) = bdrfOf a rho m z (x - p) := fun z p => by
        unfold bdrfOf
        refine sum_congr rfl fun n _ => ?_
        congr 1
        rw [show (n : ℝ) * (x + 2 * Real.pi - p) = n * (x - p) + (n : ℕ) * (2 * Real.pi) by ring, Real.cos_add_nat_mul_two_pi]
      simp only [wholeTransport, wholeReflect, hb]
  · intro l hl t ht0 ht1 y hy hy0 ph
    have hta := away_of_inside hacc hl ht0 ht1
    obtain ⟨d, hd, he⟩ := h1 t hta y ⟨hy, hy0⟩ ph
    refine ⟨d, hd, he.trans ?_⟩
    simp only [wholeTransport, if_pos hta, layOf_inside hacc hl ht0 ht1, wholeEmis, wholeRHS]
    ring

theorem WholeSolution.field (hw : WholeSolution a g rho up down w) : ∃ M, NiceSky (bottom a) M w := by
  obtain ⟨M, hM⟩ := hw.bounded
  exact ⟨M, fun t ht y hy ph => hM t ht y hy.1 hy.2 ph, hw.cont⟩

theorem whole_unique (hacc : Accepted a) (hg : ∀ l < a.tauArr.n, PhaseSeries (g l)) (hpos : NonnegWhole a g) (hr : AbsorbingBDRF a rho)
    (hw : WholeSolution a g rho up down w) (hw' : WholeSolution a g rho up down w') :
    ∀ t ∈ Set.Icc 0 (bottom a), ∀ y ∈ Set.Icc (-1 : ℝ) 1, y ≠ 0 → ∀ ph, w t y ph = w' t y ph := by
  obtain ⟨l₀, hl₀, hmax⟩ := exists_max_image (range a.tauArr.n) a.omega.get ⟨0, mem_range.2 hacc.layers⟩
  have hom := hacc.omega l₀ (mem_range.1 hl₀)
  obtain ⟨κ, hκ, hab⟩ := hr.absorbs
  obtain ⟨M, hM⟩ := WholeSolution.field hw
  obtain ⟨M', hM'⟩ := WholeSolution.field hw'
  have hb0 := (bottom_pos hacc).le
  have hbm : bottom a ∈ Set.Icc 0 (bottom a) := ⟨hb0, le_rfl⟩
  set q := max (a.omega.get l₀) (1 - κ) with hq
  have hq0 : 0 ≤ q := hom.1.trans (le_max_left _ _)
  have hq1 : q < 1 := max_lt hom.2 (by linarith)
  have hMM : 0 ≤ M + M' := add_nonneg (hM.nonneg hb0) (hM'.nonneg hb0)
  have main : ∀ n : ℕ, ∀ t ∈ Set.Icc 0 (bottom a), ∀ y ∈ Set.Icc (-1 : ℝ) 1 \ {0}, ∀ ph, |w t y ph - w' t y ph| ≤ q ^ n * (M + M') := by
    intro n
    induction n with
    | zero =>
      intro t ht y hy ph
      rw [pow_zero, one_mul]
      exact (abs_sub _ _).trans (add_le_add (hM.bdd t ht y hy ph) (hM'.bdd t ht y hy ph))
    | succ n ih =>
      intro t ht y hy ph
      have hk0 : 0 ≤ q ^ n * (M + M') := mul_nonneg (pow_nonneg hq0 n) hMM
      have hk1 : q ^ (n + 1) * (M + M') = q * (q ^ n * (M + M')) := by ring
      rw [hk1]
      have hcw : ∀ {u : ℝ → ℝ → ℝ → ℝ}, WholeSolution a g rho up down u → ContinuousOn (fun t => u t y ph) (Set.Icc 0 (bottom a)) := fun hu =>
        hu.cont.comp (f := fun t => (t, y, ph)) (by fun_prop) fun t ht => ⟨ht, hy, trivial⟩
      refine attenuate_of (c := fun _ => 1) (f := fun t => w t y ph - w' t y ph) hacc (fun _ _ => one_pos) ((hcw hw).sub (hcw hw')) (mul_nonneg hq0 hk0) hy.2 ?_ ?_ ?_ t ht
      · intro l hl s h0 h1
        obtain ⟨d₁, k₁, e₁⟩ := hw.ode l hl s h0 h1 y hy.1 hy.2 ph
        obtain ⟨d₂, k₂, e₂⟩ := hw'.ode l hl s h0 h1 y hy.1 hy.2 ph
        have hs := layer_in_range hacc hl h0 h1
        refine ⟨d₁ - d₂, a.omega.get l / (4 * Real.pi) * wholeScatter (g l) (w s) y ph - a.omega.get l / (4 * Real.pi) * wholeScatter (g l) (w' s) y ph, k₁.sub k₂, ?_, ?_⟩
        · rw [mul_sub, e₁, e₂]
          unfold wholeRHS
          ring
        · refine (whole_scatter_lip hacc hg hpos hl (hM.field hs) (hM'.field hs) (ih s hs) hy.1 ph).trans (mul_le_mul_of_nonneg_right ?_ hk0)
          exact (hmax l (mem_range.2 hl)).trans (le_max_left _ _)
      · intro hneg
        have hy' : -y ∈ Set.Ioc (0 : ℝ) 1 := ⟨by linarith, by linarith [hy.1.1]⟩
        have x1 := hw.top _ hy' ph
        have x2 := hw'.top _ hy' ph
        rw [neg_neg] at x1 x2
        beta_reduce
        rw [x1, x2, sub_self, abs_zero]
        exact mul_nonneg hq0 hk0
      · intro hpos
        have hy' : y ∈ Set.Ioc (0 : ℝ) 1 := ⟨hpos, hy.1.2⟩
        beta_reduce
        rw [hw.bot y hy' ph, hw'.bot y hy' ph, add_sub_add_left_eq_sub]
        exact (whole_reflect_lip hr hab (hM.field hbm) (hM'.field hbm) hk0 (ih _ hbm) (Set.Ioc_subset_Icc_self hy') ph).trans (mul_le_mul_of_nonneg_right (le_max_right _ _) hk0)
  intro t ht y hy hy0 ph
  have hlim : Filter.Tendsto (fun n : ℕ => q ^ n * (M + M')) Filter.atTop (nhds 0) := by
    simpa using (tendsto_pow_atTop_nhds_zero_of_lt_one hq0 hq1).mul_const (M + M')
  have := ge_of_tendsto' hlim fun n => main n t ht y ⟨hy, hy0⟩ ph
  exact sub_eq_zero.1 (abs_eq_zero.1 (le_antisymm this (abs_nonneg _)))

end

end Pydisort

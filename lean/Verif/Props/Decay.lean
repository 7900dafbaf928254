import Verif.Spec.Screen
import Verif.Props.Compare

/-!
# C101: absorption screens

Specification used: `Spec.absDepth`, `Spec.absBetween`, `Spec.DifferWithin`.
-/

namespace Pydisort
open Finset Spec

variable {E : Ext} {J : Junk} {a : Args} {R : Solved} {S₁ S₂ : Sources}

/-- Solutions of mode zero stay below an envelope that changes with depth no faster than absorption allows. -/
theorem solution_le_envelope (hacc : Accepted a) (hg : GaussContract E (nHalf a)) (hpk : ∀ l < a.tauArr.n, peak a l < 1)
    (hk : NonnegScattering a (node E a)) {rho : ℝ → ℝ → ℝ} (hsf : FairSurface a (node E a) (weight E a) rho) (hI : a.I0 = 0) {W : ℝ → ℝ}
    (hW : ContinuousOn W (Set.Icc 0 (bottom a))) (hW0 : ∀ t, 0 ≤ W t)
    (hode : ∀ l < a.tauArr.n, ∀ t, bdry a.tauArr.get l < t → t < bdry a.tauArr.get (l + 1) →
      ∃ d, HasDerivAt W d t ∧ |d| + (1 - a.omega.get l) * source a l t ≤ (1 - a.omega.get l) * W t)
    (htop : ∀ i < nHalf a, bcVal a.bneg 0 i ≤ W 0)
    (hbot : ∀ i < nHalf a, bcVal a.bpos 0 i ≤ (1 - reflectance a (node E a) (weight E a) rho (node E a i)) * W (bottom a))
    {V : ℝ → ℕ → ℝ} (hV : IsSolution a (node E a) (weight E a) rho 0 V) :
    ∀ t, 0 ≤ t → t ≤ bottom a → ∀ i < 2 * nHalf a, V t i ≤ W t := by
  have key := nonneg_of_super (E := E) hacc hg hpk hk hsf.nonneg hsf.bounded (V := fun t i => W t - V t i)
    (fun i hi => hW.sub (hV.cont i hi)) ?_ ?_ ?_
  · intro t ht0 ht1 i hi
    exact sub_nonneg.1 (key t ht0 ht1 i hi)
  · intro l hl t ht0 ht1 i hi
    obtain ⟨d, hd, he⟩ := hV.ode l hl t ht0 ht1 i hi
    obtain ⟨w, hw, hwe⟩ := hode l hl t ht0 ht1
    refine ⟨w - d, hw.sub hd, ?_⟩
    have hz : beamSource a 0 l (stream (nHalf a) (node E a) i) = 0 := by
      unfold beamSource beamX; rw [hI]; simp
    rw [rteUser_zero, hz] at he
    have hrow := row_sum_kernel hacc hg (hpk l hl) (stream (nHalf a) (node E a) i)
    simp only [mul_sub, sum_sub_distrib]
    rw [← sum_mul, hrow, he]
    have x1 := (effAlbedo_range hacc hl (hpk l hl)).2.2
    have x2 := mul_le_mul_of_nonneg_right x1 (hW0 t)
    have x3 : stream (nHalf a) (node E a) i * w ≤ |w| := by
      refine (le_abs_self _).trans ?_
      rw [abs_mul]
      exact mul_le_of_le_one_left (abs_nonneg _) (stream_abs_le hg hi)
    linarith
  · intro i hi
    beta_reduce
    rw [hV.top i hi]; linarith [htop i hi]
  · intro i hi
    beta_reduce
    rw [hV.bot i hi]
    have e1 := hbot i hi
    unfold reflectance at e1
    split_ifs at e1 ⊢ with hm
    · unfold reflected
      rw [if_pos rfl, one_add_one_eq_two, hI]
      simp only [mul_sub, sum_sub_distrib]
      rw [← sum_mul]
      simp only [mul_zero, zero_div, zero_mul]
      linarith
    · linarith

/-! ### The absorption depth -/

theorem absDepth_continuous (a : Args) : Continuous (absDepth a) := by
  unfold absDepth
  fun_prop

theorem absDepth_mono (hacc : Accepted a) : Monotone (absDepth a) := by
  intro s t h
  unfold absDepth
  refine sum_le_sum fun k hk => mul_le_mul_of_nonneg_left ?_ (by linarith [(hacc.omega k (mem_range.1 hk)).2])
  exact max_le_max le_rfl (min_le_min (by linarith) le_rfl)

/-- Within a layer the absorption depth is linear. -/
theorem absDepth_layer (hacc : Accepted a) {l : ℕ} (hl : l < a.tauArr.n) {t : ℝ} (ht : InLayer a l t) :
    absDepth a t = absDepth a (bdry a.tauArr.get l) + (1 - a.omega.get l) * (t - bdry a.tauArr.get l) := by
  have hdiff : absDepth a t - absDepth a (bdry a.tauArr.get l) = (1 - a.omega.get l) * (t - bdry a.tauArr.get l) := by
    unfold absDepth
    rw [← sum_sub_distrib, sum_eq_single_of_mem l (mem_range.2 hl)]
    · rw [sub_self, min_eq_left (by linarith [ht.2]), max_eq_right (by linarith [ht.1]), min_eq_left (by linarith [(bdry_lt hacc hl).le]), max_eq_left le_rfl]
      ring
    · intro k hk hkl
      have hk' := mem_range.1 hk
      rcases lt_or_gt_of_ne hkl with h | h
      · have h1 : bdry a.tauArr.get (k + 1) ≤ bdry a.tauArr.get l := bdry_le hacc h hl.le
        rw [min_eq_right (by linarith [ht.1]), min_eq_right (by linarith)]
        ring
      · have h1 : bdry a.tauArr.get (l + 1) ≤ bdry a.tauArr.get k := bdry_le hacc h hk'.le
        have h2 := ht.2
        have h3 := bdry_lt hacc hl
        have h4 := bdry_lt hacc hk'
        rw [max_eq_left ((min_le_left _ _).trans (by linarith)), max_eq_left ((min_le_left _ _).trans (by linarith))]
        ring
  linarith

theorem absDepth_hasDeriv (hacc : Accepted a) {l : ℕ} (hl : l < a.tauArr.n) {t : ℝ} (h0 : bdry a.tauArr.get l < t)
    (h1 : t < bdry a.tauArr.get (l + 1)) : HasDerivAt (absDepth a) (1 - a.omega.get l) t := by
  have h : HasDerivAt (fun t => absDepth a (bdry a.tauArr.get l) + (1 - a.omega.get l) * (t - bdry a.tauArr.get l)) (1 - a.omega.get l) t := by
    simpa using (((hasDerivAt_id t).sub_const (bdry a.tauArr.get l)).const_mul (1 - a.omega.get l)).const_add (absDepth a (bdry a.tauArr.get l))
  refine h.congr_of_eventuallyEq ?_
  filter_upwards [Ioo_mem_nhds h0 h1] with s hs
  exact absDepth_layer hacc hl ⟨hs.1.le, hs.2.le⟩

theorem absBetween_zero (hacc : Accepted a) {l₁ l₂ : ℕ} {t : ℝ} (h0 : bdry a.tauArr.get l₁ ≤ t) (h1 : t ≤ bdry a.tauArr.get l₂) :
    absBetween a l₁ l₂ t = 0 := by
  unfold absBetween
  have := absDepth_mono hacc h0
  have := absDepth_mono hacc h1
  rw [max_eq_left (max_le (by linarith) (by linarith))]

theorem absBetween_above (hacc : Accepted a) {l₁ l₂ : ℕ} {t : ℝ} (h0 : t ≤ bdry a.tauArr.get l₁) (h1 : t ≤ bdry a.tauArr.get l₂) :
    absBetween a l₁ l₂ t = absDepth a (bdry a.tauArr.get l₁) - absDepth a t := by
  unfold absBetween
  have x1 := absDepth_mono hacc h0
  have x2 := absDepth_mono hacc h1
  rw [max_eq_left (a := absDepth a (bdry a.tauArr.get l₁) - absDepth a t) (by linarith), max_eq_right (by linarith)]

theorem absBetween_below (hacc : Accepted a) {l₁ l₂ : ℕ} {t : ℝ} (h0 : bdry a.tauArr.get l₁ ≤ t) (h1 : bdry a.tauArr.get l₂ ≤ t) :
    absBetween a l₁ l₂ t = absDepth a t - absDepth a (bdry a.tauArr.get l₂) := by
  unfold absBetween
  have x1 := absDepth_mono hacc h0
  have x2 := absDepth_mono hacc h1
  rw [max_eq_right (a := absDepth a (bdry a.tauArr.get l₁) - absDepth a t) (by linarith), max_eq_right (by linarith)]

/-- The envelope of C101. -/
theorem screen_le (hacc : Accepted a) (hg : GaussContract E (nHalf a)) (hpk : ∀ l < a.tauArr.n, peak a l < 1)
    (hk : NonnegScattering a (node E a)) {rho : ℝ → ℝ → ℝ} (hsf : FairSurface a (node E a) (weight E a) rho) (hI : a.I0 = 0) {l₁ l₂ : ℕ}
    (hl12 : l₁ ≤ l₂) (hl2 : l₂ ≤ a.tauArr.n) {ε : ℝ} (hε : 0 ≤ ε) (hb : BelowBlackbody a (node E a) (weight E a) rho ε)
    (hin : ∀ l < a.tauArr.n, l < l₁ ∨ l₂ ≤ l → ∀ t, InLayer a l t → source a l t = 0) (htop : 0 < l₁ → ∀ i < nHalf a, bcVal a.bneg 0 i = 0)
    (hbot : l₂ < a.tauArr.n → ∀ i < nHalf a, bcVal a.bpos 0 i = 0) {V : ℝ → ℕ → ℝ} (hV : IsSolution a (node E a) (weight E a) rho 0 V) :
    ∀ t, 0 ≤ t → t ≤ bottom a → ∀ i < 2 * nHalf a, V t i ≤ ε * Real.exp (-absBetween a l₁ l₂ t) := by
  have hA := absDepth_continuous a
  have h12 := bdry_le hacc hl12 hl2
  have hW0 : ∀ t, 0 ≤ ε * Real.exp (-absBetween a l₁ l₂ t) := fun t => mul_nonneg hε (Real.exp_pos _).le
  refine solution_le_envelope hacc hg hpk hk hsf hI (W := fun t => ε * Real.exp (-absBetween a l₁ l₂ t)) ?_ hW0 ?_ ?_ ?_ hV
  · refine Continuous.continuousOn ?_
    unfold absBetween
    fun_prop
  · intro l hl t h0 h1
    have ho := hacc.omega l hl
    have hd := absDepth_hasDeriv hacc hl h0 h1
    rcases lt_or_ge l l₁ with h | h
    · have hb1 : bdry a.tauArr.get (l + 1) ≤ bdry a.tauArr.get l₁ := bdry_le hacc h (hl12.trans hl2)
      refine ⟨ε * (Real.exp (-(absDepth a (bdry a.tauArr.get l₁) - absDepth a t)) * (1 - a.omega.get l)), ?_, ?_⟩
      · have e : HasDerivAt (fun t => ε * Real.exp (-(absDepth a (bdry a.tauArr.get l₁) - absDepth a t)))
            (ε * (Real.exp (-(absDepth a (bdry a.tauArr.get l₁) - absDepth a t)) * (1 - a.omega.get l))) t := by
          have := ((hd.const_sub (absDepth a (bdry a.tauArr.get l₁))).neg.exp).const_mul ε
          simpa using this
        refine e.congr_of_eventuallyEq ?_
        filter_upwards [Ioo_mem_nhds h0 h1] with s hs
        rw [absBetween_above hacc (by linarith [hs.2]) (by linarith [hs.2])]
      · rw [hin l hl (Or.inl h) t ⟨h0.le, h1.le⟩, absBetween_above hacc (by linarith) (by linarith), abs_of_nonneg]
        · exact le_of_eq (by ring)
        · have : 0 ≤ 1 - a.omega.get l := by linarith [ho.2]
          positivity
    rcases lt_or_ge l l₂ with h' | h'
    · have hb1 : bdry a.tauArr.get l₁ ≤ bdry a.tauArr.get l := bdry_le hacc h hl.le
      have hb2 : bdry a.tauArr.get (l + 1) ≤ bdry a.tauArr.get l₂ := bdry_le hacc h' hl2
      refine ⟨0, ?_, ?_⟩
      · refine (hasDerivAt_const t ε).congr_of_eventuallyEq ?_
        filter_upwards [Ioo_mem_nhds h0 h1] with s hs
        rw [absBetween_zero hacc (by linarith [hs.1]) (by linarith [hs.2])]; simp
      · rw [absBetween_zero hacc (by linarith) (by linarith)]
        have := hb.inner l hl t ⟨h0.le, h1.le⟩
        simp only [neg_zero, Real.exp_zero, mul_one, abs_zero, zero_add]
        exact mul_le_mul_of_nonneg_left this (by linarith [ho.2])
    · have hb2 : bdry a.tauArr.get l₂ ≤ bdry a.tauArr.get l := bdry_le hacc h' hl.le
      refine ⟨-(ε * (Real.exp (-(absDepth a t - absDepth a (bdry a.tauArr.get l₂))) * (1 - a.omega.get l))), ?_, ?_⟩
      · have e : HasDerivAt (fun t => ε * Real.exp (-(absDepth a t - absDepth a (bdry a.tauArr.get l₂))))
            (-(ε * (Real.exp (-(absDepth a t - absDepth a (bdry a.tauArr.get l₂))) * (1 - a.omega.get l)))) t := by
          have := ((hd.sub_const (absDepth a (bdry a.tauArr.get l₂))).neg.exp).const_mul ε
          refine this.congr_deriv ?_
          simp only [Pi.neg_apply]
          ring
        refine e.congr_of_eventuallyEq ?_
        filter_upwards [Ioo_mem_nhds h0 h1] with s hs
        rw [absBetween_below hacc (by linarith [hs.1]) (by linarith [hs.1])]
      · rw [hin l hl (Or.inr h') t ⟨h0.le, h1.le⟩, absBetween_below hacc (by linarith) (by linarith), abs_neg, abs_of_nonneg]
        · exact le_of_eq (by ring)
        · have : 0 ≤ 1 - a.omega.get l := by linarith [ho.2]
          positivity
  · intro i hi
    rcases Nat.eq_zero_or_pos l₁ with h | h
    · subst h
      beta_reduce
      rw [bdry_zero] at h12
      rw [absBetween_zero hacc (by rw [bdry_zero]) h12]
      simpa using hb.top i hi
    · rw [htop h i hi]; exact hW0 0
  · intro i hi
    have hr := hsf.bounded i hi
    rcases hl2.lt_or_eq with h | h
    · rw [hbot h i hi]
      exact mul_nonneg (by linarith) (hW0 _)
    · subst h
      rw [bdry_bottom hacc] at h12
      beta_reduce
      rw [absBetween_zero hacc h12 (by rw [bdry_bottom hacc])]
      simpa using hb.bottom i hi

theorem screen_less {mu w : Vec} {rho : ℝ → ℝ → ℝ} {l₁ l₂ : ℕ} {ε : ℝ} (h : DifferWithin a mu w rho S₁ S₂ l₁ l₂ ε) :
    (∀ l < a.tauArr.n, l < l₁ ∨ l₂ ≤ l → ∀ t, InLayer a l t → source (under a (lessSources a S₁ S₂)) l t = 0) ∧
    (0 < l₁ → ∀ i < nHalf a, bcVal (lessSources a S₁ S₂).bneg 0 i = 0) ∧ (l₂ < a.tauArr.n → ∀ i < nHalf a, bcVal (lessSources a S₁ S₂).bpos 0 i = 0) := by
  refine ⟨fun l hl h0 t ht => ?_, fun h0 i hi => ?_, fun h0 i hi => ?_⟩
  · rw [source_less (a := a) hl, h.inner l hl h0 t ht, sub_self]
  · change bcVal (.vec ⟨nHalf a, fun i => bcVal S₂.bneg 0 i - bcVal S₁.bneg 0 i⟩) 0 i = 0
    rw [bcVal_vec (n := nHalf a) hi, h.top h0 i hi, sub_self]
  · change bcVal (.vec ⟨nHalf a, fun i => bcVal S₂.bpos 0 i - bcVal S₁.bpos 0 i⟩) 0 i = 0
    rw [bcVal_vec (n := nHalf a) hi, h.bottom h0 i hi, sub_self]

theorem differWithin_symm {mu w : Vec} {rho : ℝ → ℝ → ℝ} {l₁ l₂ : ℕ} {ε : ℝ} (h : DifferWithin a mu w rho S₁ S₂ l₁ l₂ ε) :
    DifferWithin a mu w rho S₂ S₁ l₁ l₂ ε :=
  ⟨⟨h.le.beam.symm, fun l hl t ht => by rw [abs_sub_comm]; exact h.le.inner l hl t ht, fun i hi => by rw [abs_sub_comm]; exact h.le.top i hi,
    fun i hi => by rw [abs_sub_comm]; exact h.le.bottom i hi⟩, fun l hl h0 t ht => (h.inner l hl h0 t ht).symm, fun h0 i hi => (h.top h0 i hi).symm,
    fun h0 i hi => (h.bottom h0 i hi).symm⟩

/-- **C101.** Absorption screens. Change the thermal sources in some neighbouring layers (and above the atmosphere or at the surface, if the layers reach there) by at most what a
black body of intensity `ε` provides. At any depth every intensity (with or without corrections) changes by at most `ε` times `exp (-A)`, where `A` is the absorption optical depth
between this depth and the layers, and every flux by at most `π` times this. The scattering in between and the surface do not matter. -/
theorem C101_absorption_screens (hw₁ : WellPosed E (under a S₁)) (hw₂ : WellPosed E (under a S₂)) (hr₁ : Rescalable (under a S₁))
    (hr₂ : Rescalable (under a S₂)) {rho : ℕ → ℝ → ℝ → ℝ} (hrho : SurfaceIs a rho) (hsf : FairSurface a (node E a) (weight E a) (rho 0))
    (hk : NonnegScattering a (node E a)) {l₁ l₂ : ℕ} (hl12 : l₁ ≤ l₂) (hl2 : l₂ ≤ a.tauArr.n) {ε : ℝ} (hε : 0 ≤ ε)
    (hc : DifferWithin a (node E a) (weight E a) (rho 0) S₁ S₂ l₁ l₂ ε) (J₁ J₂ : Junk) :
    ∃ R₁ R₂ F₁ F₂, pydisort E J₁ (under a S₁) = .ok R₁ ∧ pydisort E J₂ (under a S₂) = .ok R₂ ∧
      Evaluates (under a S₁) R₁ F₁ ∧ Evaluates (under a S₂) R₂ F₂ ∧
      ∀ t, 0 ≤ t → t ≤ bottom a →
        (∀ i < 2 * nHalf a, |F₁.u0 t i - F₂.u0 t i| ≤ ε * Real.exp (-absBetween a l₁ l₂ t) ∧
          ∀ ph, |F₁.u t ph i - F₂.u t ph i| ≤ ε * Real.exp (-absBetween a l₁ l₂ t)) ∧
        |F₁.up t - F₂.up t| ≤ Real.pi * (ε * Real.exp (-absBetween a l₁ l₂ t)) ∧
        |F₁.diffuse t - F₂.diffuse t| ≤ Real.pi * (ε * Real.exp (-absBetween a l₁ l₂ t)) ∧ F₁.direct t = F₂.direct t := by
  obtain ⟨R₁, h₁⟩ := pydisort_isOk hw₁ J₁
  obtain ⟨R₂, h₂⟩ := pydisort_isOk hw₂ J₂
  obtain ⟨U₁, hU₁, _⟩ := C02_modes_solve_transfer_equation h₁ hw₁.sound hr₁
  obtain ⟨U₂, hU₂, _⟩ := C02_modes_solve_transfer_equation h₂ hw₂.sound hr₂
  have hF : 0 < nFourier (under a S₁) := nFourier_pos h₁ hw₁.sound
  change 0 < nFourier a at hF
  have hg := hw₁.gauss
  have hsol₁ := fun m (hm : m < nFourier a) => modes_isSolution h₁ hw₁.sound hr₁ hw₁.bottomBC hw₁.topBC hrho hU₁ hm
  have hsol₂ := fun m (hm : m < nFourier a) => modes_isSolution h₂ hw₂.sound hr₂ hw₂.bottomBC hw₂.topBC hrho hU₂ hm
  have hd₁ : ∀ m < nFourier a, IsSolution (under a (lessSources a S₁ S₂)) (node E a) (weight E a) (rho m) m (fun t i => U₂ m t i - U₁ m t i) :=
    fun m hm => isSolution_less hw₁.bottomBC hw₁.topBC hw₂.bottomBC hw₂.topBC (hsol₁ m hm) (hsol₂ m hm)
  have hd₂ : ∀ m < nFourier a, IsSolution (under a (lessSources a S₂ S₁)) (node E a) (weight E a) (rho m) m (fun t i => U₁ m t i - U₂ m t i) :=
    fun m hm => isSolution_less hw₂.bottomBC hw₂.topBC hw₁.bottomBC hw₁.topBC (hsol₂ m hm) (hsol₁ m hm)
  have hb := below_less hc.le
  have ha₁ := accepted_less hw₂.accepted hw₁.accepted.beam hc.le.beam.le
  have ha₂ := accepted_less hw₁.accepted hw₂.accepted.beam hc.le.beam.ge
  obtain ⟨s1, s2, s3⟩ := screen_less hc
  obtain ⟨t1, t2, t3⟩ := screen_less (differWithin_symm hc)
  have hle₁ := screen_le (E := E) (a := under a (lessSources a S₁ S₂)) ha₁ hg hw₁.peak hk ⟨hsf.nonneg, hsf.beam, hsf.bounded⟩ hb.1.noBeam hl12 hl2 hε hb.1
    s1 s2 s3 (hd₁ 0 hF)
  have hle₂ := screen_le (E := E) (a := under a (lessSources a S₂ S₁)) ha₂ hg hw₁.peak hk ⟨hsf.nonneg, hsf.beam, hsf.bounded⟩ hb.2.noBeam hl12 hl2 hε hb.2
    t1 t2 t3 (hd₂ 0 hF)
  have hmode : ∀ m < nFourier a, m ≠ 0 → ∀ t, 0 ≤ t → t ≤ bottom a → ∀ i < 2 * nHalf a, U₂ m t i - U₁ m t i = 0 := fun m hm h0 =>
    solution_unique (E := E) (a := under a (lessSources a S₁ S₂)) ha₁ hg hw₁.dissipates hw₁.surface hm (hrho m hm) (hd₁ m hm)
      (dark_isSolution (a := under a (lessSources a S₁ S₂)) trivial trivial hb.1.noBeam h0)
  have habs : ∀ t, 0 ≤ t → t ≤ bottom a → ∀ i < 2 * nHalf a, |U₁ 0 t i - U₂ 0 t i| ≤ ε * Real.exp (-absBetween a l₁ l₂ t) := fun t h0 h1 i hi => by
    have x1 : U₂ 0 t i - U₁ 0 t i ≤ ε * Real.exp (-absBetween a l₁ l₂ t) := hle₁ t h0 h1 i hi
    have x2 : U₁ 0 t i - U₂ 0 t i ≤ ε * Real.exp (-absBetween a l₁ l₂ t) := hle₂ t h0 h1 i hi
    rw [abs_le]
    exact ⟨by linarith, x2⟩
  have hflux : ∀ (e : ℝ) (v v' : Vec), (∀ i < nHalf a, |v i - v' i| ≤ e) →
      |hemiFlux a (node E a) (weight E a) v - hemiFlux a (node E a) (weight E a) v'| ≤ Real.pi * e := by
    intro e v v' hv
    have hcst := hemiFlux_const hg (streams_pos hw₁.accepted) e
    have x1 := hemiFlux_mono (E := E) (a := a) hg (v := v) (v' := fun i => v' i + e) fun i hi => by linarith [(abs_le.1 (hv i hi)).2]
    have x2 := hemiFlux_mono (E := E) (a := a) hg (v := v') (v' := fun i => v i + e) fun i hi => by linarith [(abs_le.1 (hv i hi)).1]
    have y1 := hemiFlux_add a (node E a) (weight E a) v' (fun _ => e)
    have y2 := hemiFlux_add a (node E a) (weight E a) v (fun _ => e)
    change hemiFlux a (node E a) (weight E a) (fun _ => e) = Real.pi * e at hcst
    rw [hcst] at y1 y2
    rw [abs_le]
    exact ⟨by linarith, by linarith⟩
  refine ⟨R₁, R₂, _, _, h₁, h₂, evaluates h₁ hr₁ hU₁, evaluates h₂ hr₂ hU₂, fun t h0 h1 => ⟨fun i hi => ⟨habs t h0 h1 i hi, fun ph => ?_⟩, ?_, ?_, ?_⟩⟩
  · obtain ⟨_, O₁, _, hO₁, _⟩ := pydisort_ok h₁
    obtain ⟨_, O₂, _, hO₂, _⟩ := pydisort_ok h₂
    change |((∑ m ∈ range (nFourier a), U₁ m t i * Real.cos (m * (a.phi0 - ph))) + ntVal R₁ t ph i)
      - ((∑ m ∈ range (nFourier a), U₂ m t i * Real.cos (m * (a.phi0 - ph))) + ntVal R₂ t ph i)| ≤ _
    rw [ntVal_under h₁ hr₁ hO₁, ntVal_under h₂ hr₂ hO₂, ntUnit_congr (optics_under hO₁ hO₂), hc.le.beam, add_sub_add_right_eq_sub,
      ← sum_sub_distrib, sum_eq_single_of_mem 0 (mem_range.2 hF)]
    · simpa using habs t h0 h1 i hi
    · intro m hm hm0
      have := hmode m (mem_range.1 hm) hm0 t h0 h1 i hi
      rw [← sub_mul, show U₁ m t i - U₂ m t i = 0 by linarith, zero_mul]
  · exact hflux _ _ _ fun i hi => habs t h0 h1 i (by omega)
  · change |hemiFlux a (node E a) (weight E a) _ + (S₁.I0 * a.mu0 * Real.exp (-tauStar a (layOf a t) t / a.mu0) - S₁.I0 * a.mu0 * Real.exp (-t / a.mu0))
      - (hemiFlux a (node E a) (weight E a) _ + (S₂.I0 * a.mu0 * Real.exp (-tauStar a (layOf a t) t / a.mu0) - S₂.I0 * a.mu0 * Real.exp (-t / a.mu0)))|
      ≤ _
    rw [hc.le.beam, add_sub_add_right_eq_sub]
    exact hflux _ _ _ fun i hi => habs t h0 h1 (nHalf a + i) (by omega)
  · change S₁.I0 * a.mu0 * Real.exp (-t / a.mu0) = S₂.I0 * a.mu0 * Real.exp (-t / a.mu0)
    rw [hc.le.beam]

/-- The hypotheses of C101 are met: with a beam and another emission of the surface, which is screened by the two layers above it: at the top by the factor
`exp (-3/4)`. -/
example {n : ℕ} (hn : 0 < n) : ∃ (x : ℝ) (S₁ S₂ : Sources),
    (∀ S, S = S₁ ∨ S = S₂ → WellPosed refExt (under (demoMild n x) S) ∧ Rescalable (under (demoMild n x) S))
    ∧ SurfaceIs (demoMild n x) (fun _ _ _ => 1 / 3)
    ∧ FairSurface (demoMild n x) (node refExt (demoMild n x)) (weight refExt (demoMild n x)) (fun _ _ => 1 / 3)
    ∧ NonnegScattering (demoMild n x) (node refExt (demoMild n x))
    ∧ DifferWithin (demoMild n x) (node refExt (demoMild n x)) (weight refExt (demoMild n x)) (fun _ _ => 1 / 3) S₁ S₂ 2 2 1
    ∧ absBetween (demoMild n x) 2 2 0 = 3 / 4 := by
  obtain ⟨x, h0, h1, hw⟩ := demoMild_wellPosed hn
  have hh : nHalf (demoMild n x) = n := demo_nHalf x
  have hg : GaussContract refExt (nHalf (demoMild n x)) := by rw [hh]; exact refExt_gauss hn
  refine ⟨x, ⟨1, .scalar 1, .scalar 1, ⟨2, 2, fun _ _ => 1⟩⟩, ⟨1, .scalar (3 / 2), .scalar 1, ⟨2, 2, fun _ _ => 1⟩⟩, ?_, fun m _ => demo_rho (n := n) x m,
    demoMild_surface hn, demoMild_scattering hn x, ⟨⟨rfl, fun l _ t _ => ?_, fun i _ => by norm_num [bcVal], fun i _ => ?_⟩, fun _ _ _ _ _ => rfl, fun _ _ _ => rfl,
    fun h => absurd h (lt_irrefl _)⟩, ?_⟩
  · rintro S (rfl | rfl)
    · exact ⟨wellPosed_under hw zero_le_one (fun _ => one_pos) trivial trivial trivial trivial rfl, Or.inl (Or.inl one_pos)⟩
    · exact ⟨wellPosed_under hw zero_le_one (fun _ => one_pos) trivial trivial trivial trivial rfl, Or.inl (Or.inl one_pos)⟩
  · rw [show ∀ b c : BCv, source (under (demoMild n x) ⟨1, .scalar 1, .scalar 1, ⟨2, 2, fun _ _ => 1⟩⟩) l t
      - source (under (demoMild n x) ⟨1, b, c, ⟨2, 2, fun _ _ => 1⟩⟩) l t = 0 from fun b c => sub_self _]
    simp
  · unfold reflectance
    rw [if_pos (by simp [demoMild, demo]), ← sum_mul, sum_weight_node hg (by rw [hh]; exact hn)]
    simp only [bcVal, if_true]
    norm_num [abs_le]
  · rw [absBetween_above hw.accepted (by norm_num [bdry, demoMild, demo]) (by norm_num [bdry, demoMild, demo])]
    unfold absDepth
    simp only [show (demoMild n x).tauArr.n = 2 from rfl, sum_range_succ, sum_range_zero]
    norm_num [bdry, demoMild, demo]

end Pydisort

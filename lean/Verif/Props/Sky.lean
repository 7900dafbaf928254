import Verif.SkyUnique
import Verif.ModeConvergence
import Mathlib.Analysis.Real.Cardinality

/-!
# C112: the transfer equation with all directions has exactly one solution
# C113: with more and more streams the returned intensities converge to it, at all azimuths
# C114: calls with many streams agree where their directions agree

Specification used: `Verif/Spec/Sky.lean`.
-/

namespace Pydisort
open Finset Spec MeasureTheory

variable {a : Args} {rho : ℕ → ℝ → ℝ → ℝ} {up down : ℝ → ℝ} {w : ℝ → ℝ → ℝ → ℝ}

theorem bdrf_mode_le (hr : AbsorbingBDRF a rho) {m : ℕ} (hm : m < a.bdrf.length) {x y : ℝ} (hx : x ∈ Set.Icc (0 : ℝ) 1) (hy : y ∈ Set.Icc (0 : ℝ) 1) :
    (1 + if m = 0 then 1 else 0) * |rho m x y| ≤ 2 * rho 0 x y := by
  have hpi := Real.pi_pos
  have h1 := bdrfOf_moment hm rho x y
  have h2 := bdrfOf_integral (a := a) rho x y 0
  rw [if_pos (by omega)] at h2
  have hc : Continuous fun ph => bdrfOf a rho x y (0 - ph) := by unfold bdrfOf; fun_prop
  have h3 : |∫ ph in (0 : ℝ)..(2 * Real.pi), bdrfOf a rho x y (0 - ph) * Real.cos (m * (0 - ph))| ≤ 1 * ∫ ph in (0 : ℝ)..(2 * Real.pi), bdrfOf a rho x y (0 - ph) :=
    azimuth_le (g := fun ph => bdrfOf a rho x y (0 - ph)) (e := fun ph => Real.cos (m * (0 - ph))) hc (fun p => hr.nonneg x hx y hy _) fun p => Real.abs_cos_le_one _
  have hδ : (0 : ℝ) ≤ 1 + if m = 0 then 1 else 0 := by split_ifs <;> norm_num
  rw [h1, h2, one_mul, abs_mul, abs_mul, abs_of_nonneg hδ, abs_of_pos hpi] at h3
  refine le_of_mul_le_mul_left ?_ hpi
  linarith

theorem bdrf_mode_absorbs (hr : AbsorbingBDRF a rho) : ∃ κ > 0, ∀ m < a.bdrf.length, ∀ x ∈ Set.Icc (0 : ℝ) 1,
    (1 + if m = 0 then 1 else 0) * (∫ y in (0 : ℝ)..1, y * |rho m x y|) ≤ 1 - κ := by
  obtain ⟨κ, hκ, h⟩ := hr.absorbs
  refine ⟨κ, hκ, fun m hm x hx => ?_⟩
  have hpi := Real.pi_pos
  have hl : 0 < a.bdrf.length := by omega
  have h1 := h x hx
  simp only [bdrfOf_integral, if_pos hl] at h1
  have hc : ∀ m < a.bdrf.length, ContinuousOn (fun y => rho m x y) (Set.Icc 0 1) := fun m hm =>
    (hr.cont m hm).comp (f := fun y => (x, y)) (by fun_prop) fun y hy => ⟨hx, hy⟩
  have hi : ∀ f : ℝ → ℝ, ContinuousOn f (Set.Icc 0 1) → IntervalIntegrable f volume 0 1 := fun f hf =>
    ContinuousOn.intervalIntegrable (by rwa [Set.uIcc_of_le zero_le_one])
  rw [← intervalIntegral.integral_const_mul]
  refine le_trans ?_ h1
  rw [← intervalIntegral.integral_const_mul]
  refine intervalIntegral.integral_mono_on zero_le_one (hi _ ?_) (hi _ ?_) fun y hy => ?_
  · exact continuousOn_const.mul (continuousOn_id.mul (hc m hm).abs)
  · exact continuousOn_const.mul (continuousOn_id.mul (continuousOn_const.mul (hc 0 hl)))
  · have := mul_le_mul_of_nonneg_left (bdrf_mode_le hr hm hx hy) hy.1
    have e : 1 / Real.pi * (y * (2 * Real.pi * rho 0 x y)) = y * (2 * rho 0 x y) := by field_simp
    rw [e]
    linarith

theorem onlyZero_cont {f : ℝ → ℝ} (hf : Tame f) (m : ℕ) : ContinuousOn (onlyZero f m) (Set.Ioc 0 1) := by
  unfold onlyZero
  split_ifs
  · exact hf.cont
  · exact continuousOn_const

theorem onlyZero_bdd {f : ℝ → ℝ} (hf : Tame f) (m : ℕ) : ∃ M, ∀ y ∈ Set.Ioc (0 : ℝ) 1, |onlyZero f m y| ≤ M := by
  unfold onlyZero
  split_ifs
  · exact hf.bdd
  · exact ⟨0, by simp⟩

theorem modes_exist (hacc : Accepted a) (hpk : ∀ l < a.tauArr.n, peak a l < 1) (hp : NonnegPhase a) (hr : AbsorbingBDRF a rho) (hu : Tame up) (hd : Tame down) (m : ℕ) :
    ∃ v, ExactMode a (rho m) m (onlyZero up m) (onlyZero down m) v := by
  obtain ⟨κ, hκ, h⟩ := bdrf_mode_absorbs hr
  exact (exactMode_exists hacc hpk (scatD_abs_mass hacc hpk hp m) (hr.cont m) (fun hm => ⟨κ, hκ, h m hm⟩)
    (onlyZero_cont hu m) (onlyZero_bdd hu m) (onlyZero_cont hd m) (onlyZero_bdd hd m)).1

/-- **C112.** The transfer equation with all directions, neither expanded in Fourier modes nor discretised, has a bounded solution for every accepted atmosphere with `f < 1`, a
non-negative phase function, a continuous non-negative BDRF that absorbs, and continuous bounded boundary illumination; and it has only one. -/
theorem C112_sky_exists (hacc : Accepted a) (hpk : ∀ l < a.tauArr.n, peak a l < 1) (hp : NonnegPhase a) (hr : AbsorbingBDRF a rho) (hB : a.bdrf.length ≤ nLeg a)
    (hu : Tame up) (hd : Tame down) :
    (∃ w, SkySolution a rho up down w)
      ∧ ∀ w w', SkySolution a rho up down w → SkySolution a rho up down w' →
        ∀ t ∈ Set.Icc 0 (bottom a), ∀ y ∈ Set.Icc (-1 : ℝ) 1, y ≠ 0 → ∀ ph, w t y ph = w' t y ph := by
  choose v hv using modes_exist hacc hpk hp hr hu hd
  exact ⟨⟨_, sky_of_modes hacc hB hr.cont fun m _ => hv m⟩, fun w w' hw hw' => sky_unique hacc hpk hp hr hw hw'⟩

theorem Spec.SameAtmosphere.mode {b : Args} (h : SameAtmosphere a b) {rho : ℝ → ℝ → ℝ} {m : ℕ} {v : ℝ → ℝ → ℝ} (hv : ExactMode a rho m up down v) :
    ExactMode b rho m up down v where
  bounded := by rw [h.bottom_eq]; exact hv.bounded
  cont := by rw [h.bottom_eq]; exact hv.cont
  ode := by
    rw [h.tau, h.omegaStar_eq, h.nLeg, h.legStar_eq, h.beam, h.angle, h.tauStar_eq, h.scale_eq, h.omega, h.source_eq]
    exact hv.ode
  top := hv.top
  bot := by rw [h.bottom_eq, h.surface, h.beam, h.angle, h.bdryStar_eq, h.tau]; exact hv.bot

theorem Spec.SameAtmosphere.phase_eq {b : Args} (h : SameAtmosphere a b) : phase b = phase a := by
  funext l nu; unfold phase; rw [h.nLeg, h.legStar_eq]

theorem Spec.SameAtmosphere.nothing {b : Args} (h : SameAtmosphere a b) (hn : NothingNeglected a) : NothingNeglected b := by
  unfold NothingNeglected; rw [h.tau, h.nLeg, h.omegaStar_eq, h.legStar_eq]; exact hn

theorem Spec.SameAtmosphere.nonnegPhase {b : Args} (h : SameAtmosphere a b) (hn : NonnegPhase a) : NonnegPhase b := by
  unfold NonnegPhase; rw [h.tau, h.phase_eq]; exact hn

/-- Every mode converges. -/
theorem mode_converges (hacc : Accepted a) (hpk : ∀ l < a.tauArr.n, peak a l < 1) (hn : NothingNeglected a) (hp : NonnegPhase a) (hr : AbsorbingBDRF a rho)
    {m : ℕ} (hm : m < nLeg a) {v : ℝ → ℝ → ℝ} (hv : ExactMode a (rho m) m (onlyZero up m) (onlyZero down m) v) {ε : ℝ} (hε : 0 < ε) :
    ∃ N₀ : ℕ, ∀ (E : Ext) (b : Args) (J : Junk) (R : Solved) (U : ℕ → ℝ → ℕ → ℝ), AsksForSky E a rho up down b → N₀ ≤ nHalf b → pydisort E J b = .ok R → IsModes b R U →
      ∀ t, 0 ≤ t → t ≤ bottom a → ∀ i < 2 * nHalf b, |U m t i - v t (stream (nHalf b) (node E b) i)| ≤ ε := by
  have hom : ∀ l < a.tauArr.n, 0 < 1 - omegaStar a l := fun l hl => by have := (albedoStar_range hacc hl (hpk l hl)).2; linarith
  obtain ⟨κ, hκ, habs⟩ := bdrf_mode_absorbs hr
  have hsc := fun l (hl : l < a.tauArr.n) => mode_scatter_small hv l (mul_pos hε (hom l hl))
  choose! d₁ h₁ using hsc
  have hrf : m < a.bdrf.length → _ := fun hm => mode_reflect_small hv (bottom_pos hacc).le (hr.cont m hm) (η := ε * (κ / 2) / 2) (by positivity)
  choose! d₂ h₂ using hrf
  have hrr : m < a.bdrf.length → _ := fun hm => mode_reflectance_small (hr.cont m hm) (η := κ / 4) (by positivity)
  choose! d₃ h₃ using hrr
  set δ : ℝ := 1 + if m = 0 then 1 else 0 with hδ
  have hδ0 : 0 ≤ δ := by rw [hδ]; split_ifs <;> norm_num
  have hδ2 : δ ≤ 2 := by rw [hδ]; split_ifs <;> norm_num
  refine ⟨max ((range a.tauArr.n).sup d₁) (max d₂ d₃) + 1, fun E b J R U hb hN h hU t ht0 ht1 i hi => ?_⟩
  have hab := hb.same
  have hg := hb.sound.gauss
  have haccb := (pydisort_ok h).1
  have q₁ : ∀ l < a.tauArr.n, Rule (d₁ l) (nHalf b) (node E b) (weight E b) := fun l hl => rule_of_gauss hg (by
    have := le_sup (f := d₁) (mem_range.2 hl); omega)
  have q₂ : Rule d₂ (nHalf b) (node E b) (weight E b) := rule_of_gauss hg (by omega)
  have q₃ : Rule d₃ (nHalf b) (node E b) (weight E b) := rule_of_gauss hg (by omega)
  have hnode : ∀ i < nHalf b, node E b i ∈ Set.Icc (0 : ℝ) 1 := fun i hi => ⟨(node_pos hg hi).1.le, (node_pos hg hi).2.le⟩
  have hmb : m < nFourier b := by rw [hb.modes, hab.nLeg]; exact hm
  refine mode_bound haccb hg (fun l hl => by rw [hab.peak_eq]; exact hpk l (by rwa [hab.tau] at hl)) (hab.nothing hn) (hab.nonnegPhase hp) (half_pos hκ)
    (rho := rho m) (m := m) ?_ (hab.mode hv) ?_ ?_ hε ?_ ?_ (modes_isSolution h hb.sound hb.rescalable hb.bpos hb.bneg hb.surface hU hmb) t ht0 (by rwa [hab.bottom_eq]) i hi
  · intro hm' i hi
    rw [hab.surface] at hm'
    have x1 := (abs_le.1 (h₃ hm' _ _ _ q₃ _ (hnode i hi))).2
    have x2 := habs m hm' _ (hnode i hi)
    have x3 : δ * ((∑ j ∈ range (nHalf b), weight E b j * node E b j * |rho m (node E b i) (node E b j)|) - ∫ z in (0 : ℝ)..1, z * |rho m (node E b i) z|) ≤ δ * (κ / 4) :=
      mul_le_mul_of_nonneg_left x1 hδ0
    nlinarith
  · intro i hi
    unfold onlyZero
    by_cases h0 : m = 0
    · rw [if_pos h0, h0]; exact hb.sampled.bottom i hi
    · rw [if_neg h0]; exact bcVal_mode hb.bpos h0 i
  · intro i hi
    unfold onlyZero
    by_cases h0 : m = 0
    · rw [if_pos h0, h0]; exact hb.sampled.top i hi
    · rw [if_neg h0]; exact bcVal_mode hb.bneg h0 i
  · intro l hl s hs i hi
    rw [hab.tau] at hl
    rw [hab.omegaStar_eq, hab.nLeg, hab.legStar_eq]
    obtain ⟨x0, x1⟩ := hab.inLayer.1 hs
    have b1 := bdry_le hacc (Nat.zero_le l) hl.le
    have b2 := bdry_le hacc (show l + 1 ≤ a.tauArr.n from hl) le_rfl
    rw [bdry_zero] at b1
    rw [bdry_bottom hacc] at b2
    exact h₁ l hl _ _ _ (q₁ l hl) s ⟨b1.trans x0, x1.trans b2⟩ _ (stream_mem hg hi).1
  · intro hm' i hi
    rw [hab.surface] at hm'
    rw [hab.bottom_eq, ← mul_sub, abs_mul, ← hδ, abs_of_nonneg hδ0]
    have := h₂ hm' _ _ _ q₂ _ (hnode i hi)
    have x := mul_le_mul hδ2 this (abs_nonneg _) zero_le_two
    linarith

/-- **C113.** As the number of streams grows, the intensities `u(τ, φ)` that `pydisort` returns converge to the solution of the transfer equation with all directions, uniformly in
depth, azimuth and stream. -/
theorem C113_sky_converges (hacc : Accepted a) (hpk : ∀ l < a.tauArr.n, peak a l < 1) (hn : NothingNeglected a) (hp : NonnegPhase a) (hr : AbsorbingBDRF a rho)
    (hB : a.bdrf.length ≤ nLeg a) (hu : Tame up) (hd : Tame down) (hw : SkySolution a rho up down w) {ε : ℝ} (hε : 0 < ε) :
    ∃ N₀ : ℕ, ∀ (E : Ext) (b : Args) (J : Junk) (R : Solved) (F : Fields), AsksForSky E a rho up down b → N₀ ≤ nHalf b → pydisort E J b = .ok R → Evaluates b R F →
      ∀ t, 0 ≤ t → t ≤ bottom a → ∀ ph, ∀ i < 2 * nHalf b, |F.u t ph i - w t (stream (nHalf b) (node E b) i) ph| ≤ ε := by
  have hL : 0 < nLeg a := by have := hacc.nLeg.1; unfold nLeg; omega
  have hL' : (0 : ℝ) < nLeg a := by exact_mod_cast hL
  choose v hv using modes_exist hacc hpk hp hr hu hd
  have hc := fun m (hm : m < nLeg a) => mode_converges hacc hpk hn hp hr hm (hv m) (div_pos hε hL')
  choose! N hN using hc
  refine ⟨(range (nLeg a)).sup N, fun E b J R F hb hNb h hF t ht0 ht1 ph i hi => ?_⟩
  have hab := hb.same
  obtain ⟨U, hU, _⟩ := C02_modes_solve_transfer_equation h hb.sound hb.rescalable
  have hy := stream_mem hb.sound.gauss hi
  rw [evaluates_series h hb.intensities hb.uncorrected hU hF ht0 (by rwa [hab.bottom_eq]) hi ph, hb.modes, hab.nLeg, hb.sun,
    sky_unique hacc hpk hp hr hw (sky_of_modes hacc hB hr.cont fun m _ => hv m) t ⟨ht0, ht1⟩ _ hy.1 hy.2 ph, ← sum_sub_distrib]
  refine (abs_sum_le_sum_abs _ _).trans ?_
  calc ∑ m ∈ range (nLeg a), |U m t i * Real.cos (m * (a.phi0 - ph)) - v m t (stream (nHalf b) (node E b) i) * Real.cos (m * (a.phi0 - ph))|
      ≤ ∑ _m ∈ range (nLeg a), ε / nLeg a := sum_le_sum fun m hm => by
        rw [← sub_mul, abs_mul]
        have := hN m (mem_range.1 hm) E b J R U hb ((le_sup (f := N) hm).trans hNb) h hU t ht0 ht1 i hi
        exact (mul_le_of_le_one_right (abs_nonneg _) (Real.abs_cos_le_one _)).trans this
    _ = ε := by rw [sum_const, card_range, nsmul_eq_mul]; field_simp

/-- **C114.** With sufficiently many streams the intensities no longer depend on their number: the intensities that two calls describing the same atmosphere return at nearby depths,
azimuths and directions, away from the horizon, differ by at most `ε`. -/
theorem C114_skies_agree (hacc : Accepted a) (hpk : ∀ l < a.tauArr.n, peak a l < 1) (hn : NothingNeglected a) (hp : NonnegPhase a) (hr : AbsorbingBDRF a rho)
    (hB : a.bdrf.length ≤ nLeg a) (hu : Tame up) (hd : Tame down) {ε δ : ℝ} (hε : 0 < ε) (hδ : 0 < δ) :
    ∃ N₀ : ℕ, ∃ η > 0, ∀ (E E' : Ext) (b b' : Args) (J J' : Junk) (R R' : Solved) (F F' : Fields),
      (AsksForSky E a rho up down b ∧ N₀ ≤ nHalf b ∧ pydisort E J b = .ok R ∧ Evaluates b R F) →
      (AsksForSky E' a rho up down b' ∧ N₀ ≤ nHalf b' ∧ pydisort E' J' b' = .ok R' ∧ Evaluates b' R' F') →
      ∀ t ∈ Set.Icc 0 (bottom a), ∀ t' ∈ Set.Icc 0 (bottom a), ∀ ph ∈ Set.Icc 0 (2 * Real.pi), ∀ ph' ∈ Set.Icc 0 (2 * Real.pi),
      ∀ i < 2 * nHalf b, ∀ i' < 2 * nHalf b', δ ≤ |stream (nHalf b) (node E b) i| → δ ≤ |stream (nHalf b') (node E' b') i'| →
      |t - t'| < η → |ph - ph'| < η → |stream (nHalf b) (node E b) i - stream (nHalf b') (node E' b') i'| < η →
      |F.u t ph i - F'.u t' ph' i'| ≤ ε := by
  obtain ⟨w, hw⟩ := (C112_sky_exists hacc hpk hp hr hB hu hd).1
  obtain ⟨N₀, hN⟩ := C113_sky_converges hacc hpk hn hp hr hB hu hd hw (show 0 < ε / 3 by positivity)
  set P : Set ℝ := Set.Icc (-1) 1 ∩ {y | δ ≤ |y|} with hP
  have hPc : IsCompact P := isCompact_Icc.inter_right (isClosed_le continuous_const continuous_abs)
  have hK : IsCompact (Set.Icc 0 (bottom a) ×ˢ P ×ˢ Set.Icc 0 (2 * Real.pi)) := isCompact_Icc.prod (hPc.prod isCompact_Icc)
  have huc := hK.uniformContinuousOn_of_continuous (f := fun p : ℝ × ℝ × ℝ => w p.1 p.2.1 p.2.2) (hw.cont.mono fun p hp =>
    ⟨hp.1, ⟨hp.2.1.1, fun h0 => by
      have h1 : δ ≤ |p.2.1| := hp.2.1.2
      rw [Set.mem_singleton_iff.1 h0, abs_zero] at h1
      linarith⟩, trivial⟩)
  obtain ⟨η, hη, hη'⟩ := Metric.uniformContinuousOn_iff.1 huc (ε / 3) (by positivity)
  refine ⟨N₀, η, hη, fun E E' b b' J J' R R' F F' ⟨p1, p2, p3, p4⟩ ⟨q1, q2, q3, q4⟩ t ht t' ht' ph hph ph' hph' i hi i' hi' hy hy' c1 c2 c3 => ?_⟩
  have x := hN E b J R F p1 p2 p3 p4 t ht.1 ht.2 ph i hi
  have y := hN E' b' J' R' F' q1 q2 q3 q4 t' ht'.1 ht'.2 ph' i' hi'
  have z := hη' (t, stream (nHalf b) (node E b) i, ph) ⟨ht, ⟨(stream_mem p1.sound.gauss hi).1, hy⟩, hph⟩
    (t', stream (nHalf b') (node E' b') i', ph') ⟨ht', ⟨(stream_mem q1.sound.gauss hi').1, hy'⟩, hph'⟩
    (by simp only [Prod.dist_eq, Real.dist_eq]; exact max_lt c1 (max_lt c3 c2))
  simp only [Real.dist_eq] at z
  rw [abs_le] at *
  rw [abs_lt] at z
  constructor <;> linarith [x.1, x.2, y.1, y.2, z.1, z.2]

/-! ### The hypotheses are met -/

section
variable {n : ℕ}

/-- `demoFull` with two Legendre coefficients and two Fourier modes for every number of streams: two delta-M scaled layers with internal sources, lit by a beam and from above, over an
emitting surface whose BDRF depends on the azimuth. -/
noncomputable def demoDome (n : ℕ) (x : ℝ) : Args :=
  { demo n x with
    leg := ⟨2, 2, fun _ k => if k = 0 then 1 else 11 / 32⟩
    NLeg := some 2
    NFourier := some 2
    bdrf := [.scalar (1 / 3), .scalar (1 / 4)] }

theorem demoDome_accepted (hn : 0 < n) {x : ℝ} (h0 : 0 < x) (h1 : x ≤ 1) : Accepted (demoDome n x) :=
  { demo_accepted hn h0 h1 with
    legRows := rfl
    legCols := by simp [demoDome]
    legVal := by
      intro l _ k _ hk
      simp only [demoDome]
      rw [if_neg (by omega)]
      norm_num
    modes := fun _ => by simp [demoDome]
    nLeg := by simp only [demoDome, demo, Option.getD_some]; omega }

theorem demoDome_nLeg (x : ℝ) : nLeg (demoDome n x) = 2 := rfl

theorem demoDome_peak (x : ℝ) {l : ℕ} (hl : l < (demoDome n x).tauArr.n) : peak (demoDome n x) l = 1 / 8 := demo_peak (n := n) (x := x) hl

theorem demoDome_legStar (x : ℝ) {l : ℕ} (hl : l < (demoDome n x).tauArr.n) {k : ℕ} (hk : k < 2) :
    legStar (demoDome n x) l k = if k = 0 then 1 else 1 / 4 := by
  unfold legStar leg
  rw [demoDome_peak x hl]
  simp only [demoDome]
  split_ifs <;> norm_num

theorem demoDome_nonneg (x : ℝ) : NonnegPhase (demoDome n x) := by
  intro l hl nu h1 h2
  unfold phase
  rw [demoDome_nLeg, sum_range_succ, sum_range_one, demoDome_legStar x hl (by norm_num), demoDome_legStar x hl (by norm_num), legendreP_one, legendreP_zero]
  norm_num
  linarith

theorem demoDome_neglect (x : ℝ) : NothingNeglected (demoDome n x) := by
  intro l hl k hk hsmall
  exfalso
  have h1 : 1 / 4 ≤ omegaStar (demoDome n x) l := by
    unfold omegaStar scale
    rw [demoDome_peak x hl]
    simp only [demoDome, demo]
    split_ifs <;> norm_num
  have h2 := hsmall 1 (by rw [demoDome_nLeg] at hk; omega) (by rw [demoDome_nLeg]; norm_num)
  rw [demoDome_legStar x hl (by norm_num), abs_of_nonneg (by norm_num; linarith)] at h2
  norm_num at h2
  linarith

theorem demoDome_rho (x : ℝ) : SurfaceIs (demoDome n x) fullRho := by
  intro m _ M hM
  rcases m with _ | _ | m
  · simp only [demoDome, List.getElem?_cons_zero, Option.some.injEq] at hM
    subst hM
    intro _ _; simp [fullRho]
  · simp only [demoDome, zero_add, List.getElem?_cons_succ, List.getElem?_cons_zero, Option.some.injEq] at hM
    subst hM
    intro _ _; simp [fullRho]
  · simp [demoDome] at hM

theorem demoDome_bdrf (x y z dph : ℝ) : 0 ≤ bdrfOf (demoDome n x) fullRho y z dph := demoFull_bdrf (n := n) x y z dph

theorem demoDome_absorbs (x : ℝ) : AbsorbingBDRF (demoDome n x) fullRho where
  cont := fun _ _ => continuousOn_const
  nonneg := fun _ _ _ _ _ => demoDome_bdrf _ _ _ _
  absorbs := ⟨1 / 2, by norm_num, fun y _ => by
    have hpi := Real.pi_ne_zero
    simp only [bdrfOf_integral, if_pos (show 0 < (demoDome n x).bdrf.length from Nat.succ_pos _), fullRho, if_true]
    rw [intervalIntegral.integral_mul_const, integral_id]
    field_simp
    norm_num⟩

theorem demoDome_nHalf (x : ℝ) : nHalf (demoDome n x) = n := demo_nHalf x

theorem demoDome_fair (hn : 0 < n) (x : ℝ) : FairBDRF (demoDome n x) (node refExt (demoDome n x)) (weight refExt (demoDome n x)) fullRho := by
  have hg : GaussContract refExt (nHalf (demoDome n x)) := by rw [demoDome_nHalf]; exact refExt_gauss hn
  refine ⟨fun _ _ _ _ _ => demoDome_bdrf _ _ _ _, fun _ _ _ => demoDome_bdrf _ _ _ _, fun i hi => ?_⟩
  unfold reflectance
  rw [if_pos (by simp [demoDome])]
  simp only [fullRho, if_true]
  rw [← sum_mul, sum_weight_node hg (by rw [demoDome_nHalf]; exact hn)]
  norm_num

theorem demoDome_wellPosed (hn : 0 < n) {x : ℝ} (h0 : 0 < x) (h1 : x ≤ 1) (hb : BeamRegular (demoDome n x) (node refExt (demoDome n x)) (weight refExt (demoDome n x))) :
    WellPosed refExt (demoDome n x) := by
  refine (C65_physical_problems_are_well_posed (demoDome_accepted hn h0 h1) (by rw [demoDome_nHalf]; exact refExt_gauss hn) refExt_eig ?_
    (demoDome_nonneg x) hb (demoDome_rho x) (demoDome_fair hn x) (fun _ _ _ _ => rfl) trivial trivial (Or.inr rfl) (Or.inr (Nat.le_of_ble_eq_true rfl)) (fun h => ?_)).1
  · intro l hl
    rw [demoDome_peak x hl]; norm_num
  · simp [demoDome, demo] at h

/-- One beam direction is regular for all numbers of streams. -/
theorem demoDome_beam : ∃ x : ℝ, 0 < x ∧ x ≤ 1 ∧ ∀ n, BeamRegular (demoDome n x) (node refExt (demoDome n x)) (weight refExt (demoDome n x)) := by
  set bad : ℕ → Set ℝ := fun n => {x | x ∈ Set.Ioc (0 : ℝ) 1 ∧ ¬ BeamRegular (demoDome n x) (node refExt (demoDome n x)) (weight refExt (demoDome n x))} with hbad
  have hfin : ∀ n, (bad n).Finite := by
    intro n
    by_contra hinf
    obtain ⟨x, hx, hb⟩ := exists_beamRegular_in (demoDome n 1) (node refExt (demoDome n 1)) (weight refExt (demoDome n 1)) (S := bad n) (fun _ h => h.1) hinf
    exact hx.2 hb
  have hc : (⋃ n, bad n).Countable := Set.countable_iUnion fun n => (hfin n).countable
  obtain ⟨x, hx, hx'⟩ : ∃ x ∈ Set.Ioc (0 : ℝ) 1, x ∉ ⋃ n, bad n := by
    by_contra h
    push Not at h
    have := Cardinal.Real.Ioc_countable_iff.1 (hc.mono h)
    linarith
  refine ⟨x, hx.1, hx.2, fun n => ?_⟩
  by_contra h
  exact hx' (Set.mem_iUnion.2 ⟨n, hx, h⟩)

theorem demoDome_sampled (x : ℝ) : Sampled (demoDome n x) (node refExt (demoDome n x)) (fun _ => 1) (fun _ => 1) := by
  constructor
  · intro i hi
    rfl
  · intro i hi
    rw [demoDome_nHalf] at hi
    simp only [demoDome, demo, bcVal, if_true, if_pos hi]
    split_ifs <;> rfl

theorem tame_one : Tame fun _ => 1 := ⟨continuousOn_const, ⟨1, fun _ _ => by simp⟩⟩

/-- C112 applies to it. -/
example (hn : 0 < n) {x : ℝ} (h0 : 0 < x) (h1 : x ≤ 1) : ∃ w, SkySolution (demoDome n x) fullRho (fun _ => 1) (fun _ => 1) w :=
  (C112_sky_exists (demoDome_accepted hn h0 h1) (fun l hl => by rw [demoDome_peak x hl]; norm_num) (demoDome_nonneg x) (demoDome_absorbs x) le_rfl tame_one tame_one).1

/-- The hypotheses of C113 and C114 are met by calls with every number of streams that describe one atmosphere. -/
example : ∃ (a : Args) (rho : ℕ → ℝ → ℝ → ℝ) (up down : ℝ → ℝ), Accepted a ∧ (∀ l < a.tauArr.n, peak a l < 1) ∧ NothingNeglected a ∧ NonnegPhase a
    ∧ AbsorbingBDRF a rho ∧ a.bdrf.length ≤ nLeg a ∧ Tame up ∧ Tame down ∧ 0 < a.I0 ∧ 1 < nLeg a ∧ rho 1 1 1 ≠ 0
    ∧ ∀ m, 0 < m → ∀ J, ∃ b R F, AsksForSky refExt a rho up down b ∧ nHalf b = m ∧ pydisort refExt J b = .ok R ∧ Evaluates b R F := by
  obtain ⟨x, h0, h1, hb⟩ := demoDome_beam
  refine ⟨demoDome 1 x, fullRho, fun _ => 1, fun _ => 1, demoDome_accepted one_pos h0 h1, fun l hl => by rw [demoDome_peak x hl]; norm_num, demoDome_neglect x, demoDome_nonneg x,
    demoDome_absorbs x, le_rfl, tame_one, tame_one, one_pos, Nat.one_lt_two, by simp [fullRho], fun m hm J => ?_⟩
  have hw := demoDome_wellPosed hm h0 h1 (hb m)
  have hr : Rescalable (demoDome m x) := Or.inl (Or.inl one_pos)
  obtain ⟨R, e⟩ := pydisort_isOk hw J
  obtain ⟨F, f⟩ := evaluates_exists e hw.sound hr
  exact ⟨demoDome m x, R, F, ⟨⟨rfl, rfl, rfl, rfl, rfl, rfl, rfl, rfl, rfl⟩, rfl, rfl, rfl, rfl, demoDome_rho x, demoDome_sampled x, trivial, trivial, hr, hw.sound⟩, demoDome_nHalf x, e, f⟩

end

end Pydisort

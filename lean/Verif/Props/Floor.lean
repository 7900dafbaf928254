import Verif.Props.WholeLimit

/-!
# C120: the threshold `1e-8` keeps the intensities from converging

Specification used: `Spec.Significant`, `Spec.WholeSolution`, `Spec.AsksForWhole`.
-/

namespace Pydisort
open Finset Spec MeasureTheory

/-- Quadrature rules of high degree have a node near every point. -/
theorem rule_dense {y δ : ℝ} (hy : y ∈ Set.Ioc (0 : ℝ) 1) (hδ : 0 < δ) : ∃ d : ℕ, ∀ n mu w, Rule d n mu w → ∃ i < n, |mu i - y| < δ := by
  set f : ℝ → ℝ := fun x => max 0 (δ - |x - y|) with hf
  have hc : Continuous f := by fun_prop
  have hint : 0 < ∫ x in (0 : ℝ)..1, f x := by
    refine intervalIntegral.integral_pos zero_lt_one hc.continuousOn (fun x _ => le_max_left _ _) ⟨y, ⟨hy.1.le, hy.2⟩, ?_⟩
    simp only [hf, sub_self, abs_zero, sub_zero]
    exact lt_max_of_lt_right hδ
  obtain ⟨d, hd⟩ := quad_continuous hc.continuousOn (half_pos hint)
  refine ⟨d, fun n mu w hR => ?_⟩
  by_contra hno
  push Not at hno
  have hz : ∑ i ∈ range n, w i * f (mu i) = 0 := sum_eq_zero fun i hi => by
    have := hno i (mem_range.1 hi)
    simp only [hf]
    rw [max_eq_left (by linarith), mul_zero]
  have := hd n mu w hR
  rw [hz, zero_sub, abs_neg, abs_of_pos hint] at this
  linarith

section
variable {E : Ext} {a b : Args} {g : ℕ → ℕ → ℝ} {rho : ℕ → ℝ → ℝ → ℝ} {up down : ℝ → ℝ} {w : ℝ → ℝ → ℝ → ℝ} {J : Junk} {R : Solved} {F : Fields}

/-- A Fourier mode that is neither lit, nor reflected, nor scattered is dark. -/
theorem mode_dark (hacc : Accepted a) (hg : GaussContract E (nHalf a)) {m : ℕ} (hm : m ≠ 0) (hB : a.bdrf.length ≤ m) (hbp : Azimuthless a.bpos) (hbn : Azimuthless a.bneg)
    (hweak : ∀ l < a.tauArr.n, ¬ Significant (omegaStar a l) (nLeg a) (legStar a l) m) {r : ℝ → ℝ → ℝ} {V : ℝ → ℕ → ℝ}
    (hV : IsSolution a (node E a) (weight E a) r m V) : ∀ t ∈ Set.Icc 0 (bottom a), ∀ i < 2 * nHalf a, V t i = 0 := by
  intro t ht i hi
  obtain ⟨hy, hy0⟩ := stream_mem (a := a) hg hi
  refine abs_nonpos_iff.1 (attenuate_of hacc (c := fun l => scale a l) (fun l hl => Args.scale_pos hacc hl) (hV.cont i hi) le_rfl hy0 ?_ ?_ ?_ t ht)
  · intro l hl t h0 h1
    obtain ⟨d, hd, e⟩ := hV.ode l hl t h0 h1 i hi
    refine ⟨d, 0, hd, e.trans ?_, by simp⟩
    unfold rteUser rteRHS kernel beamSource
    simp [if_neg (hweak l hl), if_neg hm]
  · intro hneg
    have hin : ¬ i < nHalf a := fun h => by
      have := (node_pos hg h).1
      rw [stream, if_pos h] at hneg
      linarith
    obtain ⟨j, rfl⟩ : ∃ j, i = nHalf a + j := ⟨i - nHalf a, by omega⟩
    rw [hV.top j (by omega), bcVal_mode hbn hm, abs_zero]
  · intro hpos
    have hin : i < nHalf a := by
      by_contra h
      have := (node_pos hg (show i - nHalf a < nHalf a by omega)).1
      rw [stream, if_neg h] at hpos
      linarith
    rw [hV.bot i hin, bcVal_mode hbp hm, if_neg (by omega)]
    simp

/-- **C120.** If no layer has a Legendre coefficient beyond the zeroth for which `ω/2 (2ℓ+1) g_ℓ` exceeds `1e-8`, and the surface does not prefer an azimuth, then the returned intensities do
not depend on the azimuth. The beam may be oblique and the coefficients need not be zero. -/
theorem C120_weak_anisotropy_is_invisible (h : pydisort E J a = .ok R) (hS : Sound E a) (hres : Rescalable a) (hf : a.onlyFlux = false) (hnt : a.NTcor = false)
    (hbp : Azimuthless a.bpos) (hbn : Azimuthless a.bneg) (hrho : SurfaceIs a rho) (hB : a.bdrf.length ≤ 1)
    (hweak : ∀ l < a.tauArr.n, ∀ k, 0 < k → k < nLeg a → |omegaStar a l / 2 * ((2 * (k : ℝ) + 1) * legStar a l k)| ≤ 1 / 10 ^ 8) (hF : Evaluates a R F) :
    ∀ t, 0 ≤ t → t ≤ bottom a → ∀ i < 2 * nHalf a, ∀ ph ph', F.u t ph i = F.u t ph' i := by
  obtain ⟨U, hU, -⟩ := C02_modes_solve_transfer_equation h hS hres
  intro t h0 h1 i hi ph ph'
  rw [evaluates_series h hf hnt hU hF h0 h1 hi ph, evaluates_series h hf hnt hU hF h0 h1 hi ph']
  refine sum_congr rfl fun m hm => ?_
  rcases Nat.eq_zero_or_pos m with rfl | hm0
  · simp
  · rw [mode_dark (pydisort_ok h).1 hS.gauss hm0.ne' (by omega) hbp hbn (fun l hl ⟨k, k1, k2, k3⟩ => absurd k3 (not_lt.2 (hweak l hl k (by omega) k2)))
      (modes_isSolution h hS hres hbp hbn hrho hU (mem_range.1 hm)) t ⟨h0, h1⟩ i hi]
    simp

/-- An oblique beam on a layer that scatters anisotropically makes the exact solution depend on the azimuth. -/
theorem whole_depends (hacc : Accepted a) (hgs : ∀ l < a.tauArr.n, PhaseSeries (g l)) (hw : WholeSolution a g rho up down w) (hI : 0 < a.I0) {l : ℕ} (hl : l < a.tauArr.n)
    (ho : 0 < a.omega.get l) {y ph₁ ph₂ : ℝ} (hy : y ∈ Set.Icc (-1 : ℝ) 1) (hy0 : y ≠ 0)
    (hne : wholePhase (g l) (cosAngle y ph₁ (-a.mu0) a.phi0) ≠ wholePhase (g l) (cosAngle y ph₂ (-a.mu0) a.phi0)) :
    ∃ t ∈ Set.Icc 0 (bottom a), ∃ y ∈ Set.Icc (-1 : ℝ) 1, y ≠ 0 ∧ ∃ ph₁ ph₂, w t y ph₁ ≠ w t y ph₂ := by
  by_contra hno
  push Not at hno
  have hpi := Real.pi_pos
  have hlt := bdry_lt hacc hl
  obtain ⟨t, h0, h1⟩ := exists_between hlt
  have htI := layer_in_range hacc hl h0 h1
  obtain ⟨d₁, k₁, e₁⟩ := hw.ode l hl t h0 h1 y hy hy0 ph₁
  obtain ⟨d₂, k₂, e₂⟩ := hw.ode l hl t h0 h1 y hy hy0 ph₂
  have hev : (fun x => w x y ph₁) =ᶠ[nhds t] fun x => w x y ph₂ := by
    filter_upwards [Ioo_mem_nhds h0 h1] with x hx
    exact hno x (layer_in_range hacc hl hx.1 hx.2) y hy hy0 ph₁ ph₂
  have hd : d₁ = d₂ := (k₁.congr_of_eventuallyEq hev.symm).unique k₂
  have hscat : ∀ ph, wholeScatter (g l) (w t) y ph = ∫ z in (-1 : ℝ)..1, 2 * Real.pi * meanPhase (g l) y z * w t z 0 := fun ph => by
    unfold wholeScatter
    refine intervalIntegral.integral_congr_ae ?_
    have h0 : ∀ᵐ z : ℝ, z ≠ 0 := by simp [ae_iff]
    filter_upwards [h0] with z hz0 hz
    rw [Set.uIoc_of_le (by norm_num)] at hz
    have hz' : z ∈ Set.Icc (-1 : ℝ) 1 := ⟨hz.1.le, hz.2⟩
    rw [← whole_mean (hgs l hl) hy hz' ph, ← intervalIntegral.integral_mul_const]
    exact intervalIntegral.integral_congr fun p _ => by
      beta_reduce
      rw [hno t htI z hz' hz0 p 0]
  rw [hd] at e₁
  have e := e₁.symm.trans e₂
  unfold wholeRHS at e
  rw [hscat ph₁, hscat ph₂, hno t htI y hy hy0 ph₁ ph₂] at e
  have hc : 0 < a.omega.get l * a.I0 / (4 * Real.pi) * Real.exp (-t / a.mu0) := by positivity
  have e' : a.omega.get l * a.I0 / (4 * Real.pi) * Real.exp (-t / a.mu0) * wholePhase (g l) (cosAngle y ph₁ (-a.mu0) a.phi0)
      = a.omega.get l * a.I0 / (4 * Real.pi) * Real.exp (-t / a.mu0) * wholePhase (g l) (cosAngle y ph₂ (-a.mu0) a.phi0) := by linarith
  exact hne (mul_left_cancel₀ hc.ne' e')

/-- **C120, no convergence.** Let the coefficients beyond the zeroth all be below the threshold, and let the beam be oblique and the scattering anisotropic. Then there is an error that no number of
streams, coefficients and modes removes: every call with sufficiently many streams and no delta-M scaling is off by more than `ε` somewhere. -/
theorem C120_error_that_stays (hacc : Accepted a) (hgs : ∀ l < a.tauArr.n, PhaseSeries (g l)) (hB : a.bdrf.length ≤ 1)
    (hweak : ∀ l < a.tauArr.n, ∀ k : ℕ, 0 < k → |a.omega.get l / 2 * ((2 * (k : ℝ) + 1) * g l k)| ≤ 1 / 10 ^ 8)
    (hI : 0 < a.I0) {l : ℕ} (hl : l < a.tauArr.n) (ho : 0 < a.omega.get l) {y ph₁ ph₂ : ℝ} (hy : y ∈ Set.Icc (-1 : ℝ) 1) (hy0 : y ≠ 0)
    (hne : wholePhase (g l) (cosAngle y ph₁ (-a.mu0) a.phi0) ≠ wholePhase (g l) (cosAngle y ph₂ (-a.mu0) a.phi0)) (hw : WholeSolution a g rho up down w) :
    ∃ N₀ : ℕ, ∃ ε > 0, ∀ (E : Ext) (b : Args) (J : Junk) (R : Solved) (F : Fields), AsksForWhole E a g rho up down b → N₀ ≤ nHalf b → (∀ l < a.tauArr.n, peak b l = 0) →
      pydisort E J b = .ok R → Evaluates b R F →
      ∃ t, 0 ≤ t ∧ t ≤ bottom a ∧ ∃ ph, ∃ i < 2 * nHalf b, ε < |F.u t ph i - w t (stream (nHalf b) (node E b) i) ph| := by
  obtain ⟨t, ht, z, hz, hz0, p₁, p₂, hd⟩ := whole_depends hacc hgs hw hI hl ho hy hy0 hne
  set D : ℝ → ℝ := fun y => w t y p₁ - w t y p₂ with hD
  have hDz : 0 < |D z| := abs_pos.2 (sub_ne_zero.2 hd)
  have hcont : ContinuousOn D (Set.Icc (-1) 1 \ {0}) :=
    (hw.cont.comp (f := fun y => (t, y, p₁)) (by fun_prop) fun y hy => ⟨ht, hy, trivial⟩).sub (hw.cont.comp (f := fun y => (t, y, p₂)) (by fun_prop) fun y hy => ⟨ht, hy, trivial⟩)
  obtain ⟨δ, hδ, hnear⟩ := Metric.continuousOn_iff.1 hcont z ⟨hz, hz0⟩ (|D z| / 2) (by positivity)
  obtain ⟨d, hdense⟩ := rule_dense (y := |z|) ⟨abs_pos.2 hz0, abs_le.2 hz⟩ hδ
  refine ⟨d + 1, |D z| / 8, by positivity, fun E b J R F hb hN hpk h hF => ?_⟩
  have hT := hb.truncates
  have hg := hb.sound.gauss
  have hbb : bottom b = bottom a := by unfold bottom; rw [hT.tau]
  obtain ⟨i, hi, hclose⟩ : ∃ i < 2 * nHalf b, |stream (nHalf b) (node E b) i - z| < δ := by
    obtain ⟨i, hi, hc⟩ := hdense _ _ _ (rule_of_gauss hg hN)
    rcases lt_or_gt_of_ne hz0 with hneg | hpos
    · refine ⟨nHalf b + i, by omega, ?_⟩
      rw [stream, if_neg (by omega), Nat.add_sub_cancel_left]
      rw [abs_of_neg hneg] at hc
      rwa [show -node E b i - z = -(node E b i - -z) by ring, abs_neg]
    · refine ⟨i, by omega, ?_⟩
      rw [stream, if_pos hi]
      rwa [abs_of_pos hpos] at hc
  have hs := stream_mem (a := b) hg hi
  set x := stream (nHalf b) (node E b) i
  have hDx := hnear x ⟨hs.1, hs.2⟩ (by rw [Real.dist_eq]; exact hclose)
  rw [Real.dist_eq] at hDx
  have hsame := C120_weak_anisotropy_is_invisible h hb.sound hb.rescalable hb.intensities hb.uncorrected hb.bpos hb.bneg hb.surface (by rw [hb.modes]; exact hB)
    (fun l hl k hk0 hk => by
      have hl' : l < a.tauArr.n := by rwa [hT.tau] at hl
      have e1 : omegaStar b l = a.omega.get l := by unfold omegaStar scale; rw [hpk l hl', hT.omega]; simp
      have e2 : legStar b l k = g l k := by
        unfold legStar
        rw [hpk l hl', truncates_leg hT hl' (hgs l hl') hk]
        simp
      rw [e1, e2]
      exact hweak l hl' k hk0) hF t ht.1 (by rw [hbb]; exact ht.2) i hi p₁ p₂
  by_contra hno
  push Not at hno
  have n1 := hno t ht.1 ht.2 p₁ i hi
  have n2 := hno t ht.1 ht.2 p₂ i hi
  rw [hsame] at n1
  have n3 : |D x| ≤ |D z| / 4 := by
    have e : D x = (F.u t p₂ i - w t x p₂) - (F.u t p₂ i - w t x p₁) := by simp only [hD]; ring
    rw [e]
    refine (abs_sub _ _).trans ?_
    linarith
  have n4 := abs_sub_abs_le_abs_sub (D z) (D x)
  rw [abs_sub_comm] at hDx
  linarith

end

/-! ### The hypotheses are met -/

/-- The coefficients of a phase function that is almost isotropic. -/
noncomputable def faint (k : ℕ) : ℝ := if k = 0 then 1 else if k = 1 then 1 / 10 ^ 9 else 0

theorem faint_zero {k : ℕ} (hk : k ∉ range 2) : faint k = 0 := by
  have := mem_range.not.1 hk
  unfold faint
  rw [if_neg (by omega), if_neg (by omega)]

theorem faint_phase : PhaseSeries faint := ⟨if_pos rfl, summable_of_ne_finset_zero (s := range 2) fun k hk => by rw [faint_zero hk]; simp⟩

theorem faint_whole (nu : ℝ) : wholePhase faint nu = 1 + 3 / 10 ^ 9 * nu := by
  unfold wholePhase
  rw [tsum_eq_sum (s := range 2) fun k hk => by rw [faint_zero hk]; simp, sum_range_succ, sum_range_one, legendreP_zero, legendreP_one]
  norm_num [faint]

/-- `demo` with these coefficients and without delta-M scaling. -/
noncomputable def demoPale (n : ℕ) (x : ℝ) : Args := { demo n x with leg := ⟨2, 2 * n, fun _ k => faint k⟩, fArr := ⟨2, fun _ => 0⟩ }

section
variable {n : ℕ}

theorem demoPale_nHalf (x : ℝ) : nHalf (demoPale n x) = n := demo_nHalf x

theorem demoPale_nLeg (x : ℝ) : nLeg (demoPale n x) = n := by simp [nLeg, demoPale, demo]

theorem demoPale_peak (x : ℝ) (l : ℕ) : peak (demoPale n x) l = 0 := by
  unfold peak
  split_ifs <;> rfl

theorem faint_mem (k : ℕ) : 0 ≤ faint k ∧ faint k ≤ 1 := by
  unfold faint
  split_ifs <;> norm_num

theorem demoPale_accepted (hn : 0 < n) {x : ℝ} (h0 : 0 < x) (h1 : x ≤ 1) : Accepted (demoPale n x) :=
  { demo_accepted hn h0 h1 with
    legVal := fun l _ k hk0 hk => by
      show -1 < faint k ∧ faint k < 1
      unfold faint
      rw [if_neg (by omega)]
      split_ifs <;> norm_num
    peakLen := Or.inr rfl
    peak := fun k _ => ⟨le_rfl, zero_le_one⟩ }

/-- One oblique beam direction is regular for all numbers of streams. -/
theorem demoPale_beam : ∃ x : ℝ, 0 < x ∧ x < 1 ∧ ∀ n, BeamRegular (demoPale n x) (node refExt (demoPale n x)) (weight refExt (demoPale n x)) := by
  set bad : ℕ → Set ℝ := fun n => {x | x ∈ Set.Ioc (0 : ℝ) 1 ∧ ¬ BeamRegular (demoPale n x) (node refExt (demoPale n x)) (weight refExt (demoPale n x))} with hbad
  have hfin : ∀ n, (bad n).Finite := by
    intro n
    by_contra hinf
    obtain ⟨x, hx, hb⟩ := exists_beamRegular_in (demoPale n 1) (node refExt (demoPale n 1)) (weight refExt (demoPale n 1)) (S := bad n) (fun _ h => h.1) hinf
    exact hx.2 hb
  have hc : (⋃ n, bad n).Countable := Set.countable_iUnion fun n => (hfin n).countable
  obtain ⟨x, hx, hx'⟩ : ∃ x ∈ Set.Ioc (0 : ℝ) (1 / 2), x ∉ ⋃ n, bad n := by
    by_contra h
    push Not at h
    have := Cardinal.Real.Ioc_countable_iff.1 (hc.mono h)
    linarith
  have hx1 : x < 1 := by linarith [hx.2]
  refine ⟨x, hx.1, hx1, fun n => ?_⟩
  by_contra h
  exact hx' (Set.mem_iUnion.2 ⟨n, ⟨hx.1, hx1.le⟩, h⟩)

theorem demoPale_wellPosed (hn : 0 < n) {x : ℝ} (h0 : 0 < x) (h1 : x ≤ 1) (hb : BeamRegular (demoPale n x) (node refExt (demoPale n x)) (weight refExt (demoPale n x))) :
    WellPosed refExt (demoPale n x) := by
  have hgc : GaussContract refExt (nHalf (demoPale n x)) := by rw [demoPale_nHalf]; exact refExt_gauss hn
  have hp : ∀ l < (demoPale n x).tauArr.n, 0 ≤ peak (demoPale n x) l ∧ peak (demoPale n x) l < 1 := fun l _ => by
    rw [demoPale_peak]
    exact ⟨le_rfl, one_pos⟩
  refine ⟨demoPale_accepted hn h0 h1, hgc, refExt_eig, fun l hl => (hp l hl).2, ?_, hb, ?_, trivial, trivial, Or.inr rfl, Or.inr (by simp [demoPale, demo]),
    by simp [demoPale, demo]⟩
  · refine dissipates_of_nLeg_le hgc ?_ (demoPale_accepted hn h0 h1).omega hp ?_
    · rw [demoPale_nHalf, demoPale_nLeg]
    · intro l _ k _
      unfold leg
      split_ifs with h
      · exact le_rfl
      · exact (faint_mem k).2
  · exact passive_lambertian hgc (by rw [demoPale_nHalf]; exact hn) (by norm_num) rfl

theorem demoPale_sampled (x : ℝ) : Sampled (demoPale n x) (node refExt (demoPale n x)) (fun _ => 1) (fun _ => 1) :=
  ⟨fun _ _ => rfl, fun i hi => by
    rw [demoPale_nHalf] at hi
    simp only [demoPale, demo, bcVal, if_true, if_pos hi]
    split_ifs <;> rfl⟩

theorem demoPale_absorbs (x : ℝ) : AbsorbingBDRF (demoPale n x) fun _ _ _ => 1 / 3 where
  cont := fun _ _ => continuousOn_const
  nonneg := fun y _ z _ d => by
    have : bdrfOf (demoPale n x) (fun _ _ _ => 1 / 3) y z d = 1 / 3 := by simp [bdrfOf, demoPale, demo]
    rw [this]; norm_num
  absorbs := ⟨1 / 2, by norm_num, fun y _ => by
    have hpi := Real.pi_ne_zero
    simp only [bdrfOf_integral, if_pos (show 0 < (demoPale n x).bdrf.length from Nat.succ_pos _)]
    rw [intervalIntegral.integral_mul_const, integral_id]
    field_simp
    norm_num⟩

theorem demoPale_nonneg (x : ℝ) : NonnegWhole (demoPale n x) fun _ => faint := fun _ _ nu hnu => by
  rw [faint_whole]
  have := hnu.1
  norm_num
  linarith

theorem demoPale_weak (x : ℝ) : ∀ l < (demoPale n x).tauArr.n, ∀ k : ℕ, 0 < k → |(demoPale n x).omega.get l / 2 * ((2 * (k : ℝ) + 1) * faint k)| ≤ 1 / 10 ^ 8 := by
  intro l _ k hk
  unfold faint
  rw [if_neg hk.ne']
  by_cases h1 : k = 1
  · rw [if_pos h1, h1]
    simp only [demoPale, demo]
    split_ifs <;> rw [abs_of_nonneg (by norm_num)] <;> norm_num
  · rw [if_neg h1]
    simp

theorem demoPale_uneven {x : ℝ} (h0 : 0 < x) (h1 : x < 1) :
    wholePhase faint (cosAngle (1 / 2) 1 (-(demoPale n x).mu0) (demoPale n x).phi0) ≠ wholePhase faint (cosAngle (1 / 2) (1 + Real.pi) (-(demoPale n x).mu0) (demoPale n x).phi0) := by
  rw [faint_whole, faint_whole]
  simp only [cosAngle, demoPale, demo, sub_self, Real.cos_zero, add_sub_cancel_left, Real.cos_pi]
  have h2 : 0 < Real.sqrt (1 - (1 / 2 : ℝ) ^ 2) * Real.sqrt (1 - (-x) ^ 2) := mul_pos (Real.sqrt_pos.2 (by norm_num)) (Real.sqrt_pos.2 (by nlinarith))
  intro h
  linarith

/-- **C120, a case.** One atmosphere to which C117 and C119 apply and calls, as finely resolved as desired, whose intensities keep away from the exact ones: the last term in the bound of C119 cannot be
omitted. -/
theorem C120_no_convergence : ∃ (a : Args) (g : ℕ → ℕ → ℝ) (rho : ℕ → ℝ → ℝ → ℝ) (up down : ℝ → ℝ) (w : ℝ → ℝ → ℝ → ℝ),
    Accepted a ∧ (∀ l < a.tauArr.n, PhaseSeries (g l)) ∧ NonnegWhole a g ∧ AbsorbingBDRF a rho ∧ Tame up ∧ Tame down ∧ WholeSolution a g rho up down w
    ∧ ∃ ε > 0, ∀ (N₀ : ℕ) (J : Junk), ∃ (E : Ext) (b : Args) (R : Solved) (F : Fields), AsksForWhole E a g rho up down b ∧ N₀ ≤ nFourier b ∧ (∀ l < a.tauArr.n, peak b l = 0)
      ∧ pydisort E J b = .ok R ∧ Evaluates b R F
      ∧ ∃ t, 0 ≤ t ∧ t ≤ bottom a ∧ ∃ ph, ∃ i < 2 * nHalf b, ε < |F.u t ph i - w t (stream (nHalf b) (node E b) i) ph| := by
  obtain ⟨x, h0, h1, hb⟩ := demoPale_beam
  have hacc := demoPale_accepted (n := 1) one_pos h0 h1.le
  obtain ⟨w, hw⟩ := (C117_whole_solution_exists hacc (fun _ _ => faint_phase) (demoPale_nonneg x) (demoPale_absorbs x) tame_one tame_one).1
  obtain ⟨N, ε, hε, key⟩ := C120_error_that_stays hacc (fun _ _ => faint_phase) (Nat.le_of_ble_eq_true rfl) (demoPale_weak x) one_pos (l := 0) (by simp [demoPale, demo])
    (by norm_num [demoPale, demo]) (y := 1 / 2) (by constructor <;> norm_num) (by norm_num) (demoPale_uneven h0 h1) hw
  refine ⟨demoPale 1 x, fun _ => faint, fun _ _ _ => 1 / 3, fun _ => 1, fun _ => 1, w, hacc, fun _ _ => faint_phase, demoPale_nonneg x, demoPale_absorbs x, tame_one, tame_one, hw, ε, hε,
    fun N₀ J => ?_⟩
  set m := max (max N N₀) 1 with hm
  have hm0 : 0 < m := by omega
  have hW := demoPale_wellPosed hm0 h0 h1.le (hb m)
  have hr : Rescalable (demoPale m x) := demo_rescalable x
  obtain ⟨R, e⟩ := pydisort_isOk hW J
  obtain ⟨F, f⟩ := evaluates_exists e hW.sound hr
  have hask : AsksForWhole refExt (demoPale 1 x) (fun _ => faint) (fun _ _ _ => 1 / 3) (fun _ => 1) (fun _ => 1) (demoPale m x) :=
    ⟨⟨rfl, rfl, rfl, rfl, rfl, Iff.rfl, fun _ _ _ _ _ => rfl⟩, rfl, rfl, rfl, rfl, fun k _ => demo_rho (n := m) x k, demoPale_sampled x, trivial, trivial, hr, hW.sound⟩
  refine ⟨refExt, demoPale m x, R, F, hask, ?_, fun l _ => demoPale_peak x l, e, f, key _ _ _ _ _ hask (by rw [demoPale_nHalf]; omega) (fun l _ => demoPale_peak x l) e f⟩
  have : nFourier (demoPale m x) = m := by simp [nFourier, demoPale, demo]
  omega

end

end Pydisort

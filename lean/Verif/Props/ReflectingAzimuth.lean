import Verif.Props.Reflecting

/-!
# C89: less absorption, more light in every direction

Specification used: `Spec.reflecting`, `Spec.DarkerAround`, `Spec.NonnegPhase`, `Spec.FairBDRF`, `Spec.NonnegEmission`, `Spec.NothingNeglected`.
-/

namespace Pydisort
open Finset Spec

variable {E : Ext} {a : Args} {om₁ om₂ : A1 ℝ} {B₁ B₂ : List BDRFMode}

theorem integral_mul_sub {f g h : ℝ → ℝ} {x y : ℝ} (hf : Continuous f) (hg : Continuous g) (hh : Continuous h) :
    ∫ t in x..y, f t * (g t - h t) = (∫ t in x..y, f t * g t) - ∫ t in x..y, f t * h t := by
  rw [← intervalIntegral.integral_sub (Continuous.intervalIntegrable (by fun_prop) _ _) (Continuous.intervalIntegrable (by fun_prop) _ _)]
  simp only [mul_sub]

theorem darker_fair (hg : GaussContract E (nHalf a)) {rho₁ rho₂ : ℕ → ℝ → ℝ → ℝ} (hd : DarkerAround a (node E a) om₁ om₂ B₁ B₂ rho₁ rho₂)
    (hs : FairBDRF (reflecting a om₂ B₂) (node E a) (weight E a) rho₂) : FairBDRF (reflecting a om₁ B₁) (node E a) (weight E a) rho₁ := by
  refine ⟨fun i hi j hj q => (hd.surface i hi j hj q).1, fun i hi q => (hd.beam i hi q).1, fun i hi => le_trans ?_ (hs.bounded i hi)⟩
  have hpi := Real.pi_pos
  have hi' : i < nHalf a := hi
  rw [reflectance_integral (a := reflecting a om₁ B₁) rho₁ _ 0, reflectance_integral (a := reflecting a om₂ B₂) rho₂ _ 0]
  change 1 / Real.pi * (∑ k ∈ range (nHalf a), weight E a k * node E a k * _) ≤ 1 / Real.pi * (∑ k ∈ range (nHalf a), weight E a k * node E a k * _)
  refine mul_le_mul_of_nonneg_left (sum_le_sum fun k hk => ?_) (by positivity)
  have hk' := mem_range.1 hk
  refine mul_le_mul_of_nonneg_left ?_ (mul_pos (weight_pos hg hk') (node_pos hg hk').1).le
  refine intervalIntegral.integral_mono_on (by positivity) (Continuous.intervalIntegrable (by unfold bdrfOf; fun_prop) _ _)
    (Continuous.intervalIntegrable (by unfold bdrfOf; fun_prop) _ _) fun ph' _ => (hd.surface i hi' k hk' _).2

/-- The Fourier series of the solutions do not decrease when something absorbs less. -/
theorem series_brighter (hacc₁ : Accepted (reflecting a om₁ B₁)) (hacc₂ : Accepted (reflecting a om₂ B₂)) (hg : GaussContract E (nHalf a))
    (hpk : ∀ l < a.tauArr.n, peak a l < 1) (hN : nFourier a = nLeg a) (hn₁ : NothingNeglected (reflecting a om₁ B₁))
    (hn₂ : NothingNeglected (reflecting a om₂ B₂)) (hbp : Azimuthless a.bpos) (hbn : Azimuthless a.bneg) (hB₁ : B₁.length ≤ nFourier a)
    (hB₂ : B₂.length ≤ nFourier a) {rho₁ rho₂ : ℕ → ℝ → ℝ → ℝ} (hd : DarkerAround a (node E a) om₁ om₂ B₁ B₂ rho₁ rho₂) (hp : NonnegPhase a)
    (hs : FairBDRF (reflecting a om₂ B₂) (node E a) (weight E a) rho₂) (hq : NonnegEmission a) {U₁ U₂ : ℕ → ℝ → ℕ → ℝ}
    (h₁ : ∀ m < nFourier a, IsSolution (reflecting a om₁ B₁) (node E a) (weight E a) (rho₁ m) m (U₁ m))
    (h₂ : ∀ m < nFourier a, IsSolution (reflecting a om₂ B₂) (node E a) (weight E a) (rho₂ m) m (U₂ m)) :
    ∀ t, 0 ≤ t → t ≤ bottom a → ∀ ph, ∀ i < 2 * nHalf a, 0 ≤ ∑ m ∈ range (nFourier a), U₁ m t i * Real.cos (m * (a.phi0 - ph)) ∧
      ∑ m ∈ range (nFourier a), U₁ m t i * Real.cos (m * (a.phi0 - ph)) ≤ ∑ m ∈ range (nFourier a), U₂ m t i * Real.cos (m * (a.phi0 - ph)) := by
  set a₁ := reflecting a om₁ B₁ with ha₁
  set a₂ := reflecting a om₂ B₂ with ha₂
  have hpi := Real.pi_pos
  have hpos : 0 < nFourier a := by
    rw [hN]; have := hacc₁.nLeg.1; unfold nLeg; change 0 < (a₁.NLeg.getD a₁.NQuad).toNat; omega
  have hf : ∀ l, 0 ≤ peak a l := fun l => (Args.peak_range hacc₁ l).1
  have hs₁ := darker_fair hg hd hs
  set V₁ : ℝ → ℝ → ℕ → ℝ := fun t ph i => ∑ m ∈ range (nFourier a), U₁ m t i * Real.cos (m * (a.phi0 - ph)) with hV₁
  set V₂ : ℝ → ℝ → ℕ → ℝ := fun t ph i => ∑ m ∈ range (nFourier a), U₂ m t i * Real.cos (m * (a.phi0 - ph)) with hV₂
  have hpv : ∀ t, 0 ≤ t → t ≤ bottom a → ∀ ph, ∀ i < 2 * nHalf a, 0 ≤ V₁ t ph i :=
    series_nonneg (E := E) (a := a₁) hacc₁ hg hpk hN hn₁ hbp hbn hB₁ hp hs₁ ⟨hq.inner, hq.top, hq.bottom⟩ h₁
  have hc₁ : ∀ t j, Continuous fun q => V₁ t q j := fun t j => by simp only [hV₁]; fun_prop
  have hc₂ : ∀ t j, Continuous fun q => V₂ t q j := fun t j => by simp only [hV₂]; fun_prop
  have hdep := reflecting_depth (B₂ := B₂) hacc₁ hd.albedo
  have hI : 0 ≤ a.I0 := hacc₁.beam
  have hm : 0 < a.I0 → 0 < a.mu0 ∧ a.mu0 ≤ 1 := fun h => (hacc₁.beamDir h).1
  have hbt : 0 ≤ bottom a := (bottom_pos hacc₁).le
  have hbc₁ := fun j (hj : j < nHalf a) q => series_boundary (E := E) (a := a₁) hpos hbp hbn hB₁ h₁ hj q
  have hbc₂ := fun j (hj : j < nHalf a) q => series_boundary (E := E) (a := a₂) hpos hbp hbn hB₂ h₂ hj q
  have key := series_super (E := E) (a := a₂) (rho := rho₂) (U := fun m t i => U₂ m t i - U₁ m t i) (V := fun t q i => V₂ t q i - V₁ t q i) hacc₂ hg hpk hN hn₂
    hp hs.nonneg hs.bounded (fun m hm j hj => ((h₂ m hm).cont j hj).sub ((h₁ m hm).cont j hj)) ?_ ?_ ?_ ?_
  · intro t ht0 ht1 ph i hi
    exact ⟨hpv t ht0 ht1 ph i hi, sub_nonneg.1 (key t ht0 ht1 ph i hi)⟩
  · funext t q i
    simp only [hV₁, hV₂, sub_mul, sum_sub_distrib]
    rfl
  · intro l hl t ht0 ht1 i hi q
    have hl' : l < a.tauArr.n := hl
    have hi' : i < 2 * nHalf a := hi
    obtain ⟨d₁, g₁, e₁⟩ := series_equation (E := E) (a := a₁) hacc₁ hg hN hn₁ h₁ hl ht0 ht1 hi q
    obtain ⟨d₂, g₂, e₂⟩ := series_equation (E := E) (a := a₂) hacc₂ hg hN hn₂ h₂ hl ht0 ht1 hi q
    refine ⟨d₂ - d₁, g₂.sub g₁, ?_⟩
    obtain ⟨s1, s2, s3, s4, s5⟩ := reflecting_scale (B₁ := B₁) (B₂ := B₂) (hf l) (hpk l hl) (hacc₁.omega l hl).1 (hd.albedo l hl) (hacc₂.omega l hl).2
    set T : (ℝ → ℝ → ℕ → ℝ) → ℝ := fun V => ∑ j ∈ range (2 * nHalf a), streamW (nHalf a) (weight E a) j *
        ∫ ph' in (0 : ℝ)..(2 * Real.pi), phase a l (cosAngle (stream (nHalf a) (node E a) i) q (stream (nHalf a) (node E a) j) ph') * V t ph' j with hT
    set P := phase a l (cosAngle (stream (nHalf a) (node E a) i) q (-a.mu0) a.phi0) with hP
    change stream (nHalf a) (node E a) i * d₁ = scale a₁ l * (V₁ t q i - omegaStar a₁ l / (4 * Real.pi) * T V₁
      - omegaStar a₁ l * a.I0 / (4 * Real.pi) * P * Real.exp (-tauStar a₁ l t / a.mu0)) - (1 - om₁.get l) * source a l t at e₁
    change stream (nHalf a) (node E a) i * d₂ = scale a₂ l * (V₂ t q i - omegaStar a₂ l / (4 * Real.pi) * T V₂
      - omegaStar a₂ l * a.I0 / (4 * Real.pi) * P * Real.exp (-tauStar a₂ l t / a.mu0)) - (1 - om₂.get l) * source a l t at e₂
    change stream (nHalf a) (node E a) i * (d₂ - d₁) ≤ scale a₂ l * (V₂ t q i - V₁ t q i - omegaStar a₂ l / (4 * Real.pi)
      * T (fun t q i => V₂ t q i - V₁ t q i))
    have hr : 0 ≤ t ∧ t ≤ bottom a := layer_in_range hacc₁ hl ht0 ht1
    have hpc : ∀ j, Continuous fun ph' => phase a l (cosAngle (stream (nHalf a) (node E a) i) q (stream (nHalf a) (node E a) j) ph') := fun j =>
      (phase_continuous a l).comp (cosAngle_continuous _ q _)
    have hTs : T (fun t q i => V₂ t q i - V₁ t q i) = T V₂ - T V₁ := by
      simp only [hT]
      rw [← sum_sub_distrib]
      refine sum_congr rfl fun j _ => ?_
      rw [integral_mul_sub (hpc j) (hc₂ t j) (hc₁ t j), mul_sub]
    have hx := stream_sq_le hg hi'
    have hT0 : 0 ≤ T V₁ := by
      refine sum_nonneg fun j hj => mul_nonneg (streamW_pos hg (mem_range.1 hj)).le ?_
      have hy := stream_sq_le hg (mem_range.1 hj)
      exact intervalIntegral.integral_nonneg (by positivity) fun ph' _ =>
        mul_nonneg (hp l hl _ (cosAngle_range hx hy _ _).1 (cosAngle_range hx hy _ _).2) (hpv t hr.1 hr.2 ph' j (mem_range.1 hj))
    have x1 : scale a₁ l * omegaStar a₁ l / (4 * Real.pi) * T V₁ ≤ scale a₂ l * omegaStar a₂ l / (4 * Real.pi) * T V₁ :=
      mul_le_mul_of_nonneg_right ((div_le_div_iff_of_pos_right (by positivity)).2 s5) hT0
    have x2 : scale a₂ l * V₁ t q i ≤ scale a₁ l * V₁ t q i := mul_le_mul_of_nonneg_right s2 (hpv t hr.1 hr.2 q i hi')
    have x3 : (1 - om₁.get l) * source a l t = (1 - om₂.get l) * source a l t := by
      rcases hd.emission l hl' with h | h
      · rw [h]
      · rw [h t ⟨ht0.le, ht1.le⟩]; simp
    have x4 : scale a₁ l * omegaStar a₁ l * (a.I0 / (4 * Real.pi) * P * Real.exp (-tauStar a₁ l t / a.mu0))
        ≤ scale a₂ l * omegaStar a₂ l * (a.I0 / (4 * Real.pi) * P * Real.exp (-tauStar a₂ l t / a.mu0)) := by
      rcases hI.lt_or_eq with hI | hI
      · have hmu := hm hI
        have hr := cosAngle_range hx (y := -a.mu0) (by rw [neg_sq]; nlinarith [hmu.1, hmu.2]) q a.phi0
        have hP0 : 0 ≤ P := hp l hl _ hr.1 hr.2
        have hc : 0 ≤ a.I0 / (4 * Real.pi) * P := mul_nonneg (by positivity) hP0
        refine mul_le_mul s5 (mul_le_mul_of_nonneg_left (Real.exp_le_exp.2 ?_) hc) (mul_nonneg hc (Real.exp_pos _).le)
          (mul_nonneg s1.le (s3.trans s4))
        rw [div_le_div_iff_of_pos_right hmu.1]
        exact neg_le_neg (hdep.2 l hl' t ht0.le)
      · rw [← hI]; simp
    rw [hTs, mul_sub, e₁, e₂]
    have y₁ : scale a₁ l * (V₁ t q i - omegaStar a₁ l / (4 * Real.pi) * T V₁ - omegaStar a₁ l * a.I0 / (4 * Real.pi) * P * Real.exp (-tauStar a₁ l t / a.mu0))
      = scale a₁ l * V₁ t q i - scale a₁ l * omegaStar a₁ l / (4 * Real.pi) * T V₁
        - scale a₁ l * omegaStar a₁ l * (a.I0 / (4 * Real.pi) * P * Real.exp (-tauStar a₁ l t / a.mu0)) := by ring
    have y₂ : scale a₂ l * (V₂ t q i - omegaStar a₂ l / (4 * Real.pi) * T V₂ - omegaStar a₂ l * a.I0 / (4 * Real.pi) * P * Real.exp (-tauStar a₂ l t / a.mu0))
      = scale a₂ l * V₂ t q i - scale a₂ l * omegaStar a₂ l / (4 * Real.pi) * T V₂
        - scale a₂ l * omegaStar a₂ l * (a.I0 / (4 * Real.pi) * P * Real.exp (-tauStar a₂ l t / a.mu0)) := by ring
    have y₃ : scale a₂ l * (V₂ t q i - V₁ t q i - omegaStar a₂ l / (4 * Real.pi) * (T V₂ - T V₁))
      = scale a₂ l * V₂ t q i - scale a₂ l * V₁ t q i - scale a₂ l * omegaStar a₂ l / (4 * Real.pi) * T V₂
        + scale a₂ l * omegaStar a₂ l / (4 * Real.pi) * T V₁ := by ring
    rw [y₁, y₂, y₃]
    linarith
  · intro i hi q
    have b₁ : V₁ 0 q (nHalf a + i) = bcVal a.bneg 0 i := (hbc₁ i hi q).1
    have b₂ : V₂ 0 q (nHalf a + i) = bcVal a.bneg 0 i := (hbc₂ i hi q).1
    change 0 ≤ V₂ 0 q (nHalf a + i) - V₁ 0 q (nHalf a + i)
    rw [b₁, b₂, sub_self]
  · intro i hi q
    have hi' : i < nHalf a := hi
    set D : Args → (ℕ → ℝ → ℝ → ℝ) → (ℝ → ℝ → ℕ → ℝ) → ℝ := fun b rho V => ∑ k ∈ range (nHalf a), weight E a k * node E a k *
      ∫ ph' in (0 : ℝ)..(2 * Real.pi), bdrfOf b rho (node E a i) (node E a k) (q - ph') * V (bottom a) ph' (nHalf a + k) with hD
    have b₁ : V₁ (bottom a) q i = bcVal a.bpos 0 i + (1 / Real.pi * D a₁ rho₁ V₁
      + a.mu0 * a.I0 / Real.pi * bdrfOf a₁ rho₁ (node E a i) a.mu0 (q - a.phi0) * Real.exp (-bdryStar a₁ a.tauArr.n / a.mu0)) := (hbc₁ i hi q).2
    have b₂ : V₂ (bottom a) q i = bcVal a.bpos 0 i + (1 / Real.pi * D a₂ rho₂ V₂
      + a.mu0 * a.I0 / Real.pi * bdrfOf a₂ rho₂ (node E a i) a.mu0 (q - a.phi0) * Real.exp (-bdryStar a₂ a.tauArr.n / a.mu0)) := (hbc₂ i hi q).2
    change 1 / Real.pi * D a₂ rho₂ (fun t q i => V₂ t q i - V₁ t q i) ≤ V₂ (bottom a) q i - V₁ (bottom a) q i
    have hrc : ∀ (b : Args) (rho : ℕ → ℝ → ℝ → ℝ) (k : ℕ), Continuous fun ph' => bdrfOf b rho (node E a i) (node E a k) (q - ph') := fun b rho k => by
      unfold bdrfOf; fun_prop
    have hDs : D a₂ rho₂ (fun t q i => V₂ t q i - V₁ t q i) = D a₂ rho₂ V₂ - D a₂ rho₂ V₁ := by
      simp only [hD]
      rw [← sum_sub_distrib]
      refine sum_congr rfl fun k _ => ?_
      rw [integral_mul_sub (hrc _ _ k) (hc₂ _ _) (hc₁ _ _), mul_sub]
    have x1 : D a₁ rho₁ V₁ ≤ D a₂ rho₂ V₁ := by
      refine sum_le_sum fun k hk => ?_
      have hk' := mem_range.1 hk
      refine mul_le_mul_of_nonneg_left ?_ (mul_pos (weight_pos hg hk') (node_pos hg hk').1).le
      refine intervalIntegral.integral_mono_on (by positivity) ((hrc _ _ k).mul (hc₁ _ _) |>.intervalIntegrable _ _)
        ((hrc _ _ k).mul (hc₁ _ _) |>.intervalIntegrable _ _) fun ph' _ => ?_
      exact mul_le_mul_of_nonneg_right (hd.surface i hi' k hk' _).2 (hpv _ hbt le_rfl _ _ (by omega))
    have x2 : a.mu0 * a.I0 / Real.pi * bdrfOf a₁ rho₁ (node E a i) a.mu0 (q - a.phi0) * Real.exp (-bdryStar a₁ a.tauArr.n / a.mu0)
        ≤ a.mu0 * a.I0 / Real.pi * bdrfOf a₂ rho₂ (node E a i) a.mu0 (q - a.phi0) * Real.exp (-bdryStar a₂ a.tauArr.n / a.mu0) := by
      rcases hI.lt_or_eq with hI | hI
      · have hmu := (hm hI).1
        have hc : 0 ≤ a.mu0 * a.I0 / Real.pi := by positivity
        have hb := hd.beam i hi' (q - a.phi0)
        refine mul_le_mul (mul_le_mul_of_nonneg_left hb.2 hc) (Real.exp_le_exp.2 ?_) (Real.exp_pos _).le (mul_nonneg hc (hb.1.trans hb.2))
        rw [div_le_div_iff_of_pos_right hmu]
        exact neg_le_neg (hdep.1 _ le_rfl)
      · rw [← hI]; simp
    have x3 := mul_le_mul_of_nonneg_left x1 (show 0 ≤ 1 / Real.pi by positivity)
    rw [hDs, b₁, b₂, mul_sub]
    linarith

/-- **C89.** Two calls differ in the single-scattering albedos and in the surface. If no layer and no part of the surface absorbs less in the first
call, no intensity of the first call exceeds that of the second, at any depth, in any stream and at any azimuth. -/
theorem C89_less_absorption_more_light {J₁ J₂ : Junk} {R₁ R₂ : Solved} (h₁ : pydisort E J₁ (reflecting a om₁ B₁) = .ok R₁)
    (h₂ : pydisort E J₂ (reflecting a om₂ B₂) = .ok R₂) (hS₁ : Sound E (reflecting a om₁ B₁)) (hS₂ : Sound E (reflecting a om₂ B₂))
    (hr₁ : Rescalable (reflecting a om₁ B₁)) (hr₂ : Rescalable (reflecting a om₂ B₂)) (hf : a.onlyFlux = false) (hnt : a.NTcor = false)
    (hN : nFourier a = nLeg a) (hn₁ : NothingNeglected (reflecting a om₁ B₁)) (hn₂ : NothingNeglected (reflecting a om₂ B₂))
    (hbp : Azimuthless a.bpos) (hbn : Azimuthless a.bneg) (hB₁ : B₁.length ≤ nFourier a) (hB₂ : B₂.length ≤ nFourier a)
    {rho₁ rho₂ : ℕ → ℝ → ℝ → ℝ} (hrho₁ : SurfaceIs (reflecting a om₁ B₁) rho₁) (hrho₂ : SurfaceIs (reflecting a om₂ B₂) rho₂)
    (hd : DarkerAround a (node E a) om₁ om₂ B₁ B₂ rho₁ rho₂) (hp : NonnegPhase a) (hs : FairBDRF (reflecting a om₂ B₂) (node E a) (weight E a) rho₂)
    (hq : NonnegEmission a) {F₁ F₂ : Fields} (hF₁ : Evaluates (reflecting a om₁ B₁) R₁ F₁) (hF₂ : Evaluates (reflecting a om₂ B₂) R₂ F₂) :
    ∀ t, 0 ≤ t → t ≤ bottom a → ∀ ph, ∀ i < 2 * nHalf a, 0 ≤ F₁.u t ph i ∧ F₁.u t ph i ≤ F₂.u t ph i := by
  intro t h0 h1 ph i hi
  obtain ⟨U₁, hU₁, _⟩ := C02_modes_solve_transfer_equation h₁ hS₁ hr₁
  obtain ⟨U₂, hU₂, _⟩ := C02_modes_solve_transfer_equation h₂ hS₂ hr₂
  rw [evaluates_series h₁ hf hnt hU₁ hF₁ h0 h1 hi ph, evaluates_series h₂ hf hnt hU₂ hF₂ h0 h1 hi ph]
  exact series_brighter (pydisort_ok h₁).1 (pydisort_ok h₂).1 hS₂.gauss hS₂.peak hN hn₁ hn₂ hbp hbn hB₁ hB₂ hd hp hs hq
    (fun m hm => modes_isSolution h₁ hS₁ hr₁ hbp hbn hrho₁ hU₁ hm) (fun m hm => modes_isSolution h₂ hS₂ hr₂ hbp hbn hrho₂ hU₂ hm) t h0 h1 ph i hi

/-! ### The hypotheses are met -/

/-- `demoFull` whose upper layer does not emit. -/
noncomputable def demoCoolFull (n : ℕ) (x : ℝ) : Args := { demoFull n x with s := ⟨2, 2, fun l _ => if l = 0 then 0 else 1⟩ }

/-- A surface that reflects less. -/
noncomputable def dimSurface : List BDRFMode := [.scalar (1 / 6), .scalar (1 / 8)]

/-- Its modes. -/
noncomputable def dimRho (m : ℕ) (_ _ : ℝ) : ℝ := if m = 0 then 1 / 6 else 1 / 8

section
variable {n : ℕ}

theorem dimSurface_bdrf (b : Args) (om : A1 ℝ) (y z dph : ℝ) : bdrfOf (reflecting b om dimSurface) dimRho y z dph = 1 / 6 + 1 / 8 * Real.cos dph := by
  unfold bdrfOf
  rw [show (reflecting b om dimSurface).bdrf.length = 2 from rfl, sum_range_succ, sum_range_succ]
  simp [dimRho]

theorem demoCoolFull_bdrf (x y z dph : ℝ) : bdrfOf (demoCoolFull n x) fullRho y z dph = 1 / 3 + 1 / 4 * Real.cos dph := by
  unfold bdrfOf
  rw [show (demoCoolFull n x).bdrf.length = 2 from rfl, sum_range_succ, sum_range_succ]
  simp [fullRho]

theorem dimSurface_neglect (x : ℝ) : NothingNeglected (reflecting (demoCoolFull n x) dimOmega dimSurface) := by
  intro l hl k hkn hsmall
  have h1 : 1 / 8 ≤ omegaStar (reflecting (demoCoolFull n x) dimOmega dimSurface) l := by
    unfold omegaStar scale
    rw [show peak (reflecting (demoCoolFull n x) dimOmega dimSurface) l = 1 / 8 from demo_peak (n := n) (x := x) hl]
    simp only [reflecting, dimOmega]
    split_ifs <;> norm_num
  have hleg : ∀ k, legStar (reflecting (demoCoolFull n x) dimOmega dimSurface) l k = if k = 0 then 1 else if k = 1 then 1 / 4 else 0 :=
    demoFull_legStar (n := n) x hl
  by_contra hne
  have hk : k < 2 := by
    by_contra h
    exact hne (by rw [hleg, if_neg (by omega), if_neg (by omega), mul_zero])
  have h2 := hsmall k le_rfl hkn
  rw [hleg] at h2
  interval_cases k
  · rw [abs_of_nonneg (by norm_num; linarith)] at h2
    norm_num at h2
    linarith
  · rw [abs_of_nonneg (by norm_num; linarith)] at h2
    norm_num at h2
    linarith

/-- The hypotheses of C89 are met, with a beam, internal sources and a surface whose BDRF depends on the azimuth, for every number of streams: one layer and the
surface absorb more. -/
example (hn : 0 < n) (J : Junk) : ∃ (a : Args) (om₁ om₂ : A1 ℝ) (B₁ B₂ : List BDRFMode) (rho₁ rho₂ : ℕ → ℝ → ℝ → ℝ) (R₁ R₂ : Solved) (F₁ F₂ : Fields),
    pydisort refExt J (reflecting a om₁ B₁) = .ok R₁ ∧ pydisort refExt J (reflecting a om₂ B₂) = .ok R₂
    ∧ Sound refExt (reflecting a om₁ B₁) ∧ Sound refExt (reflecting a om₂ B₂) ∧ Rescalable (reflecting a om₁ B₁) ∧ Rescalable (reflecting a om₂ B₂)
    ∧ a.onlyFlux = false ∧ a.NTcor = false ∧ nFourier a = nLeg a ∧ NothingNeglected (reflecting a om₁ B₁) ∧ NothingNeglected (reflecting a om₂ B₂)
    ∧ Azimuthless a.bpos ∧ Azimuthless a.bneg ∧ B₁.length ≤ nFourier a ∧ B₂.length ≤ nFourier a
    ∧ SurfaceIs (reflecting a om₁ B₁) rho₁ ∧ SurfaceIs (reflecting a om₂ B₂) rho₂
    ∧ DarkerAround a (node refExt a) om₁ om₂ B₁ B₂ rho₁ rho₂ ∧ om₁.get 0 < om₂.get 0 ∧ rho₁ 0 1 1 < rho₂ 0 1 1
    ∧ NonnegPhase a ∧ FairBDRF (reflecting a om₂ B₂) (node refExt a) (weight refExt a) rho₂ ∧ NonnegEmission a
    ∧ Evaluates (reflecting a om₁ B₁) R₁ F₁ ∧ Evaluates (reflecting a om₂ B₂) R₂ F₂ := by
  obtain ⟨x, h0, h1, hb₁, hb₂⟩ := exists_beamRegular_two (reflecting (demoCoolFull n 1) dimOmega dimSurface) (demoCoolFull n 1)
    (node refExt (demoCoolFull n 1)) (weight refExt (demoCoolFull n 1))
  have hh : nHalf (demoCoolFull n x) = n := demo_nHalf x
  have hg : GaussContract refExt (nHalf (demoCoolFull n x)) := by rw [hh]; exact refExt_gauss hn
  have hacc₂ : Accepted (demoCoolFull n x) := { demoFull_accepted hn h0 h1 with sourceRows := Or.inr rfl }
  have hacc₁ : Accepted (reflecting (demoCoolFull n x) dimOmega dimSurface) :=
    { hacc₂ with
      omegaLen := rfl
      omega := fun k _ => by simp only [reflecting, dimOmega]; split_ifs <;> norm_num }
  have hpk : ∀ l < (demoCoolFull n x).tauArr.n, peak (demoCoolFull n x) l < 1 := fun l hl => by
    rw [show peak (demoCoolFull n x) l = 1 / 8 from demo_peak (n := n) (x := x) hl]; norm_num
  have hp : NonnegPhase (demoCoolFull n x) := demoFull_nonneg hn x
  have hcos : ∀ q : ℝ, -1 ≤ Real.cos q := Real.neg_one_le_cos
  have hs₂ : FairBDRF (demoCoolFull n x) (node refExt (demoCoolFull n x)) (weight refExt (demoCoolFull n x)) fullRho := by
    have := demoFull_surface hn x
    exact ⟨this.nonneg, this.beam, this.bounded⟩
  have hcool : ∀ l < (demoCoolFull n x).tauArr.n, dimOmega.get l = (demoCoolFull n x).omega.get l ∨ ∀ t, InLayer (demoCoolFull n x) l t → source (demoCoolFull n x) l t = 0 := by
    intro l hl
    rcases l with _ | l
    · right
      intro t _
      unfold source
      simp [demoCoolFull]
    · left
      simp [dimOmega, demoCoolFull, demoFull, demoMild, demo]
  have hd : DarkerAround (demoCoolFull n x) (node refExt (demoCoolFull n x)) dimOmega (demoCoolFull n x).omega dimSurface (demoCoolFull n x).bdrf dimRho fullRho := by
    refine ⟨fun l hl => ?_, hcool, fun i _ j _ q => ?_, fun i _ q => ?_⟩
    · simp only [dimOmega, demoCoolFull, demoFull, demoMild, demo]; split_ifs <;> norm_num
    · rw [dimSurface_bdrf]
      refine ⟨by linarith [hcos q], le_trans ?_ (le_of_eq (demoCoolFull_bdrf (n := n) x _ _ q).symm)⟩
      linarith [hcos q]
    · rw [dimSurface_bdrf]
      refine ⟨by linarith [hcos q], le_trans ?_ (le_of_eq (demoCoolFull_bdrf (n := n) x _ _ q).symm)⟩
      linarith [hcos q]
  have hs₁ := darker_fair hg hd hs₂
  have hrho₁ : SurfaceIs (reflecting (demoCoolFull n x) dimOmega dimSurface) dimRho := by
    intro m _ M hM
    rcases m with _ | _ | m
    · simp only [reflecting, dimSurface, List.getElem?_cons_zero, Option.some.injEq] at hM
      subst hM
      intro _ _; simp [dimRho]
    · simp only [reflecting, dimSurface, zero_add, List.getElem?_cons_succ, List.getElem?_cons_zero, Option.some.injEq] at hM
      subst hM
      intro _ _; simp [dimRho]
    · simp [reflecting, dimSurface] at hM
  have w₁ : WellPosed refExt (reflecting (demoCoolFull n x) dimOmega dimSurface) :=
    (C65_physical_problems_are_well_posed hacc₁ hg refExt_eig hpk hp hb₁ hrho₁ hs₁ (fun _ _ _ _ => rfl) trivial trivial (Or.inr rfl) (Or.inr (Nat.le_of_ble_eq_true rfl))
      (fun h => by simp [reflecting, demoCoolFull, demoFull, demoMild, demo] at h)).1
  have w₂ : WellPosed refExt (demoCoolFull n x) :=
    (C65_physical_problems_are_well_posed hacc₂ hg refExt_eig hpk hp hb₂ (demoFull_rho x) hs₂ (fun _ _ _ _ => rfl) trivial trivial (Or.inr rfl) (Or.inr (Nat.le_of_ble_eq_true rfl))
      (fun h => by simp [demoCoolFull, demoFull, demoMild, demo] at h)).1
  have r₁ : Rescalable (reflecting (demoCoolFull n x) dimOmega dimSurface) := Or.inl (Or.inl one_pos)
  have r₂ : Rescalable (demoCoolFull n x) := Or.inl (Or.inl one_pos)
  obtain ⟨R₁, e₁⟩ := pydisort_isOk w₁ J
  obtain ⟨R₂, e₂⟩ := pydisort_isOk w₂ J
  obtain ⟨F₁, f₁⟩ := evaluates_exists e₁ w₁.sound r₁
  obtain ⟨F₂, f₂⟩ := evaluates_exists e₂ w₂.sound r₂
  have hq := demoFull_emission hn h0 h1
  have hF : nFourier (demoCoolFull n x) = 2 * n := (demoFull_nLeg x).2
  have hL : nLeg (demoCoolFull n x) = 2 * n := (demoFull_nLeg x).1
  refine ⟨demoCoolFull n x, dimOmega, (demoCoolFull n x).omega, dimSurface, (demoCoolFull n x).bdrf, dimRho, fullRho, R₁, R₂, F₁, F₂, e₁, e₂,
    w₁.sound, w₂.sound, r₁, r₂, rfl, rfl, by rw [hF, hL], dimSurface_neglect x, demoFull_neglect x, trivial, trivial, ?_, ?_, hrho₁, demoFull_rho x, hd, ?_, ?_,
    hp, hs₂, ⟨fun l hl t ht => ?_, hq.top, hq.bottom⟩, f₁, f₂⟩
  · rw [hF]; change 2 ≤ 2 * n; omega
  · rw [hF]; change 2 ≤ 2 * n; omega
  · simp only [dimOmega, demoCoolFull, demoFull, demoMild, demo]; norm_num
  · simp only [dimRho, fullRho]; norm_num
  · have h2 : 0 ≤ t := by
      have := bdry_le hacc₂ (Nat.zero_le l) hl.le
      rw [bdry_zero] at this
      exact this.trans ht.1
    unfold source
    split_ifs
    · refine sum_nonneg fun k _ => mul_nonneg ?_ (pow_nonneg h2 k)
      simp only [demoCoolFull]
      split_ifs <;> norm_num
    · exact le_rfl

end

end Pydisort

import Verif.ReflectingLemmas
import Verif.WitnessNT

/-!
# C88: less absorption, more light

Specification used: `Spec.reflecting`, `Spec.surfaceOf`, `Spec.Darker`, `Spec.NonnegScattering`, `Spec.FairSurface`, `Spec.NonnegSources`.
-/

namespace Pydisort
open Finset Spec

variable {E : Ext} {a : Args} {om om₁ om₂ : A1 ℝ} {B B₁ B₂ : List BDRFMode}

/-- What makes the second problem physical makes the first one physical too. -/
theorem darker_physical (hacc₁ : Accepted (reflecting a om₁ B₁)) (hacc₂ : Accepted (reflecting a om₂ B₂)) (hg : GaussContract E (nHalf a))
    (hpk : ∀ l < a.tauArr.n, peak a l < 1) {rho₁ rho₂ : ℝ → ℝ → ℝ} (hd : Darker a (node E a) om₁ om₂ B₁ B₂ rho₁ rho₂)
    (hk : NonnegScattering (reflecting a om₂ B₂) (node E a)) (hsf : FairSurface (reflecting a om₂ B₂) (node E a) (weight E a) rho₂)
    (hq : NonnegSources (reflecting a om₂ B₂) (node E a)) :
    NonnegScattering (reflecting a om₁ B₁) (node E a)
    ∧ FairSurface (reflecting a om₁ B₁) (node E a) (weight E a) (surfaceOf B₁ rho₁)
    ∧ NonnegSources (reflecting a om₁ B₁) (node E a) := by
  have hf : ∀ l, 0 ≤ peak a l := fun l => (Args.peak_range hacc₁ l).1
  refine ⟨fun l hl i hi j hj => ?_, ⟨fun i hi j hj => (hd.surface i hi j hj).1, fun i hi => (hd.beam i hi).1, fun i hi => ?_⟩,
    ⟨fun l hl i hi => ?_, hq.inner, hq.top, hq.bottom⟩⟩
  · exact (reflecting_kernel (hf l) (hpk l hl) (hacc₁.omega l hl).1 (hd.albedo l hl) (hacc₂.omega l hl).2 (hk l hl i hi j hj)).1
  · have h2 := hsf.bounded i hi
    refine le_trans ?_ h2
    unfold reflectance
    change (if 0 < B₁.length then 2 * ∑ j ∈ range (nHalf a), weight E a j * node E a j * surfaceOf B₁ rho₁ (node E a i) (node E a j) else 0)
      ≤ if 0 < B₂.length then 2 * ∑ j ∈ range (nHalf a), weight E a j * node E a j * rho₂ (node E a i) (node E a j) else 0
    have e : (if 0 < B₂.length then 2 * ∑ j ∈ range (nHalf a), weight E a j * node E a j * rho₂ (node E a i) (node E a j) else 0)
        = 2 * ∑ j ∈ range (nHalf a), weight E a j * node E a j * surfaceOf B₂ rho₂ (node E a i) (node E a j) := by
      unfold surfaceOf
      split_ifs <;> simp
    have hw : ∀ j < nHalf a, 0 ≤ weight E a j * node E a j := fun j hj => (mul_pos (weight_pos hg hj) (node_pos hg hj).1).le
    rw [e]
    split_ifs
    · refine mul_le_mul_of_nonneg_left (sum_le_sum fun j hj => ?_) (by norm_num)
      have hj' := mem_range.1 hj
      exact mul_le_mul_of_nonneg_left (hd.surface i hi j hj').2 (hw j hj')
    · refine mul_nonneg (by norm_num) (sum_nonneg fun j hj => ?_)
      have hj' := mem_range.1 hj
      exact mul_nonneg (hw j hj') ((hd.surface i hi j hj').1.trans (hd.surface i hi j hj').2)
  · exact (reflecting_beamSource (hf l) (hpk l hl) (hacc₁.omega l hl).1 (hd.albedo l hl) (hacc₂.omega l hl).2 (hq.beam l hl i hi)).1

/-- Only the surface that is there matters. -/
theorem isSolution_surfaceOf {rho : ℝ → ℝ → ℝ} {mu w : Vec} {V : ℝ → ℕ → ℝ} (h : IsSolution (reflecting a om B) mu w rho 0 V) :
    IsSolution (reflecting a om B) mu w (surfaceOf B rho) 0 V := by
  refine ⟨h.cont, h.ode, h.top, fun i hi => ?_⟩
  rw [h.bot i hi]
  change _ + (if 0 < B.length then _ else _) = _ + if 0 < B.length then _ else _
  by_cases hb : 0 < B.length
  · rw [if_pos hb, if_pos hb]
    have e : surfaceOf B rho = rho := by
      funext x y; unfold surfaceOf; rw [if_pos hb]
    rw [e]
  · rw [if_neg hb, if_neg hb]

/-- The light in the bottom boundary condition, with the surface that is there. -/
theorem isSolution_bottom {rho : ℝ → ℝ → ℝ} {mu w : Vec} {V : ℝ → ℕ → ℝ} (h : IsSolution (reflecting a om B) mu w rho 0 V) {i : ℕ} (hi : i < nHalf a) :
    V (bottom a) i = bcVal a.bpos 0 i + (2 * (∑ j ∈ range (nHalf a), w j * mu j * surfaceOf B rho (mu i) (mu j) * V (bottom a) (nHalf a + j))
      + a.mu0 * a.I0 / Real.pi * surfaceOf B rho (mu i) a.mu0 * Real.exp (-bdryStar (reflecting a om B) a.tauArr.n / a.mu0)) := by
  have e := h.bot i hi
  change V (bottom a) i = bcVal a.bpos 0 i + (if 0 < B.length then reflected (reflecting a om B) mu w rho 0 (mu i) (fun j => V (bottom a) (nHalf a + j)) else 0) at e
  rw [e]
  unfold surfaceOf
  by_cases hb : 0 < B.length
  · simp only [if_pos hb]
    unfold reflected
    rw [if_pos rfl, one_add_one_eq_two]
    rfl
  · simp only [if_neg hb]; simp

/-- Solutions of mode zero do not decrease when something absorbs less. -/
theorem solution_brighter (hacc₁ : Accepted (reflecting a om₁ B₁)) (hacc₂ : Accepted (reflecting a om₂ B₂)) (hg : GaussContract E (nHalf a))
    (hpk : ∀ l < a.tauArr.n, peak a l < 1) {rho₁ rho₂ : ℝ → ℝ → ℝ} (hd : Darker a (node E a) om₁ om₂ B₁ B₂ rho₁ rho₂)
    (hk : NonnegScattering (reflecting a om₂ B₂) (node E a)) (hsf : FairSurface (reflecting a om₂ B₂) (node E a) (weight E a) rho₂)
    (hq : NonnegSources (reflecting a om₂ B₂) (node E a)) {V₁ V₂ : ℝ → ℕ → ℝ}
    (h₁ : IsSolution (reflecting a om₁ B₁) (node E a) (weight E a) rho₁ 0 V₁)
    (h₂ : IsSolution (reflecting a om₂ B₂) (node E a) (weight E a) rho₂ 0 V₂) :
    ∀ t, 0 ≤ t → t ≤ bottom a → ∀ i < 2 * nHalf a, 0 ≤ V₁ t i ∧ V₁ t i ≤ V₂ t i := by
  obtain ⟨hk₁, hsf₁, hq₁⟩ := darker_physical hacc₁ hacc₂ hg hpk hd hk hsf hq
  have hpos := solution_nonneg (a := reflecting a om₁ B₁) (E := E) hacc₁ hg hpk hk₁ hsf₁ hq₁ (isSolution_surfaceOf h₁)
  change ∀ t, 0 ≤ t → t ≤ bottom a → ∀ i < 2 * nHalf a, 0 ≤ V₁ t i at hpos
  have hf : ∀ l, 0 ≤ peak a l := fun l => (Args.peak_range hacc₁ l).1
  have hw : ∀ j < nHalf a, 0 ≤ weight E a j * node E a j := fun j hj => (mul_pos (weight_pos hg hj) (node_pos hg hj).1).le
  have hdep := reflecting_depth (B₂ := B₂) hacc₁ hd.albedo
  have hI : 0 ≤ a.I0 := hacc₁.beam
  have hm : 0 < a.I0 → 0 < a.mu0 := fun h => (hacc₁.beamDir h).1.1
  have key := nonneg_of_super (a := reflecting a om₂ B₂) (E := E) hacc₂ hg hpk hk hsf.nonneg hsf.bounded (V := fun t i => V₂ t i - V₁ t i)
    (fun i hi => (h₂.cont i hi).sub (h₁.cont i hi)) ?_ ?_ ?_
  · intro t ht0 ht1 i hi
    exact ⟨hpos t ht0 ht1 i hi, sub_nonneg.1 (key t ht0 ht1 i hi)⟩
  · intro l hl t ht0 ht1 i hi
    obtain ⟨d₁, g₁, e₁⟩ := h₁.ode l hl t ht0 ht1 i hi
    obtain ⟨d₂, g₂, e₂⟩ := h₂.ode l hl t ht0 ht1 i hi
    refine ⟨d₂ - d₁, g₂.sub g₁, ?_⟩
    have hl' : l < a.tauArr.n := hl
    have hi' : i < 2 * nHalf a := hi
    obtain ⟨s1, s2, -, -, -⟩ := reflecting_scale (B₁ := B₁) (B₂ := B₂) (hf l) (hpk l hl) (hacc₁.omega l hl).1 (hd.albedo l hl) (hacc₂.omega l hl).2
    have hker : ∀ j < 2 * nHalf a, _ := fun j hj =>
      reflecting_kernel (B₁ := B₁) (B₂ := B₂) (hf l) (hpk l hl) (hacc₁.omega l hl).1 (hd.albedo l hl) (hacc₂.omega l hl).2 (hk l hl i hi j hj)
    have hbs := reflecting_beamSource (B₁ := B₁) (B₂ := B₂) (hf l) (hpk l hl) (hacc₁.omega l hl).1 (hd.albedo l hl) (hacc₂.omega l hl).2 (hq.beam l hl i hi)
    have hb0 := hq.beam l hl i hi
    rw [rteUser_zero] at e₁ e₂
    change stream (nHalf a) (node E a) i * d₁ = scale (reflecting a om₁ B₁) l * (V₁ t i - ∑ j ∈ range (2 * nHalf a), streamW (nHalf a) (weight E a) j
        * kernel (reflecting a om₁ B₁) 0 l (stream (nHalf a) (node E a) i) (stream (nHalf a) (node E a) j) * V₁ t j)
      - (scale (reflecting a om₁ B₁) l * (beamSource (reflecting a om₁ B₁) 0 l (stream (nHalf a) (node E a) i)
        * Real.exp (-tauStar (reflecting a om₁ B₁) l t / a.mu0)) + (1 - om₁.get l) * source a l t) at e₁
    change stream (nHalf a) (node E a) i * d₂ = scale (reflecting a om₂ B₂) l * (V₂ t i - ∑ j ∈ range (2 * nHalf a), streamW (nHalf a) (weight E a) j
        * kernel (reflecting a om₂ B₂) 0 l (stream (nHalf a) (node E a) i) (stream (nHalf a) (node E a) j) * V₂ t j)
      - (scale (reflecting a om₂ B₂) l * (beamSource (reflecting a om₂ B₂) 0 l (stream (nHalf a) (node E a) i)
        * Real.exp (-tauStar (reflecting a om₂ B₂) l t / a.mu0)) + (1 - om₂.get l) * source a l t) at e₂
    change stream (nHalf a) (node E a) i * (d₂ - d₁) ≤ scale (reflecting a om₂ B₂) l * (V₂ t i - V₁ t i
      - ∑ j ∈ range (2 * nHalf a), streamW (nHalf a) (weight E a) j
        * kernel (reflecting a om₂ B₂) 0 l (stream (nHalf a) (node E a) i) (stream (nHalf a) (node E a) j) * (V₂ t j - V₁ t j))
    have hr : 0 ≤ t ∧ t ≤ bottom a := layer_in_range hacc₁ hl ht0 ht1
    have x1 : ∑ j ∈ range (2 * nHalf a), streamW (nHalf a) (weight E a) j * (scale (reflecting a om₁ B₁) l
          * kernel (reflecting a om₁ B₁) 0 l (stream (nHalf a) (node E a) i) (stream (nHalf a) (node E a) j)) * V₁ t j
        ≤ ∑ j ∈ range (2 * nHalf a), streamW (nHalf a) (weight E a) j * (scale (reflecting a om₂ B₂) l
          * kernel (reflecting a om₂ B₂) 0 l (stream (nHalf a) (node E a) i) (stream (nHalf a) (node E a) j)) * V₁ t j := by
      refine sum_le_sum fun j hj => ?_
      have hj' := mem_range.1 hj
      have hwj : 0 ≤ streamW (nHalf a) (weight E a) j := by
        unfold streamW; split_ifs <;> exact (weight_pos hg (by omega)).le
      exact mul_le_mul_of_nonneg_right (mul_le_mul_of_nonneg_left (hker j hj').2 hwj) (hpos t hr.1 hr.2 j hj')
    have x1' : scale (reflecting a om₁ B₁) l * ∑ j ∈ range (2 * nHalf a), streamW (nHalf a) (weight E a) j
          * kernel (reflecting a om₁ B₁) 0 l (stream (nHalf a) (node E a) i) (stream (nHalf a) (node E a) j) * V₁ t j
        ≤ scale (reflecting a om₂ B₂) l * ∑ j ∈ range (2 * nHalf a), streamW (nHalf a) (weight E a) j
          * kernel (reflecting a om₂ B₂) 0 l (stream (nHalf a) (node E a) i) (stream (nHalf a) (node E a) j) * V₁ t j := by
      rw [mul_sum, mul_sum]
      refine le_trans (le_of_eq ?_) (x1.trans (le_of_eq ?_)) <;> exact sum_congr rfl fun j _ => by ring
    have x2 : scale (reflecting a om₂ B₂) l * V₁ t i ≤ scale (reflecting a om₁ B₁) l * V₁ t i :=
      mul_le_mul_of_nonneg_right s2 (hpos t hr.1 hr.2 i hi')
    have x3 : (1 - om₁.get l) * source a l t = (1 - om₂.get l) * source a l t := by
      rcases hd.emission l hl' with h | h
      · rw [h]
      · rw [h t ⟨ht0.le, ht1.le⟩]; simp
    have x4 : scale (reflecting a om₁ B₁) l * (beamSource (reflecting a om₁ B₁) 0 l (stream (nHalf a) (node E a) i)
          * Real.exp (-tauStar (reflecting a om₁ B₁) l t / a.mu0))
        ≤ scale (reflecting a om₂ B₂) l * (beamSource (reflecting a om₂ B₂) 0 l (stream (nHalf a) (node E a) i)
          * Real.exp (-tauStar (reflecting a om₂ B₂) l t / a.mu0)) := by
      rw [← mul_assoc, ← mul_assoc]
      rcases hI.lt_or_eq with hI | hI
      · have hmu := hm hI
        refine mul_le_mul hbs.2 (Real.exp_le_exp.2 ?_) (Real.exp_pos _).le (mul_nonneg s1.le hb0)
        rw [div_le_div_iff_of_pos_right hmu]
        exact neg_le_neg (hdep.2 l hl' t ht0.le)
      · have z : ∀ (om : A1 ℝ) (B : List BDRFMode), beamSource (reflecting a om B) 0 l (stream (nHalf a) (node E a) i) = 0 := fun om B => by
          have hI' : (reflecting a om B).I0 = 0 := hI.symm
          rw [beamSource_form, hI']; simp
        rw [z, z]; simp
    rw [mul_sub, e₁, e₂]
    simp only [mul_sub, sum_sub_distrib]
    linarith
  · intro i hi
    have e₁ := h₁.top i hi
    have e₂ := h₂.top i hi
    change V₁ 0 (nHalf a + i) = bcVal a.bneg 0 i at e₁
    change V₂ 0 (nHalf a + i) = bcVal a.bneg 0 i at e₂
    change 0 ≤ V₂ 0 (nHalf a + i) - V₁ 0 (nHalf a + i)
    linarith
  · intro i hi
    have hi' : i < nHalf a := hi
    have hbt : 0 ≤ bottom a := by
      have := bdry_le hacc₁ (Nat.zero_le _) le_rfl
      rw [bdry_zero, bdry_bottom hacc₁] at this
      exact this
    have e₁ := isSolution_bottom h₁ hi'
    have e₂ := isSolution_bottom h₂ hi'
    change (if 0 < B₂.length then 2 * ∑ j ∈ range (nHalf a), weight E a j * node E a j
      * rho₂ (node E a i) (node E a j) * (V₂ (bottom a) (nHalf a + j) - V₁ (bottom a) (nHalf a + j)) else 0) ≤ V₂ (bottom a) i - V₁ (bottom a) i
    have e : (if 0 < B₂.length then 2 * ∑ j ∈ range (nHalf a), weight E a j * node E a j
        * rho₂ (node E a i) (node E a j) * (V₂ (bottom a) (nHalf a + j) - V₁ (bottom a) (nHalf a + j)) else 0)
        = 2 * (∑ j ∈ range (nHalf a), weight E a j * node E a j * surfaceOf B₂ rho₂ (node E a i) (node E a j) * V₂ (bottom a) (nHalf a + j))
        - 2 * ∑ j ∈ range (nHalf a), weight E a j * node E a j * surfaceOf B₂ rho₂ (node E a i) (node E a j) * V₁ (bottom a) (nHalf a + j) := by
      unfold surfaceOf
      by_cases hb : 0 < B₂.length
      · simp only [if_pos hb, mul_sub, sum_sub_distrib]
      · simp only [if_neg hb]; simp
    rw [e, e₁, e₂]
    have x1 : ∑ j ∈ range (nHalf a), weight E a j * node E a j * surfaceOf B₁ rho₁ (node E a i) (node E a j) * V₁ (bottom a) (nHalf a + j)
        ≤ ∑ j ∈ range (nHalf a), weight E a j * node E a j * surfaceOf B₂ rho₂ (node E a i) (node E a j) * V₁ (bottom a) (nHalf a + j) := by
      refine sum_le_sum fun j hj => ?_
      have hj' := mem_range.1 hj
      exact mul_le_mul_of_nonneg_right (mul_le_mul_of_nonneg_left (hd.surface i hi' j hj').2 (hw j hj')) (hpos _ hbt le_rfl _ (by omega))
    have x2 : a.mu0 * a.I0 / Real.pi * surfaceOf B₁ rho₁ (node E a i) a.mu0 * Real.exp (-bdryStar (reflecting a om₁ B₁) a.tauArr.n / a.mu0)
        ≤ a.mu0 * a.I0 / Real.pi * surfaceOf B₂ rho₂ (node E a i) a.mu0 * Real.exp (-bdryStar (reflecting a om₂ B₂) a.tauArr.n / a.mu0) := by
      rcases hI.lt_or_eq with hI | hI
      · have hmu := hm hI
        have hc : 0 ≤ a.mu0 * a.I0 / Real.pi := by positivity
        have hb := hd.beam i hi'
        refine mul_le_mul (mul_le_mul_of_nonneg_left hb.2 hc) (Real.exp_le_exp.2 ?_) (Real.exp_pos _).le (mul_nonneg hc (hb.1.trans hb.2))
        rw [div_le_div_iff_of_pos_right hmu]
        exact neg_le_neg (hdep.1 _ le_rfl)
      · rw [← hI]; simp
    linarith

/-- **C88.** Two calls differ in the single-scattering albedos and in the surface. If no layer and no part of the surface absorbs less in the first
call, the first call has no more light: at every depth no azimuthally averaged intensity and no flux is larger. -/
theorem C88_less_absorption_more_light {J₁ J₂ : Junk} {R₁ R₂ : Solved} (h₁ : pydisort E J₁ (reflecting a om₁ B₁) = .ok R₁)
    (h₂ : pydisort E J₂ (reflecting a om₂ B₂) = .ok R₂) (hS₁ : Sound E (reflecting a om₁ B₁)) (hS₂ : Sound E (reflecting a om₂ B₂))
    (hr₁ : Rescalable (reflecting a om₁ B₁)) (hr₂ : Rescalable (reflecting a om₂ B₂)) (hbp : Azimuthless a.bpos) (hbn : Azimuthless a.bneg)
    {rho₁ rho₂ : ℕ → ℝ → ℝ → ℝ} (hrho₁ : SurfaceIs (reflecting a om₁ B₁) rho₁) (hrho₂ : SurfaceIs (reflecting a om₂ B₂) rho₂)
    (hd : Darker a (node E a) om₁ om₂ B₁ B₂ (rho₁ 0) (rho₂ 0))
    (hk : NonnegScattering (reflecting a om₂ B₂) (node E a)) (hsf : FairSurface (reflecting a om₂ B₂) (node E a) (weight E a) (rho₂ 0))
    (hq : NonnegSources (reflecting a om₂ B₂) (node E a)) {F₁ F₂ : Fields} (hF₁ : Evaluates (reflecting a om₁ B₁) R₁ F₁)
    (hF₂ : Evaluates (reflecting a om₂ B₂) R₂ F₂) : ∀ t, 0 ≤ t → t ≤ bottom a →
      (∀ i < 2 * nHalf a, 0 ≤ F₁.u0 t i ∧ F₁.u0 t i ≤ F₂.u0 t i) ∧ F₁.up t ≤ F₂.up t ∧ F₁.diffuse t ≤ F₂.diffuse t ∧ F₁.direct t = F₂.direct t := by
  intro t h0 h1
  obtain ⟨U₁, hU₁, _⟩ := C02_modes_solve_transfer_equation h₁ hS₁ hr₁
  obtain ⟨U₂, hU₂, _⟩ := C02_modes_solve_transfer_equation h₂ hS₂ hr₂
  have hacc₁ := (pydisort_ok h₁).1
  have hacc₂ := (pydisort_ok h₂).1
  have hle := solution_brighter (E := E) hacc₁ hacc₂ hS₂.gauss hS₂.peak hd hk hsf hq
    (modes_isSolution h₁ hS₁ hr₁ hbp hbn hrho₁ hU₁ (nFourier_pos h₁ hS₁))
    (modes_isSolution h₂ hS₂ hr₂ hbp hbn hrho₂ hU₂ (nFourier_pos h₂ hS₂)) t h0 h1
  obtain ⟨e1, e2, e3, e4⟩ := evaluates_unique hF₁ (evaluates h₁ hr₁ hU₁) h0 h1
  obtain ⟨g1, g2, g3, g4⟩ := evaluates_unique hF₂ (evaluates h₂ hr₂ hU₂) h0 h1
  refine ⟨fun i hi => by rw [e1 i hi, g1 i hi]; exact hle i hi, ?_, ?_, ?_⟩
  · rw [e2, g2]
    exact hemiFlux_mono (a := a) hS₁.gauss fun i hi => (hle i (by omega)).2
  · rw [e3, g3]
    have x1 := hemiFlux_mono (a := a) (v := fun i => U₁ 0 t (nHalf a + i)) (v' := fun i => U₂ 0 t (nHalf a + i)) hS₁.gauss
      fun i hi => (hle _ (by omega)).2
    change hemiFlux a (node E a) (weight E a) (fun i => U₁ 0 t (nHalf a + i))
        + (a.I0 * a.mu0 * Real.exp (-tauStar (reflecting a om₁ B₁) (layOf a t) t / a.mu0) - a.I0 * a.mu0 * Real.exp (-t / a.mu0))
      ≤ hemiFlux a (node E a) (weight E a) (fun i => U₂ 0 t (nHalf a + i))
        + (a.I0 * a.mu0 * Real.exp (-tauStar (reflecting a om₂ B₂) (layOf a t) t / a.mu0) - a.I0 * a.mu0 * Real.exp (-t / a.mu0))
    have x2 : a.I0 * a.mu0 * Real.exp (-tauStar (reflecting a om₁ B₁) (layOf a t) t / a.mu0)
        ≤ a.I0 * a.mu0 * Real.exp (-tauStar (reflecting a om₂ B₂) (layOf a t) t / a.mu0) := by
      have hI : 0 ≤ a.I0 := hacc₁.beam
      rcases hI.lt_or_eq with hI | hI
      · have hmu : 0 < a.mu0 := (hacc₁.beamDir hI).1.1
        obtain ⟨y1, y2⟩ := layOf_spec hacc₁ h0 h1
        refine mul_le_mul_of_nonneg_left (Real.exp_le_exp.2 ?_) (mul_pos hI hmu).le
        rw [div_le_div_iff_of_pos_right hmu]
        exact neg_le_neg ((reflecting_depth hacc₁ hd.albedo).2 _ y1 t y2.1)
      · rw [← hI]; simp
    linarith
  · rw [e4, g4]
    rfl

/-! ### The hypotheses are met -/

/-- A beam direction that is regular for two problems. -/
theorem exists_beamRegular_two (a b : Args) (mu w : Vec) :
    ∃ x : ℝ, 0 < x ∧ x ≤ 1 ∧ BeamRegular { a with mu0 := x } mu w ∧ BeamRegular { b with mu0 := x } mu w := by
  have hinf : {x : ℝ | x ∈ Set.Ioc 0 1 ∧ BeamRegular { a with mu0 := x } mu w}.Infinite := by
    intro hfin
    obtain ⟨x, hx, hb⟩ := exists_beamRegular_in a mu w (S := Set.Ioc (0 : ℝ) 1 \ {x | x ∈ Set.Ioc 0 1 ∧ BeamRegular { a with mu0 := x } mu w})
      Set.diff_subset ((Set.Ioc_infinite one_pos).diff hfin)
    exact hx.2 ⟨hx.1, hb⟩
  obtain ⟨x, hx, hb⟩ := exists_beamRegular_in b mu w (S := {x : ℝ | x ∈ Set.Ioc 0 1 ∧ BeamRegular { a with mu0 := x } mu w}) (fun _ h => h.1) hinf
  exact ⟨x, hx.1.1, hx.1.2, hx.2, hb⟩

/-- `demoMild` whose upper layer does not emit. -/
noncomputable def demoCool (n : ℕ) (x : ℝ) : Args := { demoMild n x with s := ⟨2, 2, fun l _ => if l = 0 then 0 else 1⟩ }

/-- Other albedos: more absorption in the upper layer. -/
noncomputable def dimOmega : A1 ℝ := ⟨2, fun k => if k = 0 then 1 / 4 else 3 / 4⟩

section
variable {n : ℕ}

theorem demoCool_accepted (hn : 0 < n) {x : ℝ} (h0 : 0 < x) (h1 : x ≤ 1) : Accepted (demoCool n x) :=
  { demoMild_accepted hn h0 h1 with sourceRows := Or.inr rfl }

/-- The hypotheses of C88 are met, with a beam, internal sources and a reflecting surface, for every number of streams: one layer and the surface absorb more. -/
example (hn : 0 < n) (J : Junk) : ∃ (a : Args) (om₁ om₂ : A1 ℝ) (B₁ B₂ : List BDRFMode) (rho₁ rho₂ : ℕ → ℝ → ℝ → ℝ) (R₁ R₂ : Solved) (F₁ F₂ : Fields),
    pydisort refExt J (reflecting a om₁ B₁) = .ok R₁ ∧ pydisort refExt J (reflecting a om₂ B₂) = .ok R₂
    ∧ Sound refExt (reflecting a om₁ B₁) ∧ Sound refExt (reflecting a om₂ B₂) ∧ Rescalable (reflecting a om₁ B₁) ∧ Rescalable (reflecting a om₂ B₂)
    ∧ Azimuthless a.bpos ∧ Azimuthless a.bneg ∧ SurfaceIs (reflecting a om₁ B₁) rho₁ ∧ SurfaceIs (reflecting a om₂ B₂) rho₂
    ∧ Darker a (node refExt a) om₁ om₂ B₁ B₂ (rho₁ 0) (rho₂ 0) ∧ om₁.get 0 < om₂.get 0 ∧ rho₁ 0 1 1 < rho₂ 0 1 1
    ∧ NonnegScattering (reflecting a om₂ B₂) (node refExt a) ∧ FairSurface (reflecting a om₂ B₂) (node refExt a) (weight refExt a) (rho₂ 0)
    ∧ NonnegSources (reflecting a om₂ B₂) (node refExt a) ∧ Evaluates (reflecting a om₁ B₁) R₁ F₁ ∧ Evaluates (reflecting a om₂ B₂) R₂ F₂ := by
  obtain ⟨x, h0, h1, hb₁, hb₂⟩ := exists_beamRegular_two (reflecting (demoCool n 1) dimOmega [.scalar (1 / 4)]) (demoCool n 1)
    (node refExt (demoCool n 1)) (weight refExt (demoCool n 1))
  have hh : nHalf (demoCool n x) = n := demo_nHalf x
  have hacc₂ := demoCool_accepted hn h0 h1
  have hacc₁ : Accepted (reflecting (demoCool n x) dimOmega [.scalar (1 / 4)]) :=
    { hacc₂ with
      omegaLen := rfl
      omega := fun k _ => by simp only [reflecting, dimOmega]; split_ifs <;> norm_num }
  have hpk : ∀ l < (demoCool n x).tauArr.n, peak (demoCool n x) l < 1 := fun l hl => by
    rw [show peak (demoCool n x) l = 1 / 8 from demo_peak (n := n) (x := x) hl]; norm_num
  have hL : nLeg (demoCool n x) ≤ nHalf (demoCool n x) := by rw [hh]; simp [nLeg, demoCool, demoMild, demo]
  have w₁ : WellPosed refExt (reflecting (demoCool n x) dimOmega [.scalar (1 / 4)]) :=
    wellPosed_of hacc₁ (by change 0 < nHalf (demoCool n x); rw [hh]; exact hn) hpk hL hb₁ (Or.inr ⟨1 / 4, by norm_num, rfl⟩) trivial trivial (Or.inr rfl) rfl
  have w₂ : WellPosed refExt (demoCool n x) :=
    wellPosed_of hacc₂ (by rw [hh]; exact hn) hpk hL hb₂ (Or.inr ⟨1 / 3, by norm_num, rfl⟩) trivial trivial (Or.inr rfl) rfl
  have r₁ : Rescalable (reflecting (demoCool n x) dimOmega [.scalar (1 / 4)]) := Or.inl (Or.inl one_pos)
  have r₂ : Rescalable (demoCool n x) := Or.inl (Or.inl one_pos)
  obtain ⟨R₁, e₁⟩ := pydisort_isOk w₁ J
  obtain ⟨R₂, e₂⟩ := pydisort_isOk w₂ J
  obtain ⟨F₁, f₁⟩ := evaluates_exists e₁ w₁.sound r₁
  obtain ⟨F₂, f₂⟩ := evaluates_exists e₂ w₂.sound r₂
  have hq := demoMild_sources hn h0 h1
  have hsf := demoMild_surface hn (x := x)
  refine ⟨demoCool n x, dimOmega, (demoCool n x).omega, [.scalar (1 / 4)], (demoCool n x).bdrf, fun _ _ _ => 1 / 4, fun _ _ _ => 1 / 3, R₁, R₂, F₁, F₂, e₁, e₂,
    w₁.sound, w₂.sound, r₁, r₂, trivial, trivial, ?_, fun m _ => demo_rho (n := n) x m, ⟨fun l hl => ?_, fun l hl => ?_, fun i _ j _ => ?_, fun i _ => ?_⟩, ?_, ?_,
    demoMild_scattering hn x, ⟨hsf.nonneg, hsf.beam, hsf.bounded⟩, ⟨hq.beam, fun l hl t ht => ?_, hq.top, hq.bottom⟩, f₁, f₂⟩
  · intro m _ M hM
    rcases m with _ | m
    · simp only [reflecting, List.getElem?_cons_zero, Option.some.injEq] at hM
      subst hM
      intro _ _; rfl
    · simp [reflecting] at hM
  · simp only [dimOmega, demoCool, demoMild, demo]; split_ifs <;> norm_num
  · rcases l with _ | l
    · right
      intro t _
      unfold source
      simp [demoCool]
    · left
      simp [dimOmega, demoCool, demoMild, demo]
  · simp only [surfaceOf, demoCool, demoMild, demo]; norm_num
  · simp only [surfaceOf, demoCool, demoMild, demo]; norm_num
  · simp only [dimOmega, demoCool, demoMild, demo]; norm_num
  · norm_num
  · have h2 : 0 ≤ t := by
      have := bdry_le hacc₂ (Nat.zero_le l) hl.le
      rw [bdry_zero] at this
      exact this.trans ht.1
    unfold source
    split_ifs
    · refine sum_nonneg fun k _ => mul_nonneg ?_ (pow_nonneg h2 k)
      simp only [reflecting, demoCool]
      split_ifs <;> norm_num
    · exact le_rfl

end

end Pydisort

import Verif.Spec.Bounds
import Verif.MinPrinciple
import Verif.Props.Absorbing
import Verif.Props.Linear

/-!
# C70-C72: thermal equilibrium, positivity and bounds of the light field

Specification used: `Spec.NonnegScattering`, `Spec.FairSurface`, `Spec.NonnegSources`, `Spec.BelowBlackbody`, `Spec.Isothermal`.
-/

namespace Pydisort
open Finset Spec

variable {E : Ext} {J : Junk} {a : Args} {R : Solved}

theorem row_sum_kernel (hacc : Accepted a) (hg : GaussContract E (nHalf a)) {l : ℕ} (hp : peak a l < 1) (x : ℝ) :
    ∑ j ∈ range (2 * nHalf a), streamW (nHalf a) (weight E a) j * kernel a 0 l x (stream (nHalf a) (node E a) j) = effAlbedo a l := by
  rw [← C11_scattering_conserves hacc hg hp x]
  exact sum_congr rfl fun j _ => by rw [kernel_symm]

theorem effAlbedo_range (hacc : Accepted a) {l : ℕ} (hl : l < a.tauArr.n) (hp : peak a l < 1) :
    0 ≤ effAlbedo a l ∧ effAlbedo a l < 1 ∧ 1 - a.omega.get l ≤ scale a l * (1 - effAlbedo a l) := by
  have hs := Args.scale_pos hacc hl
  have ho := hacc.omega l hl
  have hf := (Args.peak_range hacc l).1
  unfold effAlbedo
  split_ifs with h
  · have h1 : scale a l * omegaStar a l = (1 - peak a l) * a.omega.get l := by unfold omegaStar; field_simp
    have h2 : 0 ≤ omegaStar a l := by
      unfold omegaStar
      exact div_nonneg (mul_nonneg (by linarith) ho.1) hs.le
    refine ⟨h2, ?_, ?_⟩
    · unfold omegaStar
      rw [div_lt_one hs]
      unfold scale; linarith [ho.2]
    · rw [mul_sub, h1]; unfold scale; linarith
  · refine ⟨le_rfl, one_pos, ?_⟩
    unfold scale
    nlinarith [ho.1]

/-- The minimum principle for the equation of mode zero. -/
theorem nonneg_of_super (hacc : Accepted a) (hg : GaussContract E (nHalf a)) (hpk : ∀ l < a.tauArr.n, peak a l < 1)
    (hk : NonnegScattering a (node E a)) {rho : ℝ → ℝ → ℝ} (hr : ∀ i < nHalf a, ∀ j < nHalf a, 0 ≤ rho (node E a i) (node E a j))
    (hr1 : ∀ i < nHalf a, reflectance a (node E a) (weight E a) rho (node E a i) ≤ 1) {V : ℝ → ℕ → ℝ}
    (hV : ∀ i < 2 * nHalf a, ContinuousOn (fun t => V t i) (Set.Icc 0 (bottom a)))
    (hode : ∀ l < a.tauArr.n, ∀ t, bdry a.tauArr.get l < t → t < bdry a.tauArr.get (l + 1) → ∀ i < 2 * nHalf a,
      ∃ d, HasDerivAt (fun x => V x i) d t ∧ stream (nHalf a) (node E a) i * d ≤ scale a l * (V t i
        - ∑ j ∈ range (2 * nHalf a), streamW (nHalf a) (weight E a) j
          * kernel a 0 l (stream (nHalf a) (node E a) i) (stream (nHalf a) (node E a) j) * V t j))
    (htop : ∀ i < nHalf a, 0 ≤ V 0 (nHalf a + i))
    (hbot : ∀ i < nHalf a, (if 0 < a.bdrf.length then 2 * ∑ j ∈ range (nHalf a), weight E a j * node E a j
      * rho (node E a i) (node E a j) * V (bottom a) (nHalf a + j) else 0) ≤ V (bottom a) i) :
    ∀ t, 0 ≤ t → t ≤ bottom a → ∀ i < 2 * nHalf a, 0 ≤ V t i := by
  have hw : ∀ i < 2 * nHalf a, 0 < streamW (nHalf a) (weight E a) i := by
    intro i hi; unfold streamW; split_ifs <;> exact weight_pos hg (by omega)
  have hbb := bdry_bottom hacc
  have key := min_principle (N := nHalf a) (L := a.tauArr.n) (b := bdry a.tauArr.get) (bdry_zero _) (fun l hl => bdry_lt hacc hl)
    (V := V) (by rw [hbb]; exact hV) (σ := stream (nHalf a) (node E a))
    (fun i hi => by unfold stream; rw [if_pos hi]; exact (node_pos hg hi).1)
    (fun i h1 h2 => by
      unfold stream; rw [if_neg (by omega)]
      have := (node_pos hg (i := i - nHalf a) (by omega)).1; linarith)
    (c := scale a) (fun l hl => Args.scale_pos hacc hl)
    (k := fun l i j => streamW (nHalf a) (weight E a) j * kernel a 0 l (stream (nHalf a) (node E a) i) (stream (nHalf a) (node E a) j))
    (fun l hl i hi j hj => mul_nonneg (hw j hj).le (hk l hl i hi j hj))
    (fun l hl i hi => by rw [row_sum_kernel hacc hg (hpk l hl)]; exact (effAlbedo_range hacc hl (hpk l hl)).2.1)
    hode htop
    (r := fun i j => if 0 < a.bdrf.length then 2 * (weight E a j * node E a j * rho (node E a i) (node E a j)) else 0)
    (fun i hi j hj => by
      beta_reduce
      split_ifs
      · exact mul_nonneg (by norm_num) (mul_nonneg (mul_pos (weight_pos hg hj) (node_pos hg hj).1).le (hr i hi j hj))
      · exact le_rfl)
    (fun i hi => by
      refine le_trans (le_of_eq ?_) (hr1 i hi)
      unfold reflectance
      split_ifs
      · rw [mul_sum]
      · simp)
    (fun i hi => by
      rw [hbb]
      refine le_trans (le_of_eq ?_) (hbot i hi)
      split_ifs
      · rw [mul_sum]; exact sum_congr rfl fun j _ => by ring
      · simp)
  rw [hbb] at key
  exact key

theorem rteUser_zero (a : Args) (mu w : Vec) (l : ℕ) (t : ℝ) (u : ℕ → ℝ) (i : ℕ) :
    rteUser a mu w 0 l t u i = scale a l * (u i - ∑ j ∈ range (2 * nHalf a), streamW (nHalf a) w j
        * kernel a 0 l (stream (nHalf a) mu i) (stream (nHalf a) mu j) * u j)
      - (scale a l * (beamSource a 0 l (stream (nHalf a) mu i) * Real.exp (-tauStar a l t / a.mu0)) + (1 - a.omega.get l) * source a l t) := by
  unfold rteUser rteRHS
  rw [if_pos rfl]; ring

/-- Solutions of mode zero with non-negative sources are non-negative. -/
theorem solution_nonneg (hacc : Accepted a) (hg : GaussContract E (nHalf a)) (hpk : ∀ l < a.tauArr.n, peak a l < 1)
    (hk : NonnegScattering a (node E a)) {rho : ℝ → ℝ → ℝ} (hsf : FairSurface a (node E a) (weight E a) rho)
    (hq : NonnegSources a (node E a)) {V : ℝ → ℕ → ℝ} (hV : IsSolution a (node E a) (weight E a) rho 0 V) :
    ∀ t, 0 ≤ t → t ≤ bottom a → ∀ i < 2 * nHalf a, 0 ≤ V t i := by
  refine nonneg_of_super hacc hg hpk hk hsf.nonneg hsf.bounded hV.cont ?_ ?_ ?_
  · intro l hl t h1 h2 i hi
    obtain ⟨d, hd, he⟩ := hV.ode l hl t h1 h2 i hi
    refine ⟨d, hd, ?_⟩
    rw [he, rteUser_zero]
    have e1 := hq.inner l hl t ⟨h1.le, h2.le⟩
    have e2 := hq.beam l hl i hi
    have e3 := (hacc.omega l hl).2
    have e4 := Args.scale_pos hacc hl
    have e5 : 0 ≤ scale a l * (beamSource a 0 l (stream (nHalf a) (node E a) i) * Real.exp (-tauStar a l t / a.mu0))
      + (1 - a.omega.get l) * source a l t :=
      add_nonneg (mul_nonneg e4.le (mul_nonneg e2 (Real.exp_pos _).le)) (mul_nonneg (by linarith) e1)
    linarith
  · intro i hi
    rw [hV.top i hi]; exact hq.top i hi
  · intro i hi
    rw [hV.bot i hi]
    have e1 := hq.bottom i hi
    split_ifs with hb
    · unfold reflected
      rw [if_pos rfl]
      have e2 : 0 ≤ a.mu0 * a.I0 / Real.pi * rho (node E a i) a.mu0 * Real.exp (-bdryStar a a.tauArr.n / a.mu0) := by
        rcases hacc.beam.lt_or_eq with hI | hI
        · have := (hacc.beamDir hI).1.1
          have := hsf.beam i hi
          positivity
        · rw [← hI]; simp
      rw [one_add_one_eq_two]
      linarith
    · linarith

/-- Solutions of mode zero do not decrease when a source increases. -/
theorem solution_mono {S₁ S₂ : Sources} (hacc : Accepted (under a S₂)) (hg : GaussContract E (nHalf a)) (hpk : ∀ l < a.tauArr.n, peak a l < 1)
    (hk : NonnegScattering a (node E a)) {rho : ℝ → ℝ → ℝ} (hsf : FairSurface a (node E a) (weight E a) rho) (hI : 0 ≤ S₁.I0)
    (hb : 0 < S₂.I0 → ∀ l < a.tauArr.n, ∀ i < 2 * nHalf a, 0 ≤ beamSource (under a S₂) 0 l (stream (nHalf a) (node E a) i))
    (hd : Dimmer a S₁ S₂) {V₁ V₂ : ℝ → ℕ → ℝ} (h₁ : IsSolution (under a S₁) (node E a) (weight E a) rho 0 V₁)
    (h₂ : IsSolution (under a S₂) (node E a) (weight E a) rho 0 V₂) :
    ∀ t, 0 ≤ t → t ≤ bottom a → ∀ i < 2 * nHalf a, V₁ t i ≤ V₂ t i := by
  have key := nonneg_of_super (a := under a S₂) (E := E) hacc hg hpk hk hsf.nonneg hsf.bounded (V := fun t i => V₂ t i - V₁ t i)
    (fun i hi => (h₂.cont i hi).sub (h₁.cont i hi)) ?_ ?_ ?_
  · intro t ht0 ht1 i hi
    exact sub_nonneg.1 (key t ht0 ht1 i hi)
  · intro l hl t ht0 ht1 i hi
    obtain ⟨d₁, g₁, e₁⟩ := h₁.ode l hl t ht0 ht1 i hi
    obtain ⟨d₂, g₂, e₂⟩ := h₂.ode l hl t ht0 ht1 i hi
    refine ⟨d₂ - d₁, g₂.sub g₁, ?_⟩
    change stream (nHalf a) (node E a) i * (d₂ - d₁) ≤ scale a l * (V₂ t i - V₁ t i - ∑ j ∈ range (2 * nHalf a), streamW (nHalf a) (weight E a) j
      * kernel a 0 l (stream (nHalf a) (node E a) i) (stream (nHalf a) (node E a) j) * (V₂ t j - V₁ t j))
    change stream (nHalf a) (node E a) i * d₁ = _ at e₁
    change stream (nHalf a) (node E a) i * d₂ = _ at e₂
    rw [rteUser_under, if_pos rfl] at e₁ e₂
    rw [mul_sub, e₁, e₂]
    simp only [mul_sub, sum_sub_distrib]
    have x1 := hd.inner l hl t ⟨ht0.le, ht1.le⟩
    have x2 := (hacc.omega l hl).2
    change a.omega.get l < 1 at x2
    have x3 : 0 < scale a l := Args.scale_pos hacc hl
    have x4 : S₁.I0 * beamSource { a with I0 := 1 } 0 l (stream (nHalf a) (node E a) i)
        ≤ S₂.I0 * beamSource { a with I0 := 1 } 0 l (stream (nHalf a) (node E a) i) := by
      rcases hacc.beam.lt_or_eq with hI2 | hI2
      · have y := hb hI2 l hl i hi
        rw [beamSource_under] at y
        exact mul_le_mul_of_nonneg_right hd.beam (nonneg_of_mul_nonneg_right y hI2)
      · have y : S₂.I0 = 0 := hI2.symm
        have := hd.beam
        rw [y, le_antisymm (by linarith) hI]
    have x5 := mul_le_mul_of_nonneg_left (mul_le_mul_of_nonneg_right x4 (Real.exp_pos (-tauStar a l t / a.mu0)).le) x3.le
    have x6 : (1 - a.omega.get l) * source (under a S₁) l t ≤ (1 - a.omega.get l) * source (under a S₂) l t :=
      mul_le_mul_of_nonneg_left x1 (by linarith)
    nlinarith
  · intro i hi
    have e₁ := h₁.top i hi
    have e₂ := h₂.top i hi
    have := hd.top i hi
    change V₁ 0 (nHalf a + i) = bcVal S₁.bneg 0 i at e₁
    change V₂ 0 (nHalf a + i) = bcVal S₂.bneg 0 i at e₂
    change 0 ≤ V₂ 0 (nHalf a + i) - V₁ 0 (nHalf a + i)
    linarith
  · intro i hi
    have e₁ := h₁.bot i hi
    have e₂ := h₂.bot i hi
    have x1 := hd.bottom i hi
    have x2 : a.mu0 * S₁.I0 / Real.pi * rho (node E a i) a.mu0 * Real.exp (-bdryStar a a.tauArr.n / a.mu0)
        ≤ a.mu0 * S₂.I0 / Real.pi * rho (node E a i) a.mu0 * Real.exp (-bdryStar a a.tauArr.n / a.mu0) := by
      rcases hacc.beam.lt_or_eq with hI2 | hI2
      · have y0 : 0 < a.mu0 := (hacc.beamDir hI2).1.1
        have y1 := hsf.beam i hi
        have y2 := hd.beam
        gcongr
      · have y : S₂.I0 = 0 := hI2.symm
        have := hd.beam
        rw [y, le_antisymm (by linarith) hI]
    change (if 0 < a.bdrf.length then 2 * ∑ j ∈ range (nHalf a), weight E a j * node E a j
      * rho (node E a i) (node E a j) * (V₂ (bottom a) (nHalf a + j) - V₁ (bottom a) (nHalf a + j)) else 0) ≤ V₂ (bottom a) i - V₁ (bottom a) i
    change V₁ (bottom a) i = bcVal S₁.bpos 0 i + if 0 < a.bdrf.length then _ else 0 at e₁
    change V₂ (bottom a) i = bcVal S₂.bpos 0 i + if 0 < a.bdrf.length then _ else 0 at e₂
    by_cases hm : 0 < a.bdrf.length
    · rw [if_pos hm] at e₁ e₂ ⊢
      change _ = _ + ((1 + if 0 = 0 then 1 else 0) * ∑ j ∈ range (nHalf a), weight E a j * node E a j * rho (node E a i) (node E a j) * V₁ (bottom a) (nHalf a + j)
        + a.mu0 * S₁.I0 / Real.pi * rho (node E a i) a.mu0 * Real.exp (-bdryStar a a.tauArr.n / a.mu0)) at e₁
      change _ = _ + ((1 + if 0 = 0 then 1 else 0) * ∑ j ∈ range (nHalf a), weight E a j * node E a j * rho (node E a i) (node E a j) * V₂ (bottom a) (nHalf a + j)
        + a.mu0 * S₂.I0 / Real.pi * rho (node E a i) a.mu0 * Real.exp (-bdryStar a a.tauArr.n / a.mu0)) at e₂
      rw [if_pos rfl, one_add_one_eq_two] at e₁ e₂
      rw [e₁, e₂]
      simp only [mul_sub, sum_sub_distrib]
      linarith
    · rw [if_neg hm] at e₁ e₂ ⊢
      linarith

/-- Solutions of mode zero stay below a black body that no source exceeds. -/
theorem solution_le (hacc : Accepted a) (hg : GaussContract E (nHalf a)) (hpk : ∀ l < a.tauArr.n, peak a l < 1)
    (hk : NonnegScattering a (node E a)) {rho : ℝ → ℝ → ℝ} (hsf : FairSurface a (node E a) (weight E a) rho) {B : ℝ} (hB : 0 ≤ B)
    (hb : BelowBlackbody a (node E a) (weight E a) rho B) {V : ℝ → ℕ → ℝ} (hV : IsSolution a (node E a) (weight E a) rho 0 V) :
    ∀ t, 0 ≤ t → t ≤ bottom a → ∀ i < 2 * nHalf a, V t i ≤ B := by
  have key := nonneg_of_super (E := E) hacc hg hpk hk hsf.nonneg hsf.bounded (V := fun t i => B - V t i)
    (fun i hi => continuousOn_const.sub (hV.cont i hi)) ?_ ?_ ?_
  · intro t ht0 ht1 i hi
    exact sub_nonneg.1 (key t ht0 ht1 i hi)
  · intro l hl t ht0 ht1 i hi
    obtain ⟨d, hd, he⟩ := hV.ode l hl t ht0 ht1 i hi
    refine ⟨-d, by simpa using hd.const_sub B, ?_⟩
    have hz : beamSource a 0 l (stream (nHalf a) (node E a) i) = 0 := by
      unfold beamSource beamX; rw [hb.noBeam]; simp
    rw [rteUser_zero, hz] at he
    have hrow := row_sum_kernel hacc hg (hpk l hl) (stream (nHalf a) (node E a) i)
    simp only [mul_sub, sum_sub_distrib]
    rw [← sum_mul, hrow]
    have x1 := (effAlbedo_range hacc hl (hpk l hl)).2.2
    have x2 := hb.inner l hl t ⟨ht0.le, ht1.le⟩
    have x3 := (hacc.omega l hl).2
    have x4 : (1 - a.omega.get l) * source a l t ≤ (1 - a.omega.get l) * B := mul_le_mul_of_nonneg_left x2 (by linarith)
    have x5 : (1 - a.omega.get l) * B ≤ scale a l * (1 - effAlbedo a l) * B := mul_le_mul_of_nonneg_right x1 hB
    rw [mul_neg, he]
    linarith
  · intro i hi
    beta_reduce
    rw [hV.top i hi]; linarith [hb.top i hi]
  · intro i hi
    beta_reduce
    rw [hV.bot i hi]
    have e1 := hb.bottom i hi
    unfold reflectance at e1
    split_ifs at e1 ⊢ with hm
    · unfold reflected
      rw [if_pos rfl, one_add_one_eq_two, hb.noBeam]
      simp only [mul_sub, sum_sub_distrib]
      rw [← sum_mul]
      simp only [mul_zero, zero_div, zero_mul]
      linarith
    · linarith

/-- A uniform field is in equilibrium with sources of its temperature. -/
theorem const_isSolution (hacc : Accepted a) (hg : GaussContract E (nHalf a)) (hpk : ∀ l < a.tauArr.n, peak a l < 1)
    {rho : ℝ → ℝ → ℝ} {B : ℝ} (hb : Isothermal a (node E a) (weight E a) rho B) (hn : NoNeglect a) :
    IsSolution a (node E a) (weight E a) rho 0 (fun _ _ => B) := by
  refine ⟨fun _ _ => continuousOn_const, ?_, fun i hi => (hb.top i hi).symm, ?_⟩
  · intro l hl t ht0 ht1 i hi
    refine ⟨0, hasDerivAt_const _ _, ?_⟩
    have hz : beamSource a 0 l (stream (nHalf a) (node E a) i) = 0 := by
      unfold beamSource beamX; rw [hb.noBeam]; simp
    rw [rteUser_zero, hz, ← sum_mul, row_sum_kernel hacc hg (hpk l hl), hb.inner l hl t ⟨ht0.le, ht1.le⟩]
    have : scale a l * (1 - effAlbedo a l) = 1 - a.omega.get l := by
      rcases hn l hl with h0 | h0
      · have h1 : effAlbedo a l = 0 := by unfold effAlbedo; split_ifs <;> simp [h0]
        have h2 := Args.scale_pos hacc hl
        unfold omegaStar at h0
        rw [div_eq_zero_iff, or_iff_left h2.ne', mul_eq_zero, or_iff_right (by linarith [hpk l hl])] at h0
        rw [h1, h0]; unfold scale; rw [h0]; ring
      · exact C11_absorbed_fraction hacc hl h0
    linear_combination (-B) * this
  · intro i hi
    rw [hb.bottom i hi]
    unfold reflectance
    split_ifs with hm
    · unfold reflected
      rw [if_pos rfl, one_add_one_eq_two, hb.noBeam, ← sum_mul]
      simp only [mul_zero, zero_div, zero_mul]
      ring
    · ring

/-! ## Statements about the returned functions -/

/-- The returned functions determine their values at the depths of the atmosphere. -/
theorem evaluates_unique {F G : Fields} (hF : Evaluates a R F) (hG : Evaluates a R G) {t : ℝ} (h0 : 0 ≤ t) (h1 : t ≤ bottom a) :
    (∀ i < 2 * nHalf a, F.u0 t i = G.u0 t i) ∧ F.up t = G.up t ∧ F.diffuse t = G.diffuse t ∧ F.direct t = G.direct t := by
  have hin : InRange a ⟨1, fun _ => t⟩ := fun _ _ => ⟨h0, h1⟩
  refine ⟨fun i hi => ?_, ?_, ?_⟩
  · obtain ⟨A, e, _, _, x⟩ := hF.u0 _ hin
    obtain ⟨A', e', _, _, x'⟩ := hG.u0 _ hin
    rw [e] at e'; cases e'
    exact (x i hi 0 Nat.one_pos).symm.trans (x' i hi 0 Nat.one_pos)
  · obtain ⟨A, e, _, x⟩ := hF.up _ hin
    obtain ⟨A', e', _, x'⟩ := hG.up _ hin
    rw [e] at e'; cases e'
    exact (x 0 Nat.one_pos).symm.trans (x' 0 Nat.one_pos)
  · obtain ⟨A, D, fl, e, _, x, _, y⟩ := hF.down _ hin
    obtain ⟨A', D', fl', e', _, x', _, y'⟩ := hG.down _ hin
    rw [e] at e'; cases e'
    exact ⟨(x 0 Nat.one_pos).symm.trans (x' 0 Nat.one_pos), (y 0 Nat.one_pos).symm.trans (y' 0 Nat.one_pos)⟩

/-- There is something to evaluate. -/
theorem evaluates_exists (h : pydisort E J a = .ok R) (hS : Sound E a) (hres : Rescalable a) : ∃ F, Evaluates a R F := by
  obtain ⟨U, hU, _⟩ := C02_modes_solve_transfer_equation h hS hres
  exact ⟨_, evaluates h hres hU⟩

theorem hemiFlux_mono (hg : GaussContract E (nHalf a)) {v v' : Vec} (h : ∀ i < nHalf a, v i ≤ v' i) :
    hemiFlux a (node E a) (weight E a) v ≤ hemiFlux a (node E a) (weight E a) v' := by
  unfold hemiFlux
  refine mul_le_mul_of_nonneg_left (sum_le_sum fun i hi => ?_) (by positivity)
  exact mul_le_mul_of_nonneg_left (h i (mem_range.1 hi))
    (mul_pos (node_pos hg (mem_range.1 hi)).1 (weight_pos hg (mem_range.1 hi))).le

theorem hemiFlux_const (hg : GaussContract E (nHalf a)) (hn : 0 < nHalf a) (B : ℝ) :
    hemiFlux a (node E a) (weight E a) (fun _ => B) = Real.pi * B := by
  unfold hemiFlux
  rw [← sum_mul, sum_congr rfl fun i _ => mul_comm (node E a i) (weight E a i), sum_weight_node hg hn]
  ring

theorem streams_pos (hacc : Accepted a) : 0 < nHalf a := by
  have := hacc.streams.1
  unfold nHalf; omega

theorem nFourier_pos (h : pydisort E J a = .ok R) (hS : Sound E a) : 0 < nFourier a := by
  obtain ⟨hacc, O, r, hO, _⟩ := pydisort_ok h
  have := (asm_good (r := 0) hacc (Args.optics_spec hacc hO) hS.toNumerics).F
  rw [← nFourier_eq]; exact this

/-- Scaling does not deepen the atmosphere. -/
theorem tauStar_le (hacc : Accepted a) {l : ℕ} (hl : l < a.tauArr.n) {t : ℝ} (ht : InLayer a l t) : tauStar a l t ≤ t := by
  have hle : ∀ k < a.tauArr.n, scale a k ≤ 1 := by
    intro k hk
    unfold scale
    have := mul_nonneg (hacc.omega k hk).1 (Args.peak_range hacc k).1
    linarith
  have : ∀ j ≤ l, bdryStar a j ≤ bdry a.tauArr.get j := by
    intro j hj
    induction j with
    | zero => simp [bdryStar, bdry]
    | succ j ih =>
      have e2 : bdryStar a (j + 1) = bdryStar a j + scale a j * (bdry a.tauArr.get (j + 1) - bdry a.tauArr.get j) := by
        unfold bdryStar; rw [sum_range_succ]
      have h1 := ih (by omega)
      have h2 := bdry_lt hacc (l := j) (by omega)
      have h3 := hle j (by omega)
      rw [e2]
      nlinarith
  unfold tauStar
  have h1 := this l le_rfl
  have h2 := hle l hl
  have h3 := ht.1
  nlinarith

/-- The part of the beam that scaling leaves in the beam. -/
theorem unscattered_nonneg (hacc : Accepted a) {t : ℝ} (h0 : 0 ≤ t) (h1 : t ≤ bottom a) {I : ℝ} (hI : 0 ≤ I) (hd : 0 < I → 0 < a.mu0) :
    0 ≤ I * a.mu0 * Real.exp (-tauStar a (layOf a t) t / a.mu0) - I * a.mu0 * Real.exp (-t / a.mu0) := by
  rcases hI.lt_or_eq with hp | hz
  · have hm := hd hp
    obtain ⟨x1, x2⟩ := layOf_spec hacc h0 h1
    have h2 := tauStar_le hacc x1 x2
    have : Real.exp (-t / a.mu0) ≤ Real.exp (-tauStar a (layOf a t) t / a.mu0) := by
      apply Real.exp_le_exp.2
      rw [div_le_div_iff_of_pos_right hm]; linarith
    have := mul_le_mul_of_nonneg_left this (mul_pos hp hm).le
    linarith
  · rw [← hz]; simp

/-! ### C71 -/

/-- **C71, positivity.** If the (delta-M scaled, truncated) phase function is non-negative between the streams and towards the beam, no
source is negative, and the surface reflects a non-negative fraction of at most one, then `u0`, `flux_up` and both entries of `flux_down` are
non-negative at every depth. -/
theorem C71_nonneg (h : pydisort E J a = .ok R) (hS : Sound E a) (hres : Rescalable a) (hbp : Azimuthless a.bpos) (hbn : Azimuthless a.bneg)
    {rho : ℕ → ℝ → ℝ → ℝ} (hrho : SurfaceIs a rho) (hsf : FairSurface a (node E a) (weight E a) (rho 0)) (hk : NonnegScattering a (node E a))
    (hq : NonnegSources a (node E a)) {F : Fields} (hF : Evaluates a R F) : ∀ t, 0 ≤ t → t ≤ bottom a →
      (∀ i < 2 * nHalf a, 0 ≤ F.u0 t i) ∧ 0 ≤ F.up t ∧ 0 ≤ F.diffuse t ∧ 0 ≤ F.direct t := by
  intro t h0 h1
  obtain ⟨U, hU, _⟩ := C02_modes_solve_transfer_equation h hS hres
  have hacc := (pydisort_ok h).1
  have hpos := solution_nonneg hacc hS.gauss hS.peak hk hsf hq
    (modes_isSolution h hS hres hbp hbn hrho hU (nFourier_pos h hS)) t h0 h1
  obtain ⟨e1, e2, e3, e4⟩ := evaluates_unique hF (evaluates h hres hU) h0 h1
  have hz : hemiFlux a (node E a) (weight E a) (fun _ => 0) = 0 := by unfold hemiFlux; simp
  have hm : 0 < a.I0 → 0 < a.mu0 := fun hI => (hacc.beamDir hI).1.1
  refine ⟨fun i hi => by rw [e1 i hi]; exact hpos i hi, ?_, ?_, ?_⟩
  · rw [e2, ← hz]
    exact hemiFlux_mono hS.gauss fun i hi => hpos i (by omega)
  · rw [e3]
    refine add_nonneg ?_ (unscattered_nonneg hacc h0 h1 hacc.beam hm)
    rw [← hz]
    exact hemiFlux_mono hS.gauss fun i hi => hpos _ (by omega)
  · rw [e4]
    change 0 ≤ a.I0 * a.mu0 * Real.exp (-t / a.mu0)
    rcases hacc.beam.lt_or_eq with hp | hz
    · have := hm hp; positivity
    · rw [← hz]; simp

/-- **C71, monotonicity.** With the same phase functions and surface, brighter sources give at every depth at least as much light in every stream,
and at least as large fluxes. -/
theorem C71_monotone {S₁ S₂ : Sources} {J₁ J₂ : Junk} {R₁ R₂ : Solved} (h₁ : pydisort E J₁ (under a S₁) = .ok R₁)
    (h₂ : pydisort E J₂ (under a S₂) = .ok R₂) (hS₁ : Sound E (under a S₁)) (hS₂ : Sound E (under a S₂)) (hr₁ : Rescalable (under a S₁))
    (hr₂ : Rescalable (under a S₂)) (hp₁ : Azimuthless S₁.bpos) (hn₁ : Azimuthless S₁.bneg) (hp₂ : Azimuthless S₂.bpos)
    (hn₂ : Azimuthless S₂.bneg) {rho : ℕ → ℝ → ℝ → ℝ} (hrho : SurfaceIs a rho) (hsf : FairSurface a (node E a) (weight E a) (rho 0))
    (hk : NonnegScattering a (node E a))
    (hb : 0 < S₂.I0 → ∀ l < a.tauArr.n, ∀ i < 2 * nHalf a, 0 ≤ beamSource (under a S₂) 0 l (stream (nHalf a) (node E a) i))
    (hd : Dimmer a S₁ S₂) {F₁ F₂ : Fields} (hF₁ : Evaluates (under a S₁) R₁ F₁) (hF₂ : Evaluates (under a S₂) R₂ F₂) :
    ∀ t, 0 ≤ t → t ≤ bottom a →
      (∀ i < 2 * nHalf a, F₁.u0 t i ≤ F₂.u0 t i) ∧ F₁.up t ≤ F₂.up t ∧ F₁.diffuse t ≤ F₂.diffuse t ∧ F₁.direct t ≤ F₂.direct t := by
  intro t h0 h1
  obtain ⟨U₁, hU₁, _⟩ := C02_modes_solve_transfer_equation h₁ hS₁ hr₁
  obtain ⟨U₂, hU₂, _⟩ := C02_modes_solve_transfer_equation h₂ hS₂ hr₂
  have hacc₁ := (pydisort_ok h₁).1
  have hacc₂ := (pydisort_ok h₂).1
  have hle := solution_mono (E := E) hacc₂ hS₂.gauss hS₂.peak hk hsf hacc₁.beam hb hd
    (modes_isSolution h₁ hS₁ hr₁ hp₁ hn₁ hrho hU₁ (nFourier_pos h₁ hS₁))
    (modes_isSolution h₂ hS₂ hr₂ hp₂ hn₂ hrho hU₂ (nFourier_pos h₂ hS₂)) t h0 h1
  obtain ⟨e1, e2, e3, e4⟩ := evaluates_unique hF₁ (evaluates h₁ hr₁ hU₁) h0 h1
  obtain ⟨g1, g2, g3, g4⟩ := evaluates_unique hF₂ (evaluates h₂ hr₂ hU₂) h0 h1
  have hm : 0 < S₂.I0 → 0 < a.mu0 := fun hI => (hacc₂.beamDir hI).1.1
  have hI : 0 ≤ S₂.I0 - S₁.I0 := sub_nonneg.2 hd.beam
  have hI1 : 0 ≤ S₁.I0 := hacc₁.beam
  refine ⟨fun i hi => by rw [e1 i hi, g1 i hi]; exact hle i hi, ?_, ?_, ?_⟩
  · rw [e2, g2]
    exact hemiFlux_mono (a := a) hS₁.gauss fun i hi => hle i (by omega)
  · rw [e3, g3]
    change hemiFlux a (node E a) (weight E a) (fun i => U₁ 0 t (nHalf a + i))
        + (S₁.I0 * a.mu0 * Real.exp (-tauStar a (layOf a t) t / a.mu0) - S₁.I0 * a.mu0 * Real.exp (-t / a.mu0))
      ≤ hemiFlux a (node E a) (weight E a) (fun i => U₂ 0 t (nHalf a + i))
        + (S₂.I0 * a.mu0 * Real.exp (-tauStar a (layOf a t) t / a.mu0) - S₂.I0 * a.mu0 * Real.exp (-t / a.mu0))
    have x1 := hemiFlux_mono (a := a) (v := fun i => U₁ 0 t (nHalf a + i)) (v' := fun i => U₂ 0 t (nHalf a + i)) hS₁.gauss
      fun i hi => hle _ (by omega)
    have x2 := unscattered_nonneg (a := under a S₂) hacc₂ h0 h1 hI fun hp => hm (by linarith)
    change 0 ≤ (S₂.I0 - S₁.I0) * a.mu0 * Real.exp (-tauStar a (layOf a t) t / a.mu0) - (S₂.I0 - S₁.I0) * a.mu0 * Real.exp (-t / a.mu0) at x2
    linarith
  · rw [e4, g4]
    change S₁.I0 * a.mu0 * Real.exp (-t / a.mu0) ≤ S₂.I0 * a.mu0 * Real.exp (-t / a.mu0)
    rcases (hI1.trans hd.beam).lt_or_eq with hp | hz
    · have := hm hp
      have := hd.beam
      gcongr
    · rw [← hz, show S₁.I0 = 0 from le_antisymm (by rw [hz]; exact hd.beam) hI1]

/-! ### C72 -/

/-- **C72, upper bound.** Without a beam, and if no source exceeds what a black body of intensity `B` would provide at its place, no azimuthally
averaged intensity exceeds `B` and no flux exceeds `π B`. -/
theorem C72_upper_bound (h : pydisort E J a = .ok R) (hS : Sound E a) (hres : Rescalable a) (hbp : Azimuthless a.bpos) (hbn : Azimuthless a.bneg)
    {rho : ℕ → ℝ → ℝ → ℝ} (hrho : SurfaceIs a rho) (hsf : FairSurface a (node E a) (weight E a) (rho 0)) (hk : NonnegScattering a (node E a))
    {B : ℝ} (hB : 0 ≤ B) (hq : BelowBlackbody a (node E a) (weight E a) (rho 0) B) {F : Fields} (hF : Evaluates a R F) : ∀ t, 0 ≤ t → t ≤ bottom a →
      (∀ i < 2 * nHalf a, F.u0 t i ≤ B) ∧ F.up t ≤ Real.pi * B ∧ F.diffuse t ≤ Real.pi * B ∧ F.direct t = 0 := by
  intro t h0 h1
  obtain ⟨U, hU, _⟩ := C02_modes_solve_transfer_equation h hS hres
  have hacc := (pydisort_ok h).1
  have hle := solution_le hacc hS.gauss hS.peak hk hsf hB hq
    (modes_isSolution h hS hres hbp hbn hrho hU (nFourier_pos h hS)) t h0 h1
  obtain ⟨e1, e2, e3, e4⟩ := evaluates_unique hF (evaluates h hres hU) h0 h1
  have hc := hemiFlux_const hS.gauss (streams_pos hacc) B
  refine ⟨fun i hi => by rw [e1 i hi]; exact hle i hi, ?_, ?_, ?_⟩
  · rw [e2, ← hc]
    exact hemiFlux_mono hS.gauss fun i hi => hle i (by omega)
  · rw [e3, ← hc]
    simp only [fieldsOf, hq.noBeam, zero_mul, sub_self, add_zero]
    exact hemiFlux_mono hS.gauss fun i hi => hle _ (by omega)
  · rw [e4]
    simp only [fieldsOf, hq.noBeam, zero_mul]

/-! ### C70 -/

/-- **C70.** Thermal equilibrium: if the layers, the surroundings above and the surface all emit like bodies of the temperature at which a
black body has intensity `B` (the surface with the emissivity belonging to its BDRF), the intensity is `B` in every direction, at every depth and azimuth,
and both fluxes are `π B`, whatever the layers, phase functions and surface. -/
theorem C70_isothermal (h : pydisort E J a = .ok R) (hw : WellPosed E a) (hres : Rescalable a) {rho : ℕ → ℝ → ℝ → ℝ} (hrho : SurfaceIs a rho)
    {B : ℝ} (hq : Isothermal a (node E a) (weight E a) (rho 0) B) (hn : NoNeglect a) :
    Evaluates a R ⟨fun _ _ => B, fun _ => Real.pi * B, fun _ => Real.pi * B, fun _ => 0, fun _ _ _ => B⟩ := by
  have hacc := hw.accepted
  set V : ℕ → ℝ → ℕ → ℝ := fun m _ _ => if m = 0 then B else 0 with hVd
  have hV : ∀ m < nFourier a, IsSolution a (node E a) (weight E a) (rho m) m (V m) := by
    intro m _
    rcases Nat.eq_zero_or_pos m with rfl | hm
    · exact const_isSolution hacc hw.gauss hw.peak hq hn
    · have hz : V m = fun _ _ => 0 := by rw [hVd]; simp only [hm.ne', if_false]
      rw [hz]
      refine ⟨fun _ _ => continuousOn_const, ?_, fun i _ => (bcVal_mode hw.topBC hm.ne' i).symm, fun i _ => ?_⟩
      · intro l hl t _ _ i hi
        refine ⟨0, hasDerivAt_const _ _, ?_⟩
        unfold rteUser rteRHS
        have : beamSource a m l (stream (nHalf a) (node E a) i) = 0 := by
          unfold beamSource beamX; rw [hq.noBeam]; simp
        rw [this, if_neg hm.ne']; simp
      · rw [bcVal_mode hw.bottomBC hm.ne' i]
        unfold reflected
        rw [hq.noBeam]; simp
  have hU := C66_code_returns_the_solution h hw hres hrho hV
  have hE := evaluates h hres hU
  have hF := nFourier_pos h hw.sound
  have hc := hemiFlux_const hw.gauss (streams_pos hacc) B
  have hnt : R.nt = none := by
    obtain ⟨_, _, _, _, _, _, _, _, _, hno⟩ := pydisort_ok h
    refine hno fun hg => ?_
    have : 0 < a.I0 := hg.2.2.1
    rw [hq.noBeam] at this
    exact lt_irrefl _ this
  have e : fieldsOf E a R V = ⟨fun _ _ => B, fun _ => Real.pi * B, fun _ => Real.pi * B, fun _ => 0, fun _ _ _ => B⟩ := by
    unfold fieldsOf
    simp only [Fields.mk.injEq]
    refine ⟨rfl, ?_, ?_, ?_, ?_⟩
    · funext t; exact hc
    · funext t
      rw [hq.noBeam]
      simp only [zero_mul, sub_self, add_zero]
      exact hc
    · funext t; rw [hq.noBeam]; simp
    · funext t ph i
      unfold ntVal
      rw [hnt]
      simp only [add_zero, hVd]
      rw [sum_eq_single_of_mem 0 (mem_range.2 hF) (fun m _ hm => by rw [if_neg hm, zero_mul])]
      simp
  rw [← e]; exact hE

/-! ### The hypotheses are met -/

/-- `demo` with a phase function that becomes `1 + 3/4 cos` after delta-M scaling. -/
noncomputable def demoMild (n : ℕ) (x : ℝ) : Args :=
  { demo n x with leg := ⟨2, 2 * n, fun _ k => if k = 0 then 1 else if k = 1 then 11 / 32 else 1 / 8⟩ }

section
variable {n : ℕ}

theorem demoMild_accepted (hn : 0 < n) {x : ℝ} (h0 : 0 < x) (h1 : x ≤ 1) : Accepted (demoMild n x) :=
  { demo_accepted hn h0 h1 with
    legRows := rfl
    legCols := by simp only [demoMild, demo, Option.getD_some]; push_cast; omega
    legVal := by
      intro l _ k _ hk
      simp only [demoMild]
      rw [if_neg (by omega)]
      split_ifs <;> norm_num }

theorem demoMild_legStar (x : ℝ) {l : ℕ} (hl : l < (demoMild n x).tauArr.n) (k : ℕ) :
    legStar (demoMild n x) l k = if k = 0 then 1 else if k = 1 then 1 / 4 else 0 := by
  unfold legStar leg
  rw [show peak (demoMild n x) l = 1 / 8 from demo_peak (n := n) (x := x) hl]
  simp only [demoMild]
  split_ifs <;> norm_num

theorem legendreP_one : legendreP 1 = Polynomial.X := by
  unfold legendreP
  simp
  rw [← mul_assoc, show (1 + 1 : Polynomial ℝ) = Polynomial.C 2 by rw [map_ofNat]; norm_num, ← Polynomial.C_mul]
  norm_num

theorem demoMild_moment (x : ℝ) {l : ℕ} (hl : l < (demoMild n x).tauArr.n) {y z : ℝ} (hy : |y| ≤ 1) (hz : |z| ≤ 1) :
    0 ≤ phaseMoment (nLeg (demoMild n x)) (legStar (demoMild n x) l) 0 y z := by
  unfold phaseMoment
  rw [← range_eq_Ico, show nLeg (demoMild n x) = n by simp [nLeg, demoMild, demo]]
  have e0 : ∀ v, assocLegendre 0 0 v = 1 := fun v => by simp [assocLegendre, legendreP_zero]
  have e1 : ∀ v, assocLegendre 0 1 v = v := fun v => by simp [assocLegendre, legendreP_one]
  have hyz : -1 ≤ y * z := by
    have : |y * z| ≤ 1 := by rw [abs_mul]; exact mul_le_one₀ hy (abs_nonneg _) hz
    exact (abs_le.1 this).1
  rcases n with _ | _ | k
  · simp
  · simp [demoMild_legStar x hl, e0]
  · rw [sum_range_succ', sum_range_succ', sum_eq_zero]
    · simp only [demoMild_legStar x hl, e0, zero_add, e1]
      norm_num
      linarith
    · intro j _
      rw [demoMild_legStar x hl, if_neg (by omega), if_neg (by omega)]
      ring

theorem demoMild_omega (x : ℝ) {l : ℕ} (hl : l < (demoMild n x).tauArr.n) : 0 ≤ omegaStar (demoMild n x) l := by
  unfold omegaStar scale
  rw [show peak (demoMild n x) l = 1 / 8 from demo_peak (n := n) (x := x) hl]
  simp only [demoMild, demo]
  split_ifs <;> norm_num

theorem stream_abs_le {E : Ext} {a : Args} (hg : GaussContract E (nHalf a)) {i : ℕ} (hi : i < 2 * nHalf a) :
    |stream (nHalf a) (node E a) i| ≤ 1 := by
  unfold stream
  split_ifs with h
  · have := node_pos hg h
    rw [abs_of_pos this.1]; exact this.2.le
  · have := node_pos hg (i := i - nHalf a) (by omega)
    rw [abs_neg, abs_of_pos this.1]; exact this.2.le

theorem demoMild_scattering (hn : 0 < n) (x : ℝ) : NonnegScattering (demoMild n x) (node refExt (demoMild n x)) := by
  have hg : GaussContract refExt (nHalf (demoMild n x)) := by
    rw [show nHalf (demoMild n x) = n from demo_nHalf x]; exact refExt_gauss hn
  intro l hl i hi j hj
  unfold kernel
  split_ifs
  · exact mul_nonneg (by have := demoMild_omega x hl; positivity) (demoMild_moment x hl (stream_abs_le hg hi) (stream_abs_le hg hj))
  · exact le_rfl

theorem demoMild_surface (hn : 0 < n) {x : ℝ} : FairSurface (demoMild n x) (node refExt (demoMild n x)) (weight refExt (demoMild n x)) (fun _ _ => 1 / 3) := by
  have hh : nHalf (demoMild n x) = n := demo_nHalf x
  have hg : GaussContract refExt (nHalf (demoMild n x)) := by rw [hh]; exact refExt_gauss hn
  refine ⟨fun _ _ _ _ => by norm_num, fun _ _ => by norm_num, fun i hi => ?_⟩
  unfold reflectance
  rw [if_pos (by simp [demoMild, demo]), ← sum_mul, sum_weight_node hg (by rw [hh]; exact hn)]
  norm_num

theorem demoMild_sources (hn : 0 < n) {x : ℝ} (h0 : 0 < x) (h1 : x ≤ 1) : NonnegSources (demoMild n x) (node refExt (demoMild n x)) := by
  have hg : GaussContract refExt (nHalf (demoMild n x)) := by
    rw [show nHalf (demoMild n x) = n from demo_nHalf x]; exact refExt_gauss hn
  have hacc := demoMild_accepted hn h0 h1
  refine ⟨fun l hl i hi => ?_, fun l hl t ht => ?_, fun i hi => ?_, fun i hi => ?_⟩
  · unfold beamSource
    split_ifs
    · have h2 := demoMild_omega x hl
      have h3 : |(-(demoMild n x).mu0)| ≤ 1 := by
        rw [abs_neg]; change |x| ≤ 1; rw [abs_of_pos h0]; exact h1
      unfold beamX
      refine mul_nonneg ?_ (demoMild_moment x hl (stream_abs_le hg hi) h3)
      rw [if_pos rfl]
      change 0 ≤ omegaStar (demoMild n x) l * 1 * (2 - 1) / (4 * Real.pi)
      have := Real.pi_pos
      exact div_nonneg (by linarith) (by positivity)
    · exact le_rfl
  · have h2 : 0 ≤ t := by
      have := bdry_le hacc (Nat.zero_le l) hl.le
      rw [bdry_zero] at this
      exact this.trans ht.1
    unfold source
    split_ifs
    · exact sum_nonneg fun k _ => mul_nonneg zero_le_one (pow_nonneg h2 k)
    · exact le_rfl
  · simp only [demoMild, demo, bcVal, if_true]
    split_ifs <;> norm_num
  · simp only [demoMild, demo, bcVal, if_true]
    norm_num

theorem demoMild_wellPosed (hn : 0 < n) : ∃ x, 0 < x ∧ x ≤ 1 ∧ WellPosed refExt (demoMild n x) := by
  obtain ⟨x, h0, h1, hb⟩ := exists_beamRegular (demoMild n 1) (node refExt (demoMild n 1)) (weight refExt (demoMild n 1))
  have hh : nHalf (demoMild n x) = n := demo_nHalf x
  refine ⟨x, h0, h1, wellPosed_of (demoMild_accepted hn h0 h1) (by rw [hh]; exact hn) ?_ ?_ hb (Or.inr ⟨1 / 3, by norm_num, rfl⟩) trivial trivial (Or.inr rfl) rfl⟩
  · intro l hl
    rw [show peak (demoMild n x) l = 1 / 8 from demo_peak (n := n) (x := x) hl]; norm_num
  · rw [hh]; simp [nLeg, demoMild, demo]

/-- The hypotheses of `C71_nonneg` are met, with a beam, internal sources and a reflecting surface, for every number of streams. -/
example (hn : 0 < n) (J : Junk) : ∃ (x : ℝ) (R : Solved) (F : Fields), pydisort refExt J (demoMild n x) = .ok R ∧ Sound refExt (demoMild n x)
    ∧ Rescalable (demoMild n x) ∧ Azimuthless (demoMild n x).bpos ∧ Azimuthless (demoMild n x).bneg ∧ SurfaceIs (demoMild n x) (fun _ _ _ => 1 / 3)
    ∧ FairSurface (demoMild n x) (node refExt (demoMild n x)) (weight refExt (demoMild n x)) (fun _ _ => 1 / 3)
    ∧ NonnegScattering (demoMild n x) (node refExt (demoMild n x)) ∧ NonnegSources (demoMild n x) (node refExt (demoMild n x))
    ∧ Evaluates (demoMild n x) R F := by
  obtain ⟨x, h0, h1, hw⟩ := demoMild_wellPosed hn
  obtain ⟨R, hR⟩ := pydisort_isOk hw J
  have hres : Rescalable (demoMild n x) := Or.inl (Or.inl one_pos)
  obtain ⟨F, hF⟩ := evaluates_exists hR hw.sound hres
  exact ⟨x, R, F, hR, hw.sound, hres, trivial, trivial, fun m _ => demo_rho (n := n) x m, demoMild_surface hn, demoMild_scattering hn x,
    demoMild_sources hn h0 h1, hF⟩

/-- The hypotheses of `C71_monotone` are met: with and without the beam. -/
example (hn : 0 < n) (J : Junk) : ∃ (x : ℝ) (S₁ S₂ : Sources) (R₁ R₂ : Solved) (F₁ F₂ : Fields),
    pydisort refExt J (under (demoMild n x) S₁) = .ok R₁ ∧ pydisort refExt J (under (demoMild n x) S₂) = .ok R₂
    ∧ (∀ S, S = S₁ ∨ S = S₂ → Sound refExt (under (demoMild n x) S) ∧ Rescalable (under (demoMild n x) S) ∧ Azimuthless S.bpos ∧ Azimuthless S.bneg)
    ∧ (0 < S₂.I0 → ∀ l < (demoMild n x).tauArr.n, ∀ i < 2 * nHalf (demoMild n x), 0 ≤ beamSource (under (demoMild n x) S₂) 0 l
        (stream (nHalf (demoMild n x)) (node refExt (demoMild n x)) i))
    ∧ Dimmer (demoMild n x) S₁ S₂ ∧ S₁.I0 < S₂.I0 ∧ Evaluates (under (demoMild n x) S₁) R₁ F₁ ∧ Evaluates (under (demoMild n x) S₂) R₂ F₂ := by
  obtain ⟨x, h0, h1, hw⟩ := demoMild_wellPosed hn
  have hh : nHalf (demoMild n x) = n := demo_nHalf x
  set S₁ : Sources := ⟨0, .scalar 1, .vec ⟨n, fun _ => 1⟩, ⟨2, 2, fun _ _ => 1⟩⟩ with hS₁
  set S₂ : Sources := ⟨1, .scalar 1, .vec ⟨n, fun _ => 1⟩, ⟨2, 2, fun _ _ => 1⟩⟩ with hS₂
  have w₁ : WellPosed refExt (under (demoMild n x) S₁) :=
    wellPosed_under hw le_rfl (fun h => absurd h (lt_irrefl _)) trivial (Or.inr (Or.inr hh.symm)) trivial trivial rfl
  have w₂ : WellPosed refExt (under (demoMild n x) S₂) :=
    wellPosed_under hw zero_le_one (fun _ => one_pos) trivial (Or.inr (Or.inr hh.symm)) trivial trivial rfl
  have r₁ : Rescalable (under (demoMild n x) S₁) := Or.inl (Or.inr (Or.inl one_pos))
  have r₂ : Rescalable (under (demoMild n x) S₂) := Or.inl (Or.inl one_pos)
  obtain ⟨R₁, e₁⟩ := pydisort_isOk w₁ J
  obtain ⟨R₂, e₂⟩ := pydisort_isOk w₂ J
  obtain ⟨F₁, f₁⟩ := evaluates_exists e₁ w₁.sound r₁
  obtain ⟨F₂, f₂⟩ := evaluates_exists e₂ w₂.sound r₂
  refine ⟨x, S₁, S₂, R₁, R₂, F₁, F₂, e₁, e₂, ?_, fun _ => (demoMild_sources hn h0 h1).beam,
    ⟨zero_le_one, fun _ _ _ _ => le_rfl, fun _ _ => le_rfl, fun _ _ => le_rfl⟩, one_pos, f₁, f₂⟩
  rintro S (rfl | rfl)
  · exact ⟨w₁.sound, r₁, trivial, trivial⟩
  · exact ⟨w₂.sound, r₂, trivial, trivial⟩

/-- `demoMild` in thermal equilibrium at intensity `B`, with a surface of reflectance `1/3`. -/
noncomputable def demoWarm (n : ℕ) (B : ℝ) : Args :=
  { demoMild n 1 with I0 := 0, bpos := .scalar (2 / 3 * B), bneg := .scalar B, s := ⟨2, 1, fun _ _ => B⟩ }

theorem demoWarm_wellPosed (hn : 0 < n) (B : ℝ) : WellPosed refExt (demoWarm n B) := by
  have hh : nHalf (demoWarm n B) = n := demo_nHalf 1
  have hacc : Accepted (demoWarm n B) :=
    { demoMild_accepted (n := n) hn one_pos le_rfl with
      beam := le_rfl
      beamDir := fun h => absurd h (lt_irrefl _)
      bottom := trivial
      topBC := trivial
      sourceRows := Or.inr rfl }
  refine wellPosed_of hacc (by rw [hh]; exact hn) ?_ ?_ (beamRegular_dark rfl _ _) (Or.inr ⟨1 / 3, by norm_num, rfl⟩) trivial trivial (Or.inr rfl) rfl
  · intro l hl
    rw [show peak (demoWarm n B) l = 1 / 8 from demo_peak (n := n) (x := 1) hl]; norm_num
  · rw [hh]; simp [nLeg, demoWarm, demoMild, demo]

theorem demoWarm_isothermal (hn : 0 < n) (B : ℝ) :
    Isothermal (demoWarm n B) (node refExt (demoWarm n B)) (weight refExt (demoWarm n B)) (fun _ _ => 1 / 3) B := by
  have hh : nHalf (demoWarm n B) = n := demo_nHalf 1
  have hg : GaussContract refExt (nHalf (demoWarm n B)) := by rw [hh]; exact refExt_gauss hn
  refine ⟨rfl, fun l hl t _ => ?_, fun i _ => by simp [demoWarm, bcVal], fun i _ => ?_⟩
  · unfold source
    rw [if_pos (show l < (demoWarm n B).s.r from hl)]
    simp [demoWarm]
  · unfold reflectance
    rw [if_pos (by simp [demoWarm, demoMild, demo]), ← sum_mul, sum_weight_node hg (by rw [hh]; exact hn)]
    simp only [demoWarm, bcVal, if_true]
    ring

theorem demoWarm_noNeglect (hn : 0 < n) (B : ℝ) : NoNeglect (demoWarm n B) := by
  refine fun l hl => Or.inr ⟨0, le_rfl, ?_, ?_⟩
  · simpa [nLeg, demoWarm, demoMild, demo] using hn
  · have h1 : legStar (demoWarm n B) l 0 = 1 := by
      have := demoMild_legStar (n := n) 1 hl 0
      rwa [if_pos rfl] at this
    rw [h1]
    unfold omegaStar scale
    rw [show peak (demoWarm n B) l = 1 / 8 from demo_peak (n := n) (x := 1) hl]
    simp only [demoWarm, demoMild, demo]
    split_ifs <;> norm_num

/-- The hypotheses of `C70_isothermal` and of `C72_upper_bound` are met, for every number of streams and every intensity. -/
example (hn : 0 < n) {B : ℝ} (hB : 0 < B) (J : Junk) : ∃ R, pydisort refExt J (demoWarm n B) = .ok R ∧ WellPosed refExt (demoWarm n B)
    ∧ Rescalable (demoWarm n B) ∧ SurfaceIs (demoWarm n B) (fun _ _ _ => 1 / 3) ∧ NoNeglect (demoWarm n B)
    ∧ Isothermal (demoWarm n B) (node refExt (demoWarm n B)) (weight refExt (demoWarm n B)) (fun _ _ => 1 / 3) B
    ∧ BelowBlackbody (demoWarm n B) (node refExt (demoWarm n B)) (weight refExt (demoWarm n B)) (fun _ _ => 1 / 3) B
    ∧ FairSurface (demoWarm n B) (node refExt (demoWarm n B)) (weight refExt (demoWarm n B)) (fun _ _ => 1 / 3)
    ∧ NonnegScattering (demoWarm n B) (node refExt (demoWarm n B)) := by
  have hw := demoWarm_wellPosed hn B
  obtain ⟨R, hR⟩ := pydisort_isOk hw J
  have hi := demoWarm_isothermal hn B
  exact ⟨R, hR, hw, Or.inl (Or.inr (Or.inr (Or.inl hB))), fun m _ => demo_rho (n := n) 1 m, demoWarm_noNeglect hn B, hi,
    ⟨hi.noBeam, fun l hl t ht => (hi.inner l hl t ht).le, fun i h => (hi.top i h).le, fun i h => (hi.bottom i h).le⟩,
    ⟨(demoMild_surface (x := 1) hn).nonneg, (demoMild_surface (x := 1) hn).beam, (demoMild_surface (x := 1) hn).bounded⟩, demoMild_scattering hn 1⟩

end

end Pydisort

import Verif.WholeOrder
import Verif.Spec.Order
import Verif.Props.AzMean

/-!
# C123: the exact intensity is ordered like its sources, and negative results disappear as the resolution grows
-/

namespace Pydisort
open Finset Spec MeasureTheory

section
variable {a b : Args} {g : ℕ → ℕ → ℝ} {rho : ℕ → ℝ → ℝ → ℝ} {up down up' down' : ℝ → ℝ} {w w' : ℝ → ℝ → ℝ → ℝ} {M M' : ℝ}

theorem NiceSky.sub {c : ℝ} (h : NiceSky c M w) (h' : NiceSky c M' w') : NiceSky c (M + M') (fun t y p => w t y p - w' t y p) :=
  ⟨fun t ht y hy p => (abs_sub _ _).trans (add_le_add (h.bdd t ht y hy p) (h'.bdd t ht y hy p)), h.cont.sub h'.cont⟩

theorem niceSky_const (c B : ℝ) : NiceSky c |B| (fun _ _ _ => B) := ⟨fun _ _ _ _ _ => le_rfl, continuousOn_const⟩

theorem beam_pos (hacc : Accepted a) {l : ℕ} (hl : l < a.tauArr.n) (hpos : NonnegWhole a g) {I y ph t : ℝ} (h0 : a.I0 ≤ 0 → I = 0) (hI : 0 ≤ I) (hy : y ∈ Set.Icc (-1 : ℝ) 1) :
    0 ≤ a.omega.get l * I / (4 * Real.pi) * wholePhase (g l) (cosAngle y ph (-a.mu0) a.phi0) * Real.exp (-t / a.mu0) := by
  have hpi := Real.pi_pos
  rcases le_or_gt a.I0 0 with h | h
  · rw [h0 h]; simp
  · have hb := (hacc.beamDir h).1
    have hm : -a.mu0 ∈ Set.Icc (-1 : ℝ) 1 := ⟨by linarith, by linarith⟩
    have := hpos l hl _ (cosAngle_mem hy hm ph a.phi0)
    have ho := (hacc.omega l hl).1
    positivity

theorem mirror_pos (hacc : Accepted a) (hr : AbsorbingBDRF a rho) {I y ph : ℝ} (h0 : a.I0 ≤ 0 → I = 0) (hI : 0 ≤ I) (hy : y ∈ Set.Ioc (0 : ℝ) 1) :
    0 ≤ a.mu0 * I / Real.pi * bdrfOf a rho y a.mu0 (ph - a.phi0) * Real.exp (-bottom a / a.mu0) := by
  have hpi := Real.pi_pos
  rcases le_or_gt a.I0 0 with h | h
  · rw [h0 h]; simp
  · have hb := (hacc.beamDir h).1
    have h1 : 0 < a.mu0 := by linarith
    have := hr.nonneg y (Set.Ioc_subset_Icc_self hy) a.mu0 ⟨h1.le, by linarith⟩ (ph - a.phi0)
    positivity

/-- **C123.** If no source is negative then the intensity that solves the untruncated transfer equation is nowhere negative. -/
theorem C123_exact_nonneg (hacc : Accepted a) (hg : ∀ l < a.tauArr.n, PhaseSeries (g l)) (hpos : NonnegWhole a g) (hr : AbsorbingBDRF a rho) (hin : NonnegInputs a up down)
    (hw : WholeSolution a g rho up down w) : ∀ t ∈ Set.Icc 0 (bottom a), ∀ y ∈ Set.Icc (-1 : ℝ) 1, y ≠ 0 → ∀ ph, 0 ≤ w t y ph := by
  obtain ⟨M, hM⟩ := WholeSolution.field hw
  refine whole_low hacc hg hpos hr hM ?_ ?_ ?_
  · intro l hl t h0 h1 y hy hy0 ph
    obtain ⟨d, k, e⟩ := hw.ode l hl t h0 h1 y hy hy0 ph
    refine ⟨d, _, k, e.trans (by unfold wholeRHS; exact sub_sub _ _ _), ?_⟩
    have ho := (hacc.omega l hl).2
    exact add_nonneg (beam_pos hacc hl hpos (fun h => le_antisymm h hacc.beam) hacc.beam hy) (mul_nonneg (by linarith) (hin.inner l hl t ⟨h0.le, h1.le⟩))
  · intro y hy ph
    rw [hw.top y hy ph]
    exact hin.top y hy
  · intro y hy ph
    rw [hw.bot y hy ph, wholeReflect_eq]
    have := mirror_pos hacc hr (ph := ph) (fun h => le_antisymm h hacc.beam) hacc.beam hy
    linarith [hin.bottom y hy]

/-- **C123, order.** Stronger sources make the exact intensity larger or leave it as it is, at every depth and in every direction. -/
theorem C123_exact_monotone (hacc : Accepted a) (hacc' : Accepted b) (hg : ∀ l < a.tauArr.n, PhaseSeries (g l)) (hpos : NonnegWhole a g) (hr : AbsorbingBDRF a rho)
    (hd : DimmerWhole a b up down up' down') (hw : WholeSolution a g rho up down w) (hw' : WholeSolution b g rho up' down' w') :
    ∀ t ∈ Set.Icc 0 (bottom a), ∀ y ∈ Set.Icc (-1 : ℝ) 1, y ≠ 0 → ∀ ph, w t y ph ≤ w' t y ph := by
  obtain ⟨M, hM⟩ := WholeSolution.field hw
  obtain ⟨M', hM'⟩ := WholeSolution.field hw'
  have hbb : bottom b = bottom a := by unfold bottom; rw [hd.tau]
  have hb0 := (bottom_pos hacc).le
  have hbm : bottom a ∈ Set.Icc 0 (bottom a) := ⟨hb0, le_rfl⟩
  rw [hbb] at hM'
  have hbd : ∀ y z p, bdrfOf b rho y z p = bdrfOf a rho y z p := fun y z p => by unfold bdrfOf; rw [hd.modes]
  have key := whole_low hacc hg hpos hr (hM'.sub hM) ?_ ?_ ?_
  · intro t ht y hy hy0 ph
    linarith [key t ht y hy hy0 ph]
  · intro l hl t h0 h1 y hy hy0 ph
    have ht := layer_in_range hacc hl h0 h1
    obtain ⟨d, k, e⟩ := hw.ode l hl t h0 h1 y hy hy0 ph
    obtain ⟨d', k', e'⟩ := hw'.ode l (by rw [hd.tau]; exact hl) t (by rw [hd.tau]; exact h0) (by rw [hd.tau]; exact h1) y hy hy0 ph
    refine ⟨d' - d, a.omega.get l * (b.I0 - a.I0) / (4 * Real.pi) * wholePhase (g l) (cosAngle y ph (-b.mu0) b.phi0) * Real.exp (-t / b.mu0)
      + (1 - a.omega.get l) * (source b l t - source a l t), k'.sub k, ?_, ?_⟩
    · rw [mul_sub, e, e', wholeScatter_eq, kint_diff (whole_kernel (hg l hl) (hpos l hl)) (hM'.field ht) (hM.field ht) hy ph]
      unfold wholeRHS
      simp only [wholeScatter_eq]
      rw [hd.omega, hd.angle, hd.sun]
      ring
    · have ho := (hacc.omega l hl).2
      refine add_nonneg ?_ (mul_nonneg (by linarith) (sub_nonneg.2 (hd.inner l hl t ⟨h0.le, h1.le⟩)))
      have := beam_pos hacc' (l := l) (by rw [hd.tau]; exact hl) (g := g) (fun l hl => hpos l (by rw [← hd.tau]; exact hl)) (I := b.I0 - a.I0) (ph := ph) (t := t)
        (fun h => le_antisymm (by linarith [hacc.beam]) (sub_nonneg.2 hd.beam)) (sub_nonneg.2 hd.beam) hy
      rwa [hd.omega] at this
  · intro y hy ph
    rw [hw.top y hy ph, hw'.top y hy ph]
    exact sub_nonneg.2 (hd.top y hy)
  · intro y hy ph
    have e := hw'.bot y hy ph
    rw [hbb, wholeReflect_eq, hbb] at e
    simp only [hbd] at e
    rw [hw.bot y hy ph, e, wholeReflect_eq]
    rw [kint_diff (bdrf_kernel hr) (hM'.field hbm).flip (hM.field hbm).flip (Set.Ioc_subset_Icc_self hy) ph]
    have := mirror_pos hacc' (rho := rho) ⟨fun m hm => hr.cont m (by rw [← hd.modes]; exact hm), fun x hx z hz p => by rw [hbd]; exact hr.nonneg x hx z hz p, by simp only [hbd]; exact hr.absorbs⟩
      (I := b.I0 - a.I0) (ph := ph) (fun h => le_antisymm (by linarith [hacc.beam]) (sub_nonneg.2 hd.beam)) (sub_nonneg.2 hd.beam) hy
    rw [hbb, hbd, hd.angle, hd.sun] at this
    rw [hd.angle, hd.sun]
    have h2 := hd.bottom y hy
    have h3 : a.mu0 * (b.I0 - a.I0) / Real.pi * bdrfOf a rho y a.mu0 (ph - a.phi0) * Real.exp (-bottom a / a.mu0)
      = a.mu0 * b.I0 / Real.pi * bdrfOf a rho y a.mu0 (ph - a.phi0) * Real.exp (-bottom a / a.mu0)
        - a.mu0 * a.I0 / Real.pi * bdrfOf a rho y a.mu0 (ph - a.phi0) * Real.exp (-bottom a / a.mu0) := by ring
    rw [h3] at this
    linarith

theorem const_scatter {l : ℕ} (hg : PhaseSeries (g l)) (B : ℝ) {y : ℝ} (hy : y ∈ Set.Icc (-1 : ℝ) 1) (ph : ℝ) : wholeScatter (g l) (fun _ _ => B) y ph = 4 * Real.pi * B := by
  unfold wholeScatter
  simp only [intervalIntegral.integral_mul_const]
  rw [whole_mass hg hy ph]

theorem const_reflect (B y ph : ℝ) : 1 / Real.pi * kint 0 1 (fun y ph z ph' => z * bdrfOf a rho y z (ph - ph')) (fun _ _ => B) y ph = reflectsWhole a rho y * B := by
  unfold kint reflectsWhole
  simp only [intervalIntegral.integral_mul_const, intervalIntegral.integral_const_mul, bdrfOf_integral]
  ring

/-- **C123, upper bound.** Without a beam the exact intensity does not exceed `B` if no source exceeds that of a black body of intensity `B`. -/
theorem C123_below_blackbody (hacc : Accepted a) (hg : ∀ l < a.tauArr.n, PhaseSeries (g l)) (hpos : NonnegWhole a g) (hr : AbsorbingBDRF a rho) {B : ℝ}
    (hin : BelowBlack a rho up down B) (hw : WholeSolution a g rho up down w) :
    ∀ t ∈ Set.Icc 0 (bottom a), ∀ y ∈ Set.Icc (-1 : ℝ) 1, y ≠ 0 → ∀ ph, w t y ph ≤ B := by
  have hpi := Real.pi_ne_zero
  obtain ⟨M, hM⟩ := WholeSolution.field hw
  have hb0 := (bottom_pos hacc).le
  have hbm : bottom a ∈ Set.Icc 0 (bottom a) := ⟨hb0, le_rfl⟩
  have hB := niceSky_const (bottom a) B
  have key := whole_low hacc hg hpos hr (hB.sub hM) ?_ ?_ ?_
  · intro t ht y hy hy0 ph
    linarith [key t ht y hy hy0 ph]
  · intro l hl t h0 h1 y hy hy0 ph
    have ht := layer_in_range hacc hl h0 h1
    obtain ⟨d, k, e⟩ := hw.ode l hl t h0 h1 y hy hy0 ph
    refine ⟨-d, (1 - a.omega.get l) * (B - source a l t), k.const_sub B, ?_, ?_⟩
    · rw [mul_neg, e, wholeScatter_eq, kint_diff (whole_kernel (hg l hl) (hpos l hl)) (hB.field ht) (hM.field ht) hy ph, ← wholeScatter_eq, ← wholeScatter_eq, const_scatter (hg l hl) B hy]
      unfold wholeRHS
      rw [hin.noBeam]
      field_simp
      ring
    · have ho := (hacc.omega l hl).2
      exact mul_nonneg (by linarith) (sub_nonneg.2 (hin.inner l hl t ⟨h0.le, h1.le⟩))
  · intro y hy ph
    rw [hw.top y hy ph]
    exact sub_nonneg.2 (hin.top y hy)
  · intro y hy ph
    rw [hw.bot y hy ph, wholeReflect_eq]
    rw [kint_diff (bdrf_kernel hr) (hB.field hbm).flip (hM.field hbm).flip (Set.Ioc_subset_Icc_self hy) ph, mul_sub, const_reflect, hin.noBeam]
    have := hin.bottom y hy
    simp only [mul_zero, zero_div, zero_mul]
    linarith

/-- **C123, lower bound.** The exact intensity does not fall below `B` if no source falls below that of a black body of intensity `B`. -/
theorem C123_above_blackbody (hacc : Accepted a) (hg : ∀ l < a.tauArr.n, PhaseSeries (g l)) (hpos : NonnegWhole a g) (hr : AbsorbingBDRF a rho) {B : ℝ}
    (hin : AboveBlack a rho up down B) (hw : WholeSolution a g rho up down w) :
    ∀ t ∈ Set.Icc 0 (bottom a), ∀ y ∈ Set.Icc (-1 : ℝ) 1, y ≠ 0 → ∀ ph, B ≤ w t y ph := by
  have hpi := Real.pi_ne_zero
  obtain ⟨M, hM⟩ := WholeSolution.field hw
  have hb0 := (bottom_pos hacc).le
  have hbm : bottom a ∈ Set.Icc 0 (bottom a) := ⟨hb0, le_rfl⟩
  have hB := niceSky_const (bottom a) B
  have key := whole_low hacc hg hpos hr (hM.sub hB) ?_ ?_ ?_
  · intro t ht y hy hy0 ph
    linarith [key t ht y hy hy0 ph]
  · intro l hl t h0 h1 y hy hy0 ph
    have ht := layer_in_range hacc hl h0 h1
    obtain ⟨d, k, e⟩ := hw.ode l hl t h0 h1 y hy hy0 ph
    refine ⟨d, a.omega.get l * a.I0 / (4 * Real.pi) * wholePhase (g l) (cosAngle y ph (-a.mu0) a.phi0) * Real.exp (-t / a.mu0)
      + (1 - a.omega.get l) * (source a l t - B), k.sub_const B, ?_, ?_⟩
    · rw [e, wholeScatter_eq, kint_diff (whole_kernel (hg l hl) (hpos l hl)) (hM.field ht) (hB.field ht) hy ph, ← wholeScatter_eq, ← wholeScatter_eq, const_scatter (hg l hl) B hy]
      unfold wholeRHS
      field_simp
      ring
    · have ho := (hacc.omega l hl).2
      exact add_nonneg (beam_pos hacc hl hpos (fun h => le_antisymm h hacc.beam) hacc.beam hy)
        (mul_nonneg (by linarith) (sub_nonneg.2 (hin.inner l hl t ⟨h0.le, h1.le⟩)))
  · intro y hy ph
    rw [hw.top y hy ph]
    exact sub_nonneg.2 (hin.top y hy)
  · intro y hy ph
    rw [hw.bot y hy ph, wholeReflect_eq]
    rw [kint_diff (bdrf_kernel hr) (hM.field hbm).flip (hB.field hbm).flip (Set.Ioc_subset_Icc_self hy) ph, mul_sub, const_reflect]
    have := mirror_pos hacc hr (ph := ph) (fun h => le_antisymm h hacc.beam) hacc.beam hy
    linarith [hin.bottom y hy]

/-- **C123, equilibrium.** If every source is that of a black body of intensity `B` then the exact intensity is `B` everywhere. -/
theorem C123_isothermal (hacc : Accepted a) (hg : ∀ l < a.tauArr.n, PhaseSeries (g l)) (hpos : NonnegWhole a g) (hr : AbsorbingBDRF a rho) {B : ℝ}
    (hin : BelowBlack a rho up down B) (hin' : AboveBlack a rho up down B) (hw : WholeSolution a g rho up down w) :
    ∀ t ∈ Set.Icc 0 (bottom a), ∀ y ∈ Set.Icc (-1 : ℝ) 1, y ≠ 0 → ∀ ph, w t y ph = B := fun t ht y hy hy0 ph =>
  le_antisymm (C123_below_blackbody hacc hg hpos hr hin hw t ht y hy hy0 ph) (C123_above_blackbody hacc hg hpos hr hin' hw t ht y hy hy0 ph)

theorem upEnergy_nonneg (h : ∀ y ∈ Set.Icc (-1 : ℝ) 1, y ≠ 0 → ∀ ph, 0 ≤ w 0 y ph) : 0 ≤ upEnergy (w 0) ∧ 0 ≤ downEnergy (w 0) := by
  have hpi := Real.pi_pos
  constructor
  · refine intervalIntegral.integral_nonneg zero_le_one fun y hy => intervalIntegral.integral_nonneg (by positivity) fun p _ => ?_
    rcases hy.1.eq_or_lt with h0 | h0
    · rw [← h0, zero_mul]
    · exact mul_nonneg hy.1 (h y ⟨by linarith, hy.2⟩ h0.ne' p)
  · refine intervalIntegral.integral_nonneg zero_le_one fun y hy => intervalIntegral.integral_nonneg (by positivity) fun p _ => ?_
    rcases hy.1.eq_or_lt with h0 | h0
    · rw [← h0, zero_mul]
    · exact mul_nonneg hy.1 (h (-y) ⟨by linarith [hy.2], by linarith⟩ (by linarith [h0] |> fun h : -y < 0 => h.ne) p)

/-- **C123, negative fluxes disappear.** Truncated phase functions can be negative although the whole ones are not, and then C71 does not apply. With enough coefficients
the returned fluxes and averages are nevertheless at least `-ε`. -/
theorem C123_fluxes_nearly_nonneg (hacc : Accepted a) (hvis : VisibleScattering a) (hgs : ∀ l < a.tauArr.n, PhaseSeries (g l)) (hpos : NonnegWhole a g) (hr : AbsorbingBDRF a rho)
    (hin : NonnegInputs a up down) (hup : Tame up) (hdown : Tame down) {ε : ℝ} (hε : 0 < ε) :
    ∃ N₀ : ℕ, ∃ η > 0, ∀ (E : Ext) (b : Args) (J : Junk) (R : Solved) (F : Fields), Truncates a g b → N₀ ≤ nLeg b →
      (∀ l < a.tauArr.n, peak b l ≤ η / (nLeg b : ℝ) ^ 2) → Sampled b (node E b) up down → SurfaceIs b rho → Azimuthless b.bpos → Azimuthless b.bneg →
      Rescalable b → Sound E b → pydisort E J b = .ok R → Evaluates b R F →
      ∀ t, 0 ≤ t → t ≤ bottom a → (∀ i < 2 * nHalf b, -ε ≤ F.u0 t i) ∧ -ε ≤ F.up t ∧ -ε ≤ F.diffuse t := by
  have hpi := Real.pi_pos
  obtain ⟨w, hw⟩ := whole_exists hacc hgs hpos hr hup hdown
  have hn := C123_exact_nonneg hacc hgs hpos hr hin hw
  obtain ⟨N₀, η, hη, key⟩ := C122_fluxes hacc hvis hgs hpos hr hw hε
  refine ⟨N₀, η, hη, fun E b J R F h1 h2 h3 h4 h5 h6 h7 h8 h9 h10 h11 t ht0 ht1 => ?_⟩
  obtain ⟨k1, k2, k3, -⟩ := key E b J R F h1 h2 h3 h4 h5 h6 h7 h8 h9 h10 h11 t ht0 ht1
  have hE := upEnergy_nonneg (w := fun _ => w t) fun y hy hy0 ph => hn t ⟨ht0, ht1⟩ y hy hy0 ph
  refine ⟨fun i hi => ?_, by linarith [(abs_le.1 k2).1, hE.1], by linarith [(abs_le.1 k3).1, hE.2]⟩
  obtain ⟨hy, hy0⟩ := stream_mem (a := b) h9.gauss hi
  have h12 : 0 ≤ azMean w t (stream (nHalf b) (node E b) i) := mul_nonneg (by positivity) (intervalIntegral.integral_nonneg (by positivity) fun p _ => hn t ⟨ht0, ht1⟩ _ hy hy0 p)
  linarith [(abs_le.1 (k1 i hi)).1]

/-- **C123, negative intensities disappear**, up to what the threshold below which scattering is ignored can cause (C119, C120). -/
theorem C123_intensities_nearly_nonneg (hacc : Accepted a) (hgs : ∀ l < a.tauArr.n, PhaseSeries (g l)) (hpos : NonnegWhole a g) (hr : AbsorbingBDRF a rho)
    (hin : NonnegInputs a up down) {κ ν : ℝ} (hκ : AbsorbsAtLeast a rho κ) (hν : NeglectsAtMost a g ν) (hνκ : ν < κ) (hw : WholeSolution a g rho up down w)
    {M : ℝ} (hM : ∀ t ∈ Set.Icc 0 (bottom a), ∀ y ∈ Set.Icc (-1 : ℝ) 1, y ≠ 0 → ∀ ph, |w t y ph| ≤ M) {ε : ℝ} (hε : 0 < ε) :
    ∃ N₀ : ℕ, ∃ η > 0, ∀ (E : Ext) (b : Args) (J : Junk) (R : Solved) (F : Fields), AsksForWhole E a g rho up down b → N₀ ≤ nFourier b →
      (∀ l < a.tauArr.n, peak b l ≤ η / (nLeg b : ℝ) ^ 2) → pydisort E J b = .ok R → Evaluates b R F →
      ∀ t, 0 ≤ t → t ≤ bottom a → ∀ ph, ∀ i < 2 * nHalf b, -(ε + ν * (M + a.I0 / (4 * Real.pi)) / (κ - ν)) ≤ F.u t ph i := by
  have hn := C123_exact_nonneg hacc hgs hpos hr hin hw
  obtain ⟨N₀, η, hη, key⟩ := C119_whole_phase_function hacc hgs hpos hr hκ hν hνκ hw hM hε
  refine ⟨N₀, η, hη, fun E b J R F h1 h2 h3 h4 h5 t ht0 ht1 ph i hi => ?_⟩
  obtain ⟨hy, hy0⟩ := stream_mem (a := b) h1.sound.gauss hi
  linarith [(abs_le.1 (key E b J R F h1 h2 h3 h4 h5 t ht0 ht1 ph i hi)).1, hn t ⟨ht0, ht1⟩ _ hy hy0 ph]

end

/-! ### The hypotheses are met -/

theorem demoGlow_inputs (n : ℕ) (x : ℝ) : NonnegInputs (demoGlow n x) (fun _ => 1) (fun _ => 1) where
  inner := fun l _ t ht => by
    have h0 : 0 ≤ t := by
      refine le_trans ?_ ht.1
      unfold bdry
      simp only [demoGlow, demoHG, demo]
      split_ifs <;> positivity
    unfold source
    simp only [demoGlow, demoHG, demo]
    split_ifs <;> positivity
  top := fun _ _ => zero_le_one
  bottom := fun _ _ => zero_le_one

/-- The hypotheses of `C123_exact_nonneg`, `C123_fluxes_nearly_nonneg` and `C123_intensities_nearly_nonneg` are met, with a beam, by calls with every number of coefficients. -/
example : ∃ (a : Args) (g : ℕ → ℕ → ℝ) (rho : ℕ → ℝ → ℝ → ℝ) (up down : ℝ → ℝ) (w : ℝ → ℝ → ℝ → ℝ), Accepted a ∧ VisibleScattering a ∧ (∀ l < a.tauArr.n, PhaseSeries (g l))
    ∧ NonnegWhole a g ∧ AbsorbingBDRF a rho ∧ NonnegInputs a up down ∧ Tame up ∧ Tame down ∧ AbsorbsAtLeast a rho (1 / 4)
    ∧ NeglectsAtMost a g (1 / 10 ^ 6) ∧ WholeSolution a g rho up down w ∧ (∃ M, ∀ t ∈ Set.Icc 0 (bottom a), ∀ y ∈ Set.Icc (-1 : ℝ) 1, y ≠ 0 → ∀ ph, |w t y ph| ≤ M)
    ∧ 0 < a.I0
    ∧ ∀ m, 0 < m → ∀ J, ∃ b R F, AsksForWhole refExt a g rho up down b ∧ nFourier b = m ∧ nLeg b = m ∧ (∀ l < a.tauArr.n, peak b l = g l (nLeg b))
      ∧ pydisort refExt J b = .ok R ∧ Evaluates b R F := by
  obtain ⟨x, h0, h1, hb⟩ := demoHG_beam
  obtain ⟨w, hw⟩ := (C117_whole_solution_exists (demoGlow_accepted one_pos h0 h1) (fun _ _ => hg_phase) (demoGlow_nonneg x) (demoGlow_absorbs x) tame_one tame_one).1
  refine ⟨demoGlow 1 x, fun _ => hg, fullRho, fun _ => 1, fun _ => 1, w, demoGlow_accepted one_pos h0 h1, demoHG_visible (n := 1) x, fun _ _ => hg_phase, demoGlow_nonneg x,
    demoGlow_absorbs x, demoGlow_inputs 1 x, tame_one, tame_one, demoGlow_absorbsAtLeast x, demoGlow_neglects x, hw, hw.bounded, one_pos, fun m hm J => ?_⟩
  have hW := demoGlow_wellPosed hm h0 h1 (hb m)
  have hr : Rescalable (demoGlow m x) := demo_rescalable x
  obtain ⟨R, e⟩ := pydisort_isOk hW J
  obtain ⟨F, f⟩ := evaluates_exists e hW.sound hr
  refine ⟨demoGlow m x, R, F, ⟨⟨rfl, rfl, rfl, rfl, rfl, Iff.rfl, fun _ _ _ _ _ => rfl⟩, rfl, rfl, rfl, rfl, demoGlow_rho x, ⟨(demoHG_sampled x).1, (demoHG_sampled x).2⟩, trivial, trivial,
    hr, hW.sound⟩, by simp [nFourier, demoGlow, demoHG, demo], demoGlow_nLeg x, fun l hl => ?_, e, f⟩
  rw [demoGlow_peak (n := m) x hl, demoGlow_nLeg]

/-- The hypotheses of `C123_exact_monotone` are met: a second sun and a brighter sky. -/
example : ∃ (a b : Args) (g : ℕ → ℕ → ℝ) (rho : ℕ → ℝ → ℝ → ℝ) (up down up' down' : ℝ → ℝ) (w w' : ℝ → ℝ → ℝ → ℝ), Accepted a ∧ Accepted b ∧ (∀ l < a.tauArr.n, PhaseSeries (g l))
    ∧ NonnegWhole a g ∧ AbsorbingBDRF a rho ∧ DimmerWhole a b up down up' down' ∧ a.I0 < b.I0 ∧ down 1 < down' 1 ∧ WholeSolution a g rho up down w
    ∧ WholeSolution b g rho up' down' w' := by
  have hA := demoGlow_accepted (n := 1) one_pos one_pos le_rfl
  have hB : Accepted { demoGlow 1 1 with I0 := 2 } := { hA with
    beam := by norm_num
    beamDir := fun _ => hA.beamDir one_pos }
  have hr : AbsorbingBDRF { demoGlow 1 1 with I0 := 2 } fullRho := demoGlow_absorbs (n := 1) 1 |> fun h => ⟨h.cont, h.nonneg, h.absorbs⟩
  have ht : Tame fun _ => 3 := ⟨continuousOn_const, 3, fun _ _ => by simp⟩
  obtain ⟨w, hw⟩ := (C117_whole_solution_exists hA (fun _ _ => hg_phase) (demoGlow_nonneg 1) (demoGlow_absorbs 1) tame_one tame_one).1
  obtain ⟨w', hw'⟩ := (C117_whole_solution_exists hB (fun _ _ => hg_phase) (demoGlow_nonneg (n := 1) 1) hr tame_one ht).1
  exact ⟨demoGlow 1 1, { demoGlow 1 1 with I0 := 2 }, fun _ => hg, fullRho, fun _ => 1, fun _ => 1, fun _ => 1, fun _ => 3, w, w', hA, hB, fun _ _ => hg_phase, demoGlow_nonneg 1,
    demoGlow_absorbs 1, ⟨rfl, rfl, rfl, rfl, rfl, by simp [demoGlow, demoHG, demo], fun _ _ _ _ => le_rfl, fun _ _ => by norm_num, fun _ _ => le_rfl⟩,
    by simp [demoGlow, demoHG, demo], by norm_num, hw, hw'⟩

/-- The hypotheses of the bounds by black bodies are met, by an isothermal atmosphere that scatters and a surface that reflects. -/
example : ∃ (a : Args) (g : ℕ → ℕ → ℝ) (rho : ℕ → ℝ → ℝ → ℝ) (up down : ℝ → ℝ) (w : ℝ → ℝ → ℝ → ℝ), Accepted a ∧ (∀ l < a.tauArr.n, PhaseSeries (g l)) ∧ NonnegWhole a g
    ∧ AbsorbingBDRF a rho ∧ BelowBlack a rho up down 1 ∧ AboveBlack a rho up down 1 ∧ WholeSolution a g rho up down w ∧ 0 < a.bdrf.length ∧ 0 < a.omega.get 0 := by
  have hA := demoGlow_accepted (n := 1) one_pos one_pos le_rfl
  set a : Args := { demoGlow 1 1 with I0 := 0, s := ⟨2, 1, fun _ _ => 1⟩ } with ha
  have hB : Accepted a := { hA with
    sourceRows := Or.inr rfl
    beam := le_rfl
    beamDir := fun h => absurd h (lt_irrefl _) }
  have hr : AbsorbingBDRF a fullRho := demoGlow_absorbs (n := 1) 1 |> fun h => ⟨h.cont, h.nonneg, h.absorbs⟩
  have hpi := Real.pi_ne_zero
  have hf : ∀ y, reflectsWhole a fullRho y = 1 / 3 := fun y => by
    unfold reflectsWhole
    simp only [bdrfOf_integral, if_pos (show 0 < a.bdrf.length from Nat.succ_pos _), fullRho, if_true]
    rw [intervalIntegral.integral_mul_const, integral_id]
    field_simp
    norm_num
  have hs : ∀ l < a.tauArr.n, ∀ t, source a l t = 1 := fun l hl t => by
    have hl' : l < a.s.r := hl
    unfold source
    rw [if_pos hl']
    simp [ha]
  have ht : Tame fun _ => 2 / 3 := ⟨continuousOn_const, 2 / 3, fun _ _ => by rw [abs_of_pos] <;> norm_num⟩
  obtain ⟨w, hw⟩ := (C117_whole_solution_exists hB (fun _ _ => hg_phase) (demoGlow_nonneg (n := 1) 1) hr ht tame_one).1
  refine ⟨a, fun _ => hg, fullRho, fun _ => 2 / 3, fun _ => 1, w, hB, fun _ _ => hg_phase, demoGlow_nonneg (n := 1) 1, hr,
    ⟨rfl, fun l hl t _ => (hs l hl t).le, fun _ _ => le_rfl, fun y _ => ?_⟩, ⟨fun l hl t _ => (hs l hl t).ge, fun _ _ => le_rfl, fun y _ => ?_⟩, hw, Nat.succ_pos _, ?_⟩
  · rw [hf]; norm_num
  · rw [hf]; norm_num
  · simp [ha, demoGlow, demoHG, demo]

end Pydisort

import Verif.AzMean
import Verif.Props.Full
import Verif.Props.WholeLimit

/-!
# C122: the returned fluxes are the energies carried by the intensity in all directions
-/

namespace Pydisort
open Finset Spec

section
variable {a : Args} {g : ℕ → ℕ → ℝ} {rho : ℕ → ℝ → ℝ → ℝ} {up down : ℝ → ℝ} {w : ℝ → ℝ → ℝ → ℝ}

/-- **C122.** Averaged over azimuth, the solution of the untruncated transfer equation in all directions solves the untruncated equation for the averaged intensity. -/
theorem C122_azimuthal_mean (hacc : Accepted a) (hg : ∀ l < a.tauArr.n, PhaseSeries (g l)) (hpos : NonnegWhole a g) (hr : AbsorbingBDRF a rho)
    (hw : WholeSolution a g rho up down w) : FullSolution a g (rho 0) up down (azMean w) := azMean_solves hacc hg hpos hr hw

/-- **C122, fluxes.** With more and more coefficients and streams the returned fluxes tend to the energies that the intensity in all directions carries through a horizontal area, and the
returned averages to the averages of that intensity. -/
theorem C122_fluxes (hacc : Accepted a) (hvis : VisibleScattering a) (hgs : ∀ l < a.tauArr.n, PhaseSeries (g l)) (hpos : NonnegWhole a g) (hr : AbsorbingBDRF a rho)
    (hw : WholeSolution a g rho up down w) {ε : ℝ} (hε : 0 < ε) :
    ∃ N₀ : ℕ, ∃ η > 0, ∀ (E : Ext) (b : Args) (J : Junk) (R : Solved) (F : Fields), Truncates a g b → N₀ ≤ nLeg b →
      (∀ l < a.tauArr.n, peak b l ≤ η / (nLeg b : ℝ) ^ 2) → Sampled b (node E b) up down → SurfaceIs b rho → Azimuthless b.bpos → Azimuthless b.bneg →
      Rescalable b → Sound E b → pydisort E J b = .ok R → Evaluates b R F →
      ∀ t, 0 ≤ t → t ≤ bottom a → (∀ i < 2 * nHalf b, |F.u0 t i - azMean w t (stream (nHalf b) (node E b) i)| ≤ ε)
        ∧ |F.up t - upEnergy (w t)| ≤ ε ∧ |F.diffuse t - downEnergy (w t)| ≤ ε ∧ F.direct t = a.I0 * a.mu0 * Real.exp (-t / a.mu0) := by
  have hf := azMean_solves hacc hgs hpos hr hw
  have hm := nonneg_mean hgs hpos
  simp only [← upFlux_azMean, ← downFlux_azMean]
  by_cases hb : 0 < a.bdrf.length
  · obtain ⟨N₀, η, hη, key⟩ := C115_full_phase_function hacc hvis hgs hm (absorbing_mean hr hb) hf hε
    exact ⟨N₀, η, hη, fun E b J R F h1 h2 h3 h4 h5 h6 h7 h8 h9 h10 h11 => key E b J R F rho h1 h2 h3 h4 h5 rfl h6 h7 h8 h9 h10 h11⟩
  · have h0 : AbsorbingSurface (fun _ _ => 0) := ⟨continuousOn_const, fun _ _ _ _ => le_rfl, ⟨1, one_pos, fun _ _ => by simp⟩⟩
    have hf' : FullSolution a g (fun _ _ => 0) up down (azMean w) := ⟨hf.bounded, hf.cont, hf.ode, hf.top, fun y hy => by
      have := hf.bot y hy
      rwa [if_neg hb] at this ⊢⟩
    obtain ⟨N₀, η, hη, key⟩ := C115_full_phase_function hacc hvis hgs hm h0 hf' hε
    refine ⟨N₀, η, hη, fun E b J R F h1 h2 h3 h4 h5 h6 h7 h8 h9 h10 h11 => key E b J R F (fun _ _ _ => 0) h1 h2 h3 h4 ?_ rfl h6 h7 h8 h9 h10 h11⟩
    intro m _ M hM
    have : b.bdrf.length = 0 := Nat.eq_zero_of_not_pos fun h => hb (h1.surface.1 h)
    rw [List.length_eq_zero_iff.1 this] at hM
    simp at hM

end

/-- The hypotheses of C122 are met, with a beam and a surface whose BDRF depends on the azimuth, by calls with every number of coefficients. -/
example : ∃ (a : Args) (g : ℕ → ℕ → ℝ) (rho : ℕ → ℝ → ℝ → ℝ) (up down : ℝ → ℝ) (w : ℝ → ℝ → ℝ → ℝ), Accepted a ∧ VisibleScattering a ∧ (∀ l < a.tauArr.n, PhaseSeries (g l))
    ∧ NonnegWhole a g ∧ AbsorbingBDRF a rho ∧ WholeSolution a g rho up down w ∧ 0 < a.I0 ∧ rho 1 1 1 ≠ 0 ∧ (∀ l k, g l k ≠ 0)
    ∧ (∀ l < a.tauArr.n, Filter.Tendsto (fun k : ℕ => (k : ℝ) ^ 2 * g l k) Filter.atTop (nhds 0))
    ∧ ∀ m, 0 < m → ∀ J, ∃ b R F, Truncates a g b ∧ nLeg b = m ∧ (∀ l < a.tauArr.n, 0 < peak b l ∧ peak b l = g l (nLeg b))
      ∧ Sampled b (node refExt b) up down ∧ SurfaceIs b rho ∧ Azimuthless b.bpos ∧ Azimuthless b.bneg ∧ Rescalable b ∧ Sound refExt b
      ∧ pydisort refExt J b = .ok R ∧ Evaluates b R F := by
  obtain ⟨x, h0, h1, hb⟩ := demoHG_beam
  obtain ⟨w, hw⟩ := (C117_whole_solution_exists (demoGlow_accepted one_pos h0 h1) (fun _ _ => hg_phase) (demoGlow_nonneg x) (demoGlow_absorbs x) tame_one tame_one).1
  refine ⟨demoGlow 1 x, fun _ => hg, fullRho, fun _ => 1, fun _ => 1, w, demoGlow_accepted one_pos h0 h1, demoHG_visible (n := 1) x, fun _ _ => hg_phase, demoGlow_nonneg x,
    demoGlow_absorbs x, hw, one_pos, by simp [fullRho], fun _ k => by unfold hg; positivity, fun _ _ => hg_decay, fun m hm J => ?_⟩
  have hW := demoGlow_wellPosed hm h0 h1 (hb m)
  have hr : Rescalable (demoGlow m x) := demo_rescalable x
  obtain ⟨R, e⟩ := pydisort_isOk hW J
  obtain ⟨F, f⟩ := evaluates_exists e hW.sound hr
  refine ⟨demoGlow m x, R, F, ⟨rfl, rfl, rfl, rfl, rfl, Iff.rfl, fun _ _ _ _ _ => rfl⟩, demoGlow_nLeg x, fun l hl => ?_, ⟨(demoHG_sampled x).1, (demoHG_sampled x).2⟩, demoGlow_rho x,
    trivial, trivial, hr, hW.sound, e, f⟩
  rw [demoGlow_peak (n := m) x hl, demoGlow_nLeg]
  exact ⟨by unfold hg; positivity, rfl⟩

end Pydisort

import Verif.SimilarLemmas
import Verif.Props.Tools

/-!
# C77: delta-M scaling is the same as scaling the optical properties by hand

Specification used: `Spec.preScaled`, `Spec.PreOK`, `Spec.Evaluates`, `Spec.Fields`, `Spec.WellPosed`.
-/

namespace Pydisort
open Finset Spec

variable {E : Ext} {a : Args} {s' : A2 ℝ}

/-- **C77.** A well-posed problem with delta-M scaling and the problem in which the caller gives the scaled optical depths, single-scattering
albedos and Legendre coefficients (with `f_arr = 0`) have the same solution: at corresponding depths the mean intensity, the upward flux, the
total downward flux (diffuse plus direct) and, without NT corrections, the intensity are equal. -/
theorem C77_delta_M_is_scaling_by_hand (hw : WellPosed E a) (hr : Rescalable a) (ho : PreOK a s') (J J' : Junk) :
    ∃ R R' F F', pydisort E J a = .ok R ∧ pydisort E J' (preScaled a s') = .ok R' ∧
      Evaluates a R F ∧ Evaluates (preScaled a s') R' F' ∧
      ∀ l < a.tauArr.n, ∀ t, InLayer a l t →
        F'.u0 (tauStar a l t) = F.u0 t ∧ F'.up (tauStar a l t) = F.up t
        ∧ F'.diffuse (tauStar a l t) + F'.direct (tauStar a l t) = F.diffuse t + F.direct t
        ∧ (a.NTcor = false → F'.u (tauStar a l t) = F.u t) := by
  have hacc := hw.accepted
  have hw' := pre_wellPosed hw ho
  have hr' := pre_rescalable hacc ho hr
  obtain ⟨R, h⟩ := pydisort_isOk hw J
  obtain ⟨R', h'⟩ := pydisort_isOk hw' J'
  obtain ⟨U, hU, _⟩ := C02_modes_solve_transfer_equation h' hw'.sound hr'
  obtain ⟨rho, hrho⟩ := surface_exists hw.surface
  have hU' : IsModes a R (fun m t => U m (tauMap a t)) := C66_code_returns_the_solution h hw hr hrho fun m hm =>
    pre_isSolution hacc hw.peak ho (modes_isSolution h' hw'.sound hr' hw'.bottomBC hw'.topBC hrho hU hm)
  refine ⟨R, R', _, _, h, h', evaluates h hr hU', evaluates h' hr' hU, fun l hl t ht => ?_⟩
  have e := tauMap_eq hacc hl ht
  have h0 : 0 ≤ t := by
    have := bdry_le hacc (Nat.zero_le l) hl.le
    rw [bdry_zero] at this
    exact this.trans ht.1
  have h1 : t ≤ bottom a := by
    have := bdry_le hacc (show l + 1 ≤ a.tauArr.n by omega) le_rfl
    rw [bdry_bottom hacc] at this
    exact ht.2.trans this
  refine ⟨?_, ?_, ?_, fun hnt => ?_⟩
  · funext i
    change U 0 (tauStar a l t) i = U 0 (tauMap a t) i
    rw [e]
  · change hemiFlux a _ _ (fun i => U 0 (tauStar a l t) i) = hemiFlux a _ _ (fun i => U 0 (tauMap a t) i)
    rw [e]; rfl
  · change hemiFlux a (node E a) (weight E a) (fun i => U 0 (tauStar a l t) (nHalf a + i))
        + (a.I0 * a.mu0 * Real.exp (-tauStar (preScaled a s') _ (tauStar a l t) / a.mu0)
          - a.I0 * a.mu0 * Real.exp (-tauStar a l t / a.mu0)) + a.I0 * a.mu0 * Real.exp (-tauStar a l t / a.mu0)
      = hemiFlux a (node E a) (weight E a) (fun i => U 0 (tauMap a t) (nHalf a + i))
        + (a.I0 * a.mu0 * Real.exp (-tauMap a t / a.mu0) - a.I0 * a.mu0 * Real.exp (-t / a.mu0)) + a.I0 * a.mu0 * Real.exp (-t / a.mu0)
    rw [pre_tauStar, e]
    ring
  · funext ph i
    have n1 : R.nt = none := by
      obtain ⟨_, O, r, _, _, _, _, _, _, hn⟩ := pydisort_ok h
      exact hn fun hg => absurd (hg.1.symm.trans hnt) (by simp)
    have n2 : R'.nt = none := by
      obtain ⟨_, O, r, _, _, _, _, _, _, hn⟩ := pydisort_ok h'
      exact hn fun hg => by cases hg.1
    change (∑ m ∈ range (nFourier a), U m (tauStar a l t) i * Real.cos (m * (a.phi0 - ph))) + ntVal R' (tauStar a l t) ph i
      = (∑ m ∈ range (nFourier a), U m (tauMap a t) i * Real.cos (m * (a.phi0 - ph))) + ntVal R t ph i
    unfold ntVal
    rw [n1, n2, e]

/-- The source in terms of the scaled depth exists for every accepted input. -/
theorem exists_scaled_source (h : Accepted a) : ∃ s' : A2 ℝ, s'.r = a.tauArr.n ∧ s'.c ≤ a.s.c ∧
    ∀ l < a.tauArr.n, ∀ t, source (preScaled a s') l (tauStar a l t) = source a l t := by
  rcases h.sourceRows with hs | hs
  · refine ⟨⟨a.tauArr.n, 0, fun _ _ => 0⟩, rfl, Nat.zero_le _, fun l hl t => ?_⟩
    rw [source_zero hs]
    simp [source, preScaled]
  · obtain ⟨D, _, hDr, hDc, hD⟩ := C59_affine ⟨a.tauArr.n, a.s.c, a.s.get⟩ ⟨a.tauArr.n, scale a⟩
      ⟨a.tauArr.n, fun l => bdryStar a l - scale a l * bdry a.tauArr.get l⟩ rfl rfl h.layers (fun l hl => (Args.scale_pos h hl).ne')
    refine ⟨D, hDr, hDc.le, fun l hl t => ?_⟩
    have := hD l hl t
    unfold source
    rw [if_pos (show l < (preScaled a D).s.r by change l < D.r; rw [hDr]; exact hl), if_pos (by rw [hs]; exact hl)]
    unfold polyVal at this
    change ∑ k ∈ range D.c, D.get l k * tauStar a l t ^ k = _
    have hc : D.c = a.s.c := hDc
    rw [hc, ← this]
    refine sum_congr rfl fun k _ => ?_
    unfold tauStar
    simp only
    congr 2; ring

/-- The hypotheses are met, for every number of streams, by `demo`, with forward peak `1/8` in both layers. -/
example {n : ℕ} (hn : 0 < n) : ∃ x s', WellPosed refExt (demo n x) ∧ Rescalable (demo n x) ∧ PreOK (demo n x) s'
    ∧ ∀ l < (demo n x).tauArr.n, peak (demo n x) l = 1 / 8 := by
  obtain ⟨x, hx⟩ := demo_wellPosed hn
  obtain ⟨s', h1, hc, h2⟩ := exists_scaled_source hx.accepted
  refine ⟨x, s', hx, demo_rescalable x, ⟨fun l hl k _ hk => ?_, h1, hc.trans (Nat.le_of_ble_eq_true rfl), h2⟩, fun l hl => demo_peak hl⟩
  unfold legStar
  rw [demo_peak hl]
  have : leg (demo n x) l k = (1 / 2) ^ k := by unfold leg; rw [if_neg (by omega)]; rfl
  rw [this, lt_div_iff₀ (by norm_num)]
  have : (0 : ℝ) < (1 / 2) ^ k := by positivity
  linarith

end Pydisort

import Verif.FlipLemmas
import Verif.Props.Similar

/-!
# C79: turning the atmosphere upside down

Specification used: `Spec.flipped`, `Spec.mirror`, `Spec.Evaluates`, `Spec.Fields`, `Spec.WellPosed`.
-/

namespace Pydisort
open Finset Spec

variable {E : Ext} {a : Args} {s' : A2 ℝ}

/-- **C79.** If a well-posed problem without beam and without reflecting surface is turned upside down (layers reversed, boundary values
exchanged, internal source mirrored), the call returns and the light is mirrored: at height `τ_bottom - t` the mean intensity and the
intensity are those of the original problem at depth `t` in the opposite directions, and the upward and downward fluxes change places. -/
theorem C79_upside_down (hw : WellPosed E a) (hr : Rescalable a) (hI : a.I0 = 0) (hb : a.bdrf = []) (hs : s'.r = a.tauArr.n) (hd : s'.c ≤ 21)
    (hsrc : ∀ l < a.tauArr.n, ∀ t, source (flipped a s') l t = source a (a.tauArr.n - 1 - l) (bottom a - t)) (J J' : Junk) :
    ∃ R R' F F', pydisort E J a = .ok R ∧ pydisort E J' (flipped a s') = .ok R' ∧
      Evaluates a R F ∧ Evaluates (flipped a s') R' F' ∧
      ∀ t, F'.up (bottom a - t) = F.diffuse t ∧ F'.diffuse (bottom a - t) = F.up t ∧ F.direct t = 0 ∧ F'.direct t = 0
        ∧ ∀ i < 2 * nHalf a, F'.u0 (bottom a - t) (mirror (nHalf a) i) = F.u0 t i
          ∧ ∀ ph, F'.u (bottom a - t) ph (mirror (nHalf a) i) = F.u t ph i := by
  have hacc := hw.accepted
  have hw' : WellPosed E (flipped a s') := flip_wellPosed hw hI hb hs hd
  have hr' := flip_rescalable hacc hI hs hsrc hr
  obtain ⟨R, h⟩ := pydisort_isOk hw J
  obtain ⟨R', h'⟩ := pydisort_isOk hw' J'
  obtain ⟨U, hU, _⟩ := C02_modes_solve_transfer_equation h hw.sound hr
  obtain ⟨rho, hrho⟩ := surface_exists hw.surface
  have hU' : IsModes (flipped a s') R' (fun m t i => U m (bottom a - t) (mirror (nHalf a) i)) :=
    C66_code_returns_the_solution h' hw' hr' (rho := rho) (fun m hm M hM => by
        rw [show (flipped a s').bdrf = [] from hb] at hM; simp at hM) fun m hm =>
      flip_isSolution hacc hI hb hsrc (modes_isSolution h hw.sound hr hw.bottomBC hw.topBC hrho hU hm) (rho m)
  have n1 : R.nt = none := by
    obtain ⟨_, O, r, _, _, _, _, _, _, hn⟩ := pydisort_ok h
    exact hn fun hg => absurd hg.2.2.1 (by unfold Args.Beam; rw [hI]; exact lt_irrefl _)
  have n2 : R'.nt = none := by
    obtain ⟨_, O, r, _, _, _, _, _, _, hn⟩ := pydisort_ok h'
    refine hn fun hg => absurd hg.2.2.1 ?_
    unfold Args.Beam
    rw [show (flipped a s').I0 = 0 from hI]
    exact lt_irrefl _
  refine ⟨R, R', _, _, h, h', evaluates h hr hU, evaluates h' hr' hU', fun t => ⟨?_, ?_, ?_, ?_, fun i hi => ⟨?_, fun ph => ?_⟩⟩⟩
  · change hemiFlux a _ _ (fun i => U 0 (bottom a - (bottom a - t)) (mirror (nHalf a) i)) = hemiFlux a _ _ _ + (a.I0 * _ * _ - a.I0 * _ * _)
    rw [hI, sub_sub_cancel]
    simp only [zero_mul, sub_zero, add_zero]
    refine hemiFlux_congr fun i hi => ?_
    have e : mirror (nHalf a) i = nHalf a + i := by unfold mirror; rw [if_pos hi]
    rw [e]
  · change hemiFlux a _ _ (fun i => U 0 (bottom a - (bottom a - t)) (mirror (nHalf a) (nHalf a + i)))
      + (a.I0 * _ * _ - a.I0 * _ * _) = hemiFlux a _ _ _
    rw [hI, sub_sub_cancel]
    simp only [zero_mul, sub_zero, add_zero]
    refine hemiFlux_congr fun i hi => ?_
    have e : mirror (nHalf a) (nHalf a + i) = i := by unfold mirror; rw [if_neg (by omega), Nat.add_sub_cancel_left]
    rw [e]
  · change a.I0 * _ * _ = _
    rw [hI]; ring
  · change a.I0 * _ * _ = _
    rw [hI]; ring
  · change U 0 (bottom a - (bottom a - t)) (mirror (nHalf a) (mirror (nHalf a) i)) = U 0 t i
    rw [sub_sub_cancel, mirror_mirror hi]
  · change (∑ m ∈ range (nFourier a), U m (bottom a - (bottom a - t)) (mirror (nHalf a) (mirror (nHalf a) i))
        * Real.cos (m * (a.phi0 - ph))) + ntVal R' (bottom a - t) ph (mirror (nHalf a) i)
      = (∑ m ∈ range (nFourier a), U m t i * Real.cos (m * (a.phi0 - ph))) + ntVal R t ph i
    unfold ntVal
    rw [n1, n2, sub_sub_cancel, mirror_mirror hi]

/-- The mirrored source exists for every accepted input. -/
theorem exists_mirrored_source (h : Accepted a) : ∃ s' : A2 ℝ, s'.r = a.tauArr.n ∧ s'.c ≤ a.s.c ∧
    ∀ l < a.tauArr.n, ∀ t, source (flipped a s') l t = source a (a.tauArr.n - 1 - l) (bottom a - t) := by
  rcases h.sourceRows with hs | hs
  · refine ⟨⟨a.tauArr.n, 0, fun _ _ => 0⟩, rfl, Nat.zero_le _, fun l hl t => ?_⟩
    rw [source_zero hs]
    simp [source, flipped]
  · obtain ⟨D, _, hDr, hDc, hD⟩ := C59_affine ⟨a.tauArr.n, a.s.c, fun l k => a.s.get (a.tauArr.n - 1 - l) k⟩
      ⟨a.tauArr.n, fun _ => -1⟩ ⟨a.tauArr.n, fun _ => bottom a⟩ rfl rfl h.layers (fun l hl => by norm_num)
    refine ⟨D, hDr, hDc.le, fun l hl t => ?_⟩
    have := hD l hl (bottom a - t)
    unfold source
    rw [if_pos (show l < (flipped a D).s.r by change l < D.r; rw [hDr]; exact hl), if_pos (by rw [hs]; omega)]
    unfold polyVal at this
    change ∑ k ∈ range D.c, D.get l k * t ^ k = _
    have hc : D.c = a.s.c := hDc
    rw [hc, ← this]
    refine sum_congr rfl fun k _ => ?_
    simp only
    congr 2; ring

/-- The hypotheses are met, for every number of streams, by two different scattering layers with a linear internal source and different
boundary values above a black surface. -/
example {n : ℕ} (hn : 0 < n) : ∃ a s', nHalf a = n ∧ WellPosed refExt a ∧ Rescalable a ∧ a.I0 = 0 ∧ a.bdrf = [] ∧ s'.r = a.tauArr.n ∧ s'.c ≤ 21
    ∧ a.omega.get 0 ≠ a.omega.get 1
    ∧ ∀ l < a.tauArr.n, ∀ t, source (flipped a s') l t = source a (a.tauArr.n - 1 - l) (bottom a - t) := by
  have hw := demoDark_wellPosed hn
  have hacc : Accepted { demoDark n with bdrf := [], bpos := .scalar 2 } := { hw.accepted with bottom := trivial }
  obtain ⟨s', h1, hc, h2⟩ := exists_mirrored_source hacc
  refine ⟨{ demoDark n with bdrf := [], bpos := .scalar 2 }, s', demo_nHalf 1, { hw with accepted := hacc, surface := passive_black rfl, bottomBC := trivial }, ?_, rfl, rfl, h1, hc.trans (Nat.le_of_ble_eq_true rfl), ?_, h2⟩
  · exact Or.inl (Or.inr (Or.inl (by norm_num [HasPos])))
  · norm_num [demoDark, demo]

end Pydisort

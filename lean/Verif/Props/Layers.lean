import Verif.SplitLemmas
import Verif.Props.Linear

/-!
# C20: splitting a homogeneous layer

Specification used: `Spec.splitLayer`, `Spec.Evaluates`, `Spec.Fields`, `Spec.WellPosed`.
-/

namespace Pydisort
open Finset Spec

variable {E : Ext} {a : Args} {k : ℕ} {x : ℝ}

/-- **C20.** If a layer of a well-posed problem is cut into two layers with the same optical properties, the call for the finer
atmosphere returns as well, and the mean intensity, the fluxes and (without NT corrections) the intensity are the same functions
of depth. -/
theorem C20_splitting_a_layer (hw : WellPosed E a) (hr : Rescalable a) (hk : k < a.tauArr.n) (hx0 : bdry a.tauArr.get k < x)
    (hx1 : x < bdry a.tauArr.get (k + 1)) (J J' : Junk) :
    ∃ R R' F F', pydisort E J a = .ok R ∧ pydisort E J' (splitLayer a k x) = .ok R' ∧
      Evaluates a R F ∧ Evaluates (splitLayer a k x) R' F' ∧
      ∀ t, 0 ≤ t → t ≤ bottom a → F'.u0 t = F.u0 t ∧ F'.up t = F.up t ∧ F'.diffuse t = F.diffuse t ∧ F'.direct t = F.direct t
        ∧ (a.NTcor = false → F'.u t = F.u t) := by
  have hacc := hw.accepted
  have hw' := split_wellPosed hw hk hx0 hx1
  have hr' : Rescalable (splitLayer a k x) := split_rescalable hacc hk hr
  obtain ⟨R, h⟩ := pydisort_isOk hw J
  obtain ⟨R', h'⟩ := pydisort_isOk hw' J'
  obtain ⟨U, hU, _⟩ := C02_modes_solve_transfer_equation h hw.sound hr
  obtain ⟨rho, hrho⟩ := surface_exists hw.surface
  have hU' : IsModes (splitLayer a k x) R' U := C66_code_returns_the_solution h' hw' hr' hrho fun m hm =>
    split_isSolution hacc hk hx0 hx1 (modes_isSolution h hw.sound hr hw.bottomBC hw.topBC hrho hU hm)
  refine ⟨R, R', _, _, h, h', evaluates h hr hU, evaluates h' hr' hU', fun t ht0 ht1 => ?_⟩
  refine ⟨rfl, rfl, ?_, rfl, fun hnt => ?_⟩
  · have h1 := layOf_spec hacc ht0 ht1
    have h2 := layOf_spec hw'.accepted ht0 (by rw [split_bottom hk]; exact ht1)
    set l' := layOf (splitLayer a k x) t
    have hb := split_layer_le hx0 hx1 (j := l')
    have e : tauStar (splitLayer a k x) l' t = tauStar a (layOf a t) t := by
      rw [split_tauStar hacc hk h2.1]
      exact tauStar_layers hacc (dup_lt hk h2.1) h1.1 ⟨hb.1.trans h2.2.1, h2.2.2.trans hb.2⟩ h1.2
    change hemiFlux a _ _ _ + (a.I0 * a.mu0 * Real.exp (-tauStar (splitLayer a k x) l' t / a.mu0) - _) = _
    rw [e]
    rfl
  · funext ph i
    have n1 : R.nt = none := by
      obtain ⟨_, O, r, _, _, _, _, _, _, hn⟩ := pydisort_ok h
      exact hn fun hg => absurd (hg.1.symm.trans hnt) (by simp)
    have n2 : R'.nt = none := by
      obtain ⟨_, O, r, _, _, _, _, _, _, hn⟩ := pydisort_ok h'
      exact hn fun hg => absurd (hg.1.symm.trans hnt) (by simp)
    change (∑ m ∈ range (nFourier a), U m t i * Real.cos (m * (a.phi0 - ph))) + ntVal R' t ph i
      = (∑ m ∈ range (nFourier a), U m t i * Real.cos (m * (a.phi0 - ph))) + ntVal R t ph i
    unfold ntVal
    rw [n1, n2]

/-- The hypotheses are met, for every number of streams: the second layer of `demo` is cut in the middle. -/
example {n : ℕ} (hn : 0 < n) : ∃ x, WellPosed refExt (demo n x) ∧ Rescalable (demo n x) ∧ 1 < (demo n x).tauArr.n
    ∧ bdry (demo n x).tauArr.get 1 < 3 / 2 ∧ 3 / 2 < bdry (demo n x).tauArr.get (1 + 1) := by
  obtain ⟨x, hx⟩ := demo_wellPosed hn
  exact ⟨x, hx, demo_rescalable x, by simp [demo], by norm_num [bdry, demo], by norm_num [bdry, demo]⟩

end Pydisort

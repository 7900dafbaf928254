import Verif.CutLemmas
import Verif.Props.Similar

/-!
# C81: cutting the atmosphere at an interface

Specification used: `Spec.upperPart`, `Spec.lowerPart`, `Spec.Evaluates`, `Spec.Fields`, `Spec.WellPosed`.
-/

namespace Pydisort
open Finset Spec

variable {E : Ext} {a : Args} {k : ℕ} {s' : A2 ℝ}

/-- **C81.** Cut a well-posed atmosphere at the interface below layer `k`. The layers above, lit from below by the computed upward
intensities at the interface, and the layers below, lit from above by the attenuated beam and the computed downward intensities, are solved
with the same mean intensity and the same fluxes as the whole atmosphere. (With delta-M scaling the split of the downward flux into diffuse
and direct is the same in the upper part only; in the lower part their sum is.) -/
theorem C81_cutting_at_an_interface (hw : WellPosed E a) (hr : Rescalable a) (hk0 : 0 < k) (hk : k < a.tauArr.n)
    (hs : s'.r = a.tauArr.n - k) (hd : s'.c ≤ 21)
    (hsrc : ∀ l < a.tauArr.n - k, ∀ t, ∑ j ∈ range s'.c, s'.get l j * t ^ j = source a (k + l) (t + bdry a.tauArr.get k)) (J J₁ J₂ : Junk) :
    ∃ R F, pydisort E J a = .ok R ∧ Evaluates a R F ∧
      (Rescalable (upperPart a k fun i => F.u0 (bdry a.tauArr.get k) i) →
        ∃ R₁ F₁, pydisort E J₁ (upperPart a k fun i => F.u0 (bdry a.tauArr.get k) i) = .ok R₁ ∧
          Evaluates (upperPart a k fun i => F.u0 (bdry a.tauArr.get k) i) R₁ F₁ ∧
          ∀ t, 0 ≤ t → t ≤ bdry a.tauArr.get k →
            F₁.u0 t = F.u0 t ∧ F₁.up t = F.up t ∧ F₁.diffuse t = F.diffuse t ∧ F₁.direct t = F.direct t) ∧
      (Rescalable (lowerPart a k (fun i => F.u0 (bdry a.tauArr.get k) (nHalf a + i)) s') →
        ∃ R₂ F₂, pydisort E J₂ (lowerPart a k (fun i => F.u0 (bdry a.tauArr.get k) (nHalf a + i)) s') = .ok R₂ ∧
          Evaluates (lowerPart a k (fun i => F.u0 (bdry a.tauArr.get k) (nHalf a + i)) s') R₂ F₂ ∧
          ∀ t, bdry a.tauArr.get k ≤ t → t ≤ bottom a →
            F₂.u0 (t - bdry a.tauArr.get k) = F.u0 t ∧ F₂.up (t - bdry a.tauArr.get k) = F.up t ∧
            F₂.diffuse (t - bdry a.tauArr.get k) + F₂.direct (t - bdry a.tauArr.get k) = F.diffuse t + F.direct t) := by
  have hacc := hw.accepted
  obtain ⟨R, h⟩ := pydisort_isOk hw J
  obtain ⟨U, hU, _⟩ := C02_modes_solve_transfer_equation h hw.sound hr
  obtain ⟨rho, hrho⟩ := surface_exists hw.surface
  have hF := nFourier_pos h hw.sound
  have hsol := modes_isSolution h hw.sound hr hw.bottomBC hw.topBC hrho hU hF
  have hx0 : 0 ≤ bdry a.tauArr.get k := by
    have := bdry_le hacc (Nat.zero_le k) hk.le
    rwa [bdry_zero] at this
  have hxb : bdry a.tauArr.get k ≤ bottom a := by
    have := bdry_le hacc hk.le le_rfl
    rwa [bdry_bottom hacc] at this
  refine ⟨R, fieldsOf E a R U, h, evaluates h hr hU, fun hr₁ => ?_, fun hr₂ => ?_⟩
  · set v : ℕ → ℝ := fun i => (fieldsOf E a R U).u0 (bdry a.tauArr.get k) i with hv
    have hw₁ : WellPosed E (upperPart a k v) := upper_wellPosed hw hk0 hk
    obtain ⟨R₁, h₁⟩ := pydisort_isOk hw₁ J₁
    have hU₁ : IsModes (upperPart a k v) R₁ U := C66_code_returns_the_solution h₁ hw₁ hr₁ (rho := rho)
      (fun m _ M hM => by rw [show (upperPart a k v).bdrf = [] from rfl] at hM; simp at hM) fun m hm => by
        have hm' : m < 1 := hm
        obtain rfl : m = 0 := by omega
        exact upper_isSolution hacc hk0 hk hsol (fun i _ => rfl) _
    refine ⟨R₁, fieldsOf E _ R₁ U, h₁, evaluates h₁ hr₁ hU₁, fun t h0 h1 => ⟨rfl, rfl, ?_, rfl⟩⟩
    have l1 := layOf_spec hacc h0 (h1.trans hxb)
    have l2 := layOf_spec hw₁.accepted h0 (by rw [upper_bottom hk0]; exact h1)
    have l3 : layOf (upperPart a k v) t < k := l2.1
    have e : tauStar (upperPart a k v) (layOf (upperPart a k v) t) t = tauStar a (layOf a t) t := by
      rw [upper_tauStar l3]
      exact tauStar_layers hacc (by omega) l1.1 l2.2 l1.2
    change hemiFlux a _ _ _ + (a.I0 * a.mu0 * Real.exp (-tauStar (upperPart a k v) (layOf (upperPart a k v) t) t / a.mu0) - _) = _
    rw [e]; rfl
  · set v : ℕ → ℝ := fun i => (fieldsOf E a R U).u0 (bdry a.tauArr.get k) (nHalf a + i) with hv
    have hsrc' : ∀ l < a.tauArr.n - k, ∀ t, source (lowerPart a k v s') l t = source a (k + l) (t + bdry a.tauArr.get k) := by
      intro l hl t
      rw [← hsrc l hl t]
      conv_lhs => unfold source
      exact if_pos (show l < s'.r by rw [hs]; exact hl)
    have hw₂ : WellPosed E (lowerPart a k v s') := lower_wellPosed hw hk hs hd
    obtain ⟨R₂, h₂⟩ := pydisort_isOk hw₂ J₂
    have hU₂ : IsModes (lowerPart a k v s') R₂ (fun m t => U m (t + bdry a.tauArr.get k)) :=
      C66_code_returns_the_solution h₂ hw₂ hr₂ (rho := rho)
        (fun m hm M hM => by
          have hm' : m < 1 := hm
          exact hrho m (by omega) M hM) fun m hm => by
          have hm' : m < 1 := hm
          obtain rfl : m = 0 := by omega
          exact lower_isSolution hacc hk hsrc' hsol (fun i _ => rfl)
    refine ⟨R₂, fieldsOf E _ R₂ _, h₂, evaluates h₂ hr₂ hU₂, fun t h0 h1 => ⟨?_, ?_, ?_⟩⟩
    · change (fun i => U 0 (t - bdry a.tauArr.get k + bdry a.tauArr.get k) i) = fun i => U 0 t i
      rw [sub_add_cancel]
    · change hemiFlux a _ _ (fun i => U 0 (t - bdry a.tauArr.get k + bdry a.tauArr.get k) i) = hemiFlux a _ _ (fun i => U 0 t i)
      rw [sub_add_cancel]; rfl
    · have l1 := layOf_spec hacc (hx0.trans h0) h1
      have l2 := layOf_spec hw₂.accepted (sub_nonneg.2 h0) (by rw [lower_bottom hacc hk]; linarith)
      set j := layOf (lowerPart a k v s') (t - bdry a.tauArr.get k) with hj
      have l3 : j < a.tauArr.n - k := l2.1
      have l4 : InLayer a (k + j) t := by
        have := l2.2
        unfold InLayer at this ⊢
        rw [lower_bdry, lower_bdry] at this
        rw [add_assoc]
        exact ⟨by linarith [this.1], by linarith [this.2]⟩
      have e : tauStar (lowerPart a k v s') j (t - bdry a.tauArr.get k) = tauStar a (layOf a t) t - bdryStar a k := by
        rw [lower_tauStar l3, sub_add_cancel]
        rw [tauStar_layers hacc (by omega) l1.1 l4 l1.2]
      change hemiFlux a _ _ (fun i => U 0 (t - bdry a.tauArr.get k + bdry a.tauArr.get k) (nHalf a + i))
          + (a.I0 * Real.exp (-bdryStar a k / a.mu0) * a.mu0 * Real.exp (-tauStar (lowerPart a k v s') j (t - bdry a.tauArr.get k) / a.mu0)
            - a.I0 * Real.exp (-bdryStar a k / a.mu0) * a.mu0 * Real.exp (-(t - bdry a.tauArr.get k) / a.mu0))
          + a.I0 * Real.exp (-bdryStar a k / a.mu0) * a.mu0 * Real.exp (-(t - bdry a.tauArr.get k) / a.mu0)
        = hemiFlux a _ _ (fun i => U 0 t (nHalf a + i))
          + (a.I0 * a.mu0 * Real.exp (-tauStar a (layOf a t) t / a.mu0) - a.I0 * a.mu0 * Real.exp (-t / a.mu0))
          + a.I0 * a.mu0 * Real.exp (-t / a.mu0)
      rw [e, sub_add_cancel]
      have : Real.exp (-tauStar a (layOf a t) t / a.mu0)
          = Real.exp (-bdryStar a k / a.mu0) * Real.exp (-(tauStar a (layOf a t) t - bdryStar a k) / a.mu0) := by
        rw [← Real.exp_add]; congr 1; ring
      rw [this, show node E (lowerPart a k v s') = node E a from rfl, show weight E (lowerPart a k v s') = weight E a from rfl]
      ring

/-- With a beam both parts are rescalable. -/
theorem cut_rescalable (hI : 0 < a.I0) (v w : ℕ → ℝ) : Rescalable (upperPart a k v) ∧ Rescalable (lowerPart a k w s') :=
  ⟨Or.inl (Or.inl hI), Or.inl (Or.inl (mul_pos hI (Real.exp_pos _)))⟩

/-- The hypotheses are met, for every number of streams: `demo` is cut between its two layers. -/
example {n : ℕ} (hn : 0 < n) : ∃ x, ∃ s' : A2 ℝ, WellPosed refExt (demo n x) ∧ Rescalable (demo n x) ∧ 1 < (demo n x).tauArr.n
    ∧ s'.r = (demo n x).tauArr.n - 1 ∧ s'.c ≤ 21
    ∧ (∀ l < (demo n x).tauArr.n - 1, ∀ t, ∑ j ∈ range s'.c, s'.get l j * t ^ j
        = source (demo n x) (1 + l) (t + bdry (demo n x).tauArr.get 1))
    ∧ ∀ v w, Rescalable (upperPart (demo n x) 1 v) ∧ Rescalable (lowerPart (demo n x) 1 w s') := by
  obtain ⟨x, hx⟩ := demo_wellPosed hn
  refine ⟨x, ⟨1, 2, fun _ j => if j = 0 then 2 else 1⟩, hx, demo_rescalable x, by simp [demo], rfl, Nat.le_of_ble_eq_true rfl, fun l hl t => ?_, fun v w =>
    cut_rescalable (by simp [demo]) v w⟩
  have hl' : l < 1 := hl
  obtain rfl : l = 0 := by omega
  simp [source, demo, bdry, sum_range_succ]
  ring

end Pydisort

import Verif.EvalLemmas

/-! Helper lemmas: what the flux functions evaluate to (non-antiderivative). -/

namespace Pydisort
open Finset

namespace AsmIn
variable (I : AsmIn) (S : Sols)

theorem fluxUp_plain {tau : A1 ℝ} (h : I.checkTau tau = .ok ()) :
    Spec.Returns1 (I.fluxUp S tau false) tau.n (fun t => I.rescale
      * ∑ i ∈ range I.N, (2 * Real.pi * (I.mu i * I.W i)) * I.val S 0 (tau.get t) i) := by
  unfold fluxUp
  rw [h]
  obtain ⟨z, h1, h2, h3, h4⟩ := I.addIso_plain S tau 0 I.N
    (x := ⟨I.N, tau.n, fun i t => I.umPlain S 0 i (tau.get t)⟩) rfl rfl (by intro i _ t _; simp)
  simp only [bind, Except.bind, Bool.false_eq_true, if_false, h1]
  refine ⟨_, rfl, h3, fun t ht => ?_⟩
  simp only [A1.map, fluxQuad]
  congr 1
  refine sum_congr rfl fun i hi => ?_
  rw [h4 i (mem_range.1 hi) t ht]; simp only [Nat.zero_add]

/-- Both parts of the downward flux, without and with a beam. -/
theorem fluxDown_plain {tau : A1 ℝ} (h : I.checkTau tau = .ok ()) :
    ∃ F D, I.fluxDown S tau false = .ok (F, D, I.beam) ∧ F.n = tau.n ∧
      (∀ t < tau.n, F.get t = I.rescale * (∑ i ∈ range I.N, (2 * Real.pi * (I.mu i * I.W i)) * I.val S 0 (tau.get t) (I.N + i)
        + if I.beam = true then I.I0 * I.mu0 * Real.exp (-I.scaledTau (tau.get t) / I.mu0)
          - I.I0 * I.mu0 * Real.exp (-tau.get t / I.mu0) else 0)) ∧
      D.n = (if I.beam = true then tau.n else 1) ∧
      ∀ t < D.n, D.get t = I.rescale * (if I.beam = true then I.I0 * I.mu0 * Real.exp (-tau.get t / I.mu0) else 0) := by
  unfold fluxDown
  rw [h]
  obtain ⟨z, h1, h2, h3, h4⟩ := I.addIso_plain S tau I.N I.N
    (x := ⟨I.N, tau.n, fun i t => I.umPlain S 0 (I.N + i) (tau.get t)⟩) rfl rfl (fun i _ t _ => rfl)
  have hq : ∀ t < tau.n, (I.fluxQuad z).get t
      = ∑ i ∈ range I.N, (2 * Real.pi * (I.mu i * I.W i)) * I.val S 0 (tau.get t) (I.N + i) := by
    intro t ht
    simp only [fluxQuad]
    exact sum_congr rfl fun i hi => by rw [h4 i (mem_range.1 hi) t ht]
  simp only [bind, Except.bind, fluxDownRaw, Bool.false_eq_true, if_false, h1]
  by_cases hb : I.beam = true
  · simp only [hb, if_true]
    obtain ⟨d1, e1, e2, e3⟩ := A1.bin_same (fun x y : ℝ => x + y) (x := I.fluxQuad z)
      (y := tau.map (I.directScaled false)) h3
    rw [e1]
    simp only
    obtain ⟨d2, f1, f2, f3⟩ := A1.bin_same (fun x y : ℝ => x - y) (x := d1)
      (y := tau.map (I.direct false)) (by rw [e2]; exact h3)
    rw [f1]
    simp only
    have hn : (I.fluxQuad z).n = tau.n := h3
    refine ⟨_, _, rfl, by simp only [A1.map]; rw [f2, e2, hn], fun t ht => ?_, rfl, fun t _ => ?_⟩
    · simp only [A1.map]
      rw [f3 t (by rw [e2, hn]; exact ht), e3 t (by rw [hn]; exact ht), hq t ht]
      simp only [A1.map, directScaled, direct, Bool.false_eq_true, if_false]
      ring
    · simp only [A1.map, direct, Bool.false_eq_true, if_false]
  · simp only [Bool.not_eq_true] at hb
    simp only [hb, Bool.false_eq_true, if_false]
    refine ⟨_, _, rfl, h3, fun t ht => ?_, rfl, fun t _ => rfl⟩
    simp only [A1.map]
    rw [hq t ht]; ring

end AsmIn

open Spec in
/-- The scaled depth used by the code at a depth of layer `l`. -/
theorem scaledTau_of {E : Ext} {J : Junk} {a : Args} {R : Solved} (h : pydisort E J a = .ok R) {l : ℕ}
    (hl : l < a.tauArr.n) {t : ℝ} (ht : InLayer a l t) : R.I.scaledTau t = tauStar a l t := by
  obtain ⟨hacc, O, r, hO, hr, hI, _⟩ := pydisort_ok h
  have hs := Args.optics_spec hacc hO
  obtain ⟨hd, e1, e2⟩ := depthOK_of h
  rw [AsmIn.scaledTau_eq hd]
  have hsc : ∀ k < a.tauArr.n, R.I.scale k = scale a k := fun k hk => by rw [hI]; exact hs.scale k hk
  have ht0 : ∀ k ≤ a.tauArr.n, R.I.tau0 k = bdryStar a k := fun k hk => by rw [hI]; exact hs.tau0 k hk
  obtain ⟨h1, h2⟩ := ht
  by_cases hlt : bdry a.tauArr.get l < t ∨ l = 0
  · rw [AsmIn.layer_eq hd (l := l) (by omega) (by rw [e1]; exact hlt) (by rw [e1]; exact h2), hsc l hl, ht0 l hl.le, e1]
    rfl
  · push Not at hlt
    obtain ⟨hle, hl0⟩ := hlt
    have he : t = bdry a.tauArr.get l := le_antisymm hle h1
    have hlay : R.I.layer t = l - 1 := by
      refine AsmIn.layer_eq hd (by omega) (Or.inl ?_) ?_
      · have := hd.mono (l - 1) (by omega)
        rw [show l - 1 + 1 = l by omega, e1] at this
        rw [e1, he]; exact this
      · rw [show l - 1 + 1 = l by omega, e1]; exact he.le
    rw [hlay, hsc _ (by omega), ht0 _ (by omega), e1]
    unfold tauStar
    rw [he]
    have := bdryStar_eq a (l - 1)
    rw [show l - 1 + 1 = l by omega] at this
    rw [this]
    unfold tauStar
    ring

end Pydisort

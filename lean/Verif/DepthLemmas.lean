import Verif.Spec.Problem
import Verif.NumPyLemmas

/-! Helper lemmas: layer lookup and the scaled depth. -/

namespace Pydisort
open Finset

theorem argmaxTrue_eq {n : ℕ} {p : ℕ → Prop} {k : ℕ} (hk : k < n) (hp : p k) (hmin : ∀ j < k, ¬ p j) :
    argmaxTrue n p = k := by
  have h : ∃ k, k < n ∧ p k := ⟨k, hk, hp⟩
  unfold argmaxTrue
  rw [dif_pos h]
  classical
  have h1 := Nat.find_spec h
  have h2 : Nat.find h ≤ k := Nat.find_min' h ⟨hk, hp⟩
  by_contra hne
  exact hmin _ (lt_of_le_of_ne h2 hne) h1.2

namespace AsmIn
variable {I : AsmIn}
open Spec (bdry)

/-- Consistency of the depth arrays. -/
structure DepthOK (I : AsmIn) : Prop where
  L : 0 < I.NLayers
  mono : ∀ k < I.NLayers, bdry I.tauArr k < bdry I.tauArr (k + 1)
  tau00 : I.tau0 0 = 0
  step : ∀ k < I.NLayers, I.tau0 (k + 1) = I.tau0 k + I.scale k * (bdry I.tauArr (k + 1) - bdry I.tauArr k)

theorem _root_.Pydisort.Spec.bdry_succ (tau : ℕ → ℝ) (l : ℕ) : bdry tau (l + 1) = tau l := by simp [bdry]

theorem DepthOK.le (h : I.DepthOK) {j k : ℕ} (hjk : j ≤ k) (hk : k ≤ I.NLayers) :
    bdry I.tauArr j ≤ bdry I.tauArr k := by
  induction k, hjk using Nat.le_induction with
  | base => exact le_rfl
  | succ k _ ih => exact (ih (by omega)).trans (h.mono k (by omega)).le

theorem DepthOK.nonneg (h : I.DepthOK) {k : ℕ} (hk : k ≤ I.NLayers) : 0 ≤ bdry I.tauArr k := by
  have := h.le (Nat.zero_le k) hk
  simpa [bdry] using this

theorem layer_eq (h : I.DepthOK) {l : ℕ} (hl : l < I.NLayers) {t : ℝ} (h1 : bdry I.tauArr l < t ∨ l = 0)
    (h2 : t ≤ bdry I.tauArr (l + 1)) : I.layer t = l := by
  refine argmaxTrue_eq hl (by simpa [bdry] using h2) fun j hj => ?_
  rcases h1 with h1 | h1
  · have := h.le (show j + 1 ≤ l by omega) (by omega)
    rw [Spec.bdry_succ] at this
    linarith
  · omega

theorem exists_layer (h : I.DepthOK) {t : ℝ} (h2 : t ≤ I.tauArr (I.NLayers - 1)) :
    ∃ l < I.NLayers, (bdry I.tauArr l < t ∨ l = 0) ∧ t ≤ bdry I.tauArr (l + 1) ∧ I.layer t = l := by
  have hex : ∃ l, l < I.NLayers ∧ t ≤ I.tauArr l := ⟨I.NLayers - 1, by have := h.L; omega, h2⟩
  classical
  obtain ⟨hl, ht⟩ := Nat.find_spec hex
  have hor : bdry I.tauArr (Nat.find hex) < t ∨ Nat.find hex = 0 := by
    by_cases h0 : Nat.find hex = 0
    · exact Or.inr h0
    · left
      have := Nat.find_min hex (m := Nat.find hex - 1) (by omega)
      have h3 : ¬ t ≤ I.tauArr (Nat.find hex - 1) := fun hle => this ⟨by omega, hle⟩
      simp only [bdry, h0, if_false]
      linarith
  refine ⟨Nat.find hex, hl, hor, ?_, ?_⟩
  · rw [Spec.bdry_succ]; exact ht
  · exact layer_eq h hl hor (by rw [Spec.bdry_succ]; exact ht)

theorem layer_lt (h : I.DepthOK) (t : ℝ) : I.layer t < I.NLayers := by
  unfold layer argmaxTrue
  split_ifs with hx
  · classical exact (Nat.find_spec hx).1
  · exact h.L

theorem scaledTau_eq (h : I.DepthOK) (t : ℝ) :
    I.scaledTau t = I.tau0 (I.layer t) + I.scale (I.layer t) * (t - bdry I.tauArr (I.layer t)) := by
  have hl := layer_lt h t
  unfold scaledTau
  split_ifs with hs
  · rw [h.step _ hl, Spec.bdry_succ]; ring
  · push Not at hs
    have : ∀ k ≤ I.NLayers, I.tau0 k = bdry I.tauArr k := by
      intro k hk
      induction k with
      | zero => rw [h.tau00]; simp [bdry]
      | succ k ih => rw [h.step k (by omega), ih (by omega), hs k (by omega)]; ring
    rw [this _ hl.le, hs _ hl]; ring

theorem checkTau_ok {tau : A1 ℝ} (h : ∀ t < tau.n, 0 ≤ tau.get t ∧ tau.get t ≤ I.tauArr (I.NLayers - 1)) :
    I.checkTau tau = .ok () := by
  unfold checkTau
  rw [if_neg]
  rintro (⟨k, hk, h1⟩ | ⟨k, hk, h1⟩)
  · linarith [(h k hk).1]
  · linarith [(h k hk).2]

theorem checkTau_error {tau : A1 ℝ} (h : ¬ ∀ t < tau.n, 0 ≤ tau.get t ∧ tau.get t ≤ I.tauArr (I.NLayers - 1)) :
    I.checkTau tau = .error (.valueError "tau input outside the tau range") := by
  unfold checkTau
  rw [if_pos]
  push Not at h
  obtain ⟨t, ht, h1⟩ := h
  by_cases h0 : 0 ≤ tau.get t
  · exact Or.inr ⟨t, ht, h1 h0⟩
  · exact Or.inl ⟨t, ht, not_le.mp h0⟩

end AsmIn
end Pydisort

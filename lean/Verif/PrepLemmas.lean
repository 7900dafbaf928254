import Verif.Spec.Validation
import Verif.DepthLemmas
import Verif.AffineLemmas

/-! Helper lemmas: validation, delta-M scaling and source rescaling of `pydisort`. -/

namespace Pydisort
open Finset
open Spec (bdry)

theorem runChecks_ok {cs : List (Prop × String)} : runChecks cs = .ok () ↔ ∀ c ∈ cs, c.1 := by
  induction cs with
  | nil => simp [runChecks]
  | cons c cs ih =>
    obtain ⟨p, msg⟩ := c
    by_cases hp : p
    · simp [runChecks, hp, ih]
    · simp [runChecks, hp]

theorem runChecks_cases (cs : List (Prop × String)) :
    runChecks cs = .ok () ∨ ∃ msg, runChecks cs = .error (.valueError msg) := by
  induction cs with
  | nil => simp [runChecks]
  | cons c cs ih =>
    obtain ⟨p, msg⟩ := c
    by_cases hp : p
    · simpa [runChecks, hp] using ih
    · right; exact ⟨msg, by simp [runChecks, hp]⟩

theorem Args.validate_ok {a : Args} :
    a.validate = .ok () ↔ a.tauArr.n ≠ 0 ∧ (∀ c ∈ a.checks1, c.1) ∧ ∀ c ∈ a.checks2, c.1 := by
  unfold Args.validate
  by_cases h0 : a.tauArr.n = 0
  · simp [h0]
  rw [if_neg h0, ← runChecks_ok, ← runChecks_ok]
  rcases runChecks_cases a.checks1 with h | ⟨m, h⟩ <;> simp [h, bind, Except.bind, h0]

theorem BCv.AllZero.iff (b : BCv) (n : ℕ) :
    Spec.BCShape n b ↔ b.AllZero ∨ b.len = 1 ∨ b.len = n := by
  cases b <;> simp [Spec.BCShape, BCv.AllZero, BCv.len]

namespace Args
variable {a : Args}

theorem iso_iff : a.Iso ↔ ¬ Spec.NoSource a := by
  unfold Iso nsc Spec.NoSource
  split_ifs with h
  · exact ⟨fun h' => absurd h' (lt_irrefl 0), fun h' => absurd h h'⟩
  · simp only [h, not_false_iff, iff_true]
    by_contra hc
    push Not at hc
    exact h fun i _ j hj => by omega

theorem nsc_of_iso (h : a.Iso) : a.nsc = a.s.c := by
  unfold Iso nsc at *
  split_ifs with h1
  · rw [if_pos h1] at h; exact absurd h (lt_irrefl 0)
  · rfl

theorem shape_iff (b : BCv) [Decidable b.AllZero] {F : ℤ} (hQ : 2 ≤ a.NQuad) :
    (¬ (¬ (if b.AllZero then BCv.scalar 0 else b).len = 1
        ∧ ¬ ((if b.AllZero then BCv.scalar 0 else b).len : ℤ) = a.halfN
        ∧ ¬ (if b.AllZero then BCv.scalar 0 else b).HasShape a.halfN F))
      ↔ Spec.BCShape (Spec.nHalf a) b := by
  rw [BCv.AllZero.iff]
  have hn : (Spec.nHalf a : ℤ) = a.halfN := by
    unfold Spec.nHalf halfN; omega
  split_ifs with h
  · simp [BCv.len, h]
  · have hh : ∀ k : ℕ, (k : ℤ) = a.halfN ↔ k = Spec.nHalf a := by intro k; omega
    rw [hh]
    have : b.HasShape a.halfN F → b.len = Spec.nHalf a := by
      intro hs
      cases b with
      | scalar => exact hs.elim
      | vec => exact hs.elim
      | mat v => exact (hh _).1 hs.1
    tauto

theorem thick_pos_iff (h0 : a.tauArr.n ≠ 0) :
    ((∀ k < a.tauArr.n, 0 < a.tauArr.get k) ∧ (∀ k < a.NLayers, 0 < a.thick k))
      ↔ 0 < a.tauArr.get 0 ∧ ∀ k, k + 1 < a.tauArr.n → a.tauArr.get k < a.tauArr.get (k + 1) := by
  unfold thick NLayers
  constructor
  · rintro ⟨h1, h2⟩
    refine ⟨h1 0 (by omega), fun k hk => ?_⟩
    have := h2 (k + 1) hk
    simp only [Nat.add_eq_zero_iff, one_ne_zero, and_false, if_false, Nat.add_sub_cancel] at this
    linarith
  · rintro ⟨h1, h2⟩
    constructor
    · intro k hk
      induction k with
      | zero => exact h1
      | succ k ih => exact (ih (by omega)).trans (h2 k hk)
    · intro k hk
      split_ifs with hk0
      · exact h1
      · have := h2 (k - 1) (by omega)
        linarith

open Classical in
theorem checks_iff (h0 : a.tauArr.n ≠ 0) :
    ((∀ c ∈ a.checks1, c.1) ∧ ∀ c ∈ a.checks2, c.1) ↔ Spec.Accepted a := by
  have hleg : ∀ l k, 1 ≤ k → a.legFix l k = a.leg.get l k := by
    intro l k hk; unfold legFix; rw [if_neg]; omega
  have hF : a.nFourier = if a.onlyFlux = true then 1 else a.NFourier.getD a.NQuad := rfl
  have hL : a.nLeg = a.NLeg.getD a.NQuad := rfl
  have hth := thick_pos_iff h0
  constructor
  · rintro ⟨h1, h2⟩
    simp only [checks1, checks2, List.forall_mem_cons, List.not_mem_nil, false_imp_iff,
      implies_true, and_true] at h1 h2
    obtain ⟨a1, a2, a3, a4, a5, a6, a7, a8, a9⟩ := h1
    obtain ⟨b1, b2, b3, b4, b5, b6, b7, b8, b9, b10, b11, b12, b13⟩ := h2
    have hth' := hth.1 ⟨a1, a2⟩
    refine
      { layers := by omega, top := hth'.1, increasing := hth'.2, omegaLen := a7,
        omega := fun k hk => ⟨a3.1 k (by rw [a7]; exact hk), a3.2 k (by rw [a7]; exact hk)⟩,
        legRows := a6, legCols := a5,
        legVal := fun l hl k hk hk1 => by
          have := b1.1 l (by rw [a6]; exact hl) k hk hk1
          have h' := b1.2 l (by rw [a6]; exact hl) k hk hk1
          rw [hleg l k hk1] at this h'
          exact ⟨this, h'⟩
        peakLen := ?_, peak := fun k hk => ⟨b12.1 k hk, b12.2 k hk⟩, sourceRows := ?_,
        streams := ⟨b2, by rw [Int.even_iff]; exact b3⟩,
        modes := fun hof => by rw [hF, hof] at b4 b5; simp at b4 b5; exact ⟨b4, b5⟩
        nLeg := ⟨a4, b6⟩, beam := not_lt.mp b7, beamDir := fun hb => ⟨b8 hb, b9 hb⟩,
        bottom := (shape_iff a.bpos b2).1 b10, topBC := (shape_iff a.bneg b2).1 b11, banded := b13 }
    · by_contra hc
      push Not at hc
      exact a8 ⟨hc.1, hc.2⟩
    · by_cases hs : Spec.NoSource a
      · exact Or.inl hs
      · right; by_contra hc; exact a9 ⟨iso_iff.2 hs, hc⟩
  · intro h
    have hth' := hth.2 ⟨h.top, h.increasing⟩
    have h2 := h.streams.1
    simp only [checks1, checks2, List.forall_mem_cons, List.not_mem_nil, false_imp_iff,
      implies_true, and_true]
    have hle : a.nFourier > 0 ∧ a.nFourier ≤ a.nLeg := by
      rw [hF]
      have := h.modes
      have h3 := h.nLeg.1
      by_cases ho : a.onlyFlux = true
      · rw [if_pos ho, hL]; omega
      · rw [if_neg ho]; exact this (by simpa using ho)
    refine ⟨⟨hth'.1, hth'.2, ⟨fun k hk => (h.omega k (by rw [← h.omegaLen]; exact hk)).1,
        fun k hk => (h.omega k (by rw [← h.omegaLen]; exact hk)).2⟩, h.nLeg.1, h.legCols, h.legRows, h.omegaLen,
        ?_, ?_⟩,
      ⟨?_, ?_⟩, h2, Int.even_iff.mp h.streams.2, hle.1, hle.2, h.nLeg.2, not_lt.mpr h.beam,
      fun hb => (h.beamDir hb).1, fun hb => (h.beamDir hb).2, (shape_iff a.bpos h2).2 h.bottom,
      (shape_iff a.bneg h2).2 h.topBC, ⟨fun k hk => (h.peak k hk).1, fun k hk => (h.peak k hk).2⟩, h.banded⟩
    · rintro ⟨⟨k, hk, hne⟩, hlen⟩
      rcases h.peakLen with h' | h'
      · exact hne (h' k hk)
      · exact hlen h'
    · rintro ⟨hi, hr⟩
      rcases h.sourceRows with h' | h'
      · exact iso_iff.1 hi h'
      · exact hr h'
    · intro l hl k hk hk1
      rw [hleg l k hk1]; exact (h.legVal l (by rw [← h.legRows]; exact hl) k hk hk1).1
    · intro l hl k hk hk1
      rw [hleg l k hk1]; exact (h.legVal l (by rw [← h.legRows]; exact hl) k hk hk1).2

theorem validate_iff : a.validate = .ok () ↔ Spec.Accepted a := by
  rw [validate_ok]
  constructor
  · rintro ⟨h0, h⟩; exact (checks_iff h0).1 h
  · intro h
    have h0 : a.tauArr.n ≠ 0 := by have := h.layers; omega
    exact ⟨h0, (checks_iff h0).2 h⟩

end Args
end Pydisort

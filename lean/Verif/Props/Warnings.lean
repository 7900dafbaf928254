import Verif.Spec.Warnings
import Verif.Props.Validation

/-!
# Property C87: warnings
-/

namespace Pydisort
open Finset Spec

variable {E : Ext} {J : Junk} {a : Args} {R : Solved}

theorem mem_warnIf {p : Prop} {w v : Warning} : v ∈ warnIf p w ↔ p ∧ v = w := by
  unfold warnIf
  split_ifs with h <;> simp [h]

theorem scaledLeg_eq (h : Accepted a) {l k : ℕ} (hl : l < a.tauArr.n) (hk : 1 ≤ k) : a.scaledLeg l k = legStar a l k := by
  have h1 : a.legFix l k = leg a l k := by
    unfold Args.legFix leg; rw [if_neg (by omega), if_neg (by omega)]
  unfold Args.scaledLeg legStar
  split_ifs with hf
  · rw [h1, Args.peak_of_pos h hf hl]
  · have : peak a l = 0 := by
      unfold peak
      split_ifs with hl'
      · push Not at hf
        exact le_antisymm (hf l hl') (h.peak l hl').1
      · rfl
    rw [h1, this]; simp

/-- **C87.** A call that returns has issued exactly the warnings that are deserved, each once. (With `f = 1` line 321 divides by zero.) -/
theorem C87_warnings (h : pydisort E J a = .ok R) (_hp : ∀ l < a.tauArr.n, peak a l < 1) :
    (∀ w, w ∈ a.warnings E ↔ Deserved a w) ∧ (a.warnings E).Nodup := by
  obtain ⟨hacc, O, r, hO, _⟩ := pydisort_ok h
  have hv := Args.validate_ok.1 (Args.validate_iff.2 hacc)
  have hs := Args.optics_spec hacc hO
  have hq : ∃ q, a.quad E = .ok q := by
    unfold pydisort prepare at h
    cases hq : a.quad E with
    | ok q => exact ⟨q, rfl⟩
    | error e =>
      rw [Args.validate_iff.2 hacc, hq] at h
      simp [bind, Except.bind] at h
  obtain ⟨q, hq⟩ := hq
  have e : a.warnings E = warnIf (¬ ∀ l < a.NLayers, a.omega.get l * a.leg.get l 0 = a.omega.get l) .firstCoefficient ++
      (warnIf (a.nFourier > 64 ∧ a.onlyFlux = false) .manyModes ++ a.warnOptics O) := by
    unfold Args.warnings
    rw [if_neg hv.1, runChecks_ok.2 hv.2.1, runChecks_ok.2 fun c hc => hv.2.2 c (List.mem_of_mem_take hc),
      runChecks_ok.2 fun c hc => hv.2.2 c (List.mem_of_mem_drop hc), hq, hO]
  have hF : (a.nFourier > 64 ∧ a.onlyFlux = false) ↔ 64 < nFourier a := by
    unfold Args.nFourier nFourier
    cases a.onlyFlux <;> simp <;> omega
  have h0 : (¬ ∀ l < a.NLayers, a.omega.get l * a.leg.get l 0 = a.omega.get l) ↔ ∃ l < a.tauArr.n, a.omega.get l ≠ 0 ∧ a.leg.get l 0 ≠ 1 := by
    push Not
    refine exists_congr fun l => and_congr Iff.rfl ?_
    rw [ne_eq, mul_right_eq_self₀, not_or]
    tauto
  have h1 : (∃ l < a.NLayers, O.omega l > 1 - 1 / 10 ^ 6) ↔ ∃ l < a.tauArr.n, 1 - 1 / 10 ^ 6 < omegaStar a l :=
    exists_congr fun l => and_congr_right fun hl => by rw [hs.omega l hl]
  have h2 : ((∃ l < a.NLayers, ∃ k < a.nLeg.toNat, 1 ≤ k ∧ -(95 / 100) > a.scaledLeg l k) ∨
      (∃ l < a.NLayers, ∃ k < a.nLeg.toNat, 1 ≤ k ∧ a.scaledLeg l k > 95 / 100)) ↔
      ∃ l < a.tauArr.n, ∃ k, 1 ≤ k ∧ k < nLeg a ∧ 95 / 100 < |legStar a l k| := by
    constructor
    · rintro (⟨l, hl, k, hk, hk1, hx⟩ | ⟨l, hl, k, hk, hk1, hx⟩) <;> refine ⟨l, hl, k, hk1, hk, ?_⟩ <;>
        rw [scaledLeg_eq hacc hl hk1] at hx
      · exact lt_abs.2 (Or.inr (by linarith))
      · exact lt_abs.2 (Or.inl hx)
    · rintro ⟨l, hl, k, hk1, hk, hx⟩
      rcases lt_abs.1 hx with hx | hx
      · exact Or.inr ⟨l, hl, k, hk, hk1, by rw [scaledLeg_eq hacc hl hk1]; exact hx⟩
      · exact Or.inl ⟨l, hl, k, hk, hk1, by rw [scaledLeg_eq hacc hl hk1]; linarith⟩
  rw [e]
  unfold Args.warnOptics
  refine ⟨fun w => ?_, ?_⟩
  · simp only [List.mem_append, mem_warnIf, hF, h0, h1, h2]
    cases w <;> simp [Deserved]
  · unfold warnIf
    split_ifs <;> simp

/-- **C87, modified arguments.** Whether or not the call returns, the caller's array of Legendre coefficients is modified exactly if the
caller is warned of it (`C29_false` shows that it can be modified). -/
theorem C87_modified_iff_warned : (∃ l < a.leg.r, ∃ k < a.leg.c, a.legAfter.get l k ≠ a.leg.get l k) ↔
    .firstCoefficient ∈ a.warnings E := by
  have hno : ∀ O, Warning.firstCoefficient ∉ a.warnOptics O := fun O => by
    unfold Args.warnOptics
    simp [mem_warnIf]
  unfold Args.legAfter Args.warnings
  by_cases h0 : a.tauArr.n = 0
  · simp [h0]
  by_cases h1 : ∀ c ∈ a.checks1, c.1
  · rw [if_pos ⟨h0, h1⟩, if_neg h0, runChecks_ok.2 h1]
    simp only [List.mem_append, mem_warnIf]
    rw [or_iff_left (by
      cases runChecks (a.checks2.take 5) with
      | error e => simp
      | ok x =>
        cases runChecks (a.checks2.drop 5) with
        | error e => simp [mem_warnIf]
        | ok x =>
          cases a.quad E with
          | error e => simp [mem_warnIf]
          | ok x =>
            cases a.optics with
            | error e => simp [mem_warnIf]
            | ok O => simpa [mem_warnIf] using hno O), and_iff_left trivial]
    simp only [Args.checks1, List.forall_mem_cons, List.not_mem_nil, false_imp_iff, implies_true, and_true] at h1
    obtain ⟨_, _, _, h4, h5, h6, _⟩ := h1
    constructor
    · rintro ⟨l, hl, k, hk, hne⟩ hc
      refine hne ?_
      change a.legFix l k = _
      unfold Args.legFix
      rw [if_neg (by tauto)]
    · intro hc
      have hc' := hc
      push Not at hc
      obtain ⟨l, hl, hne⟩ := hc
      refine ⟨l, by rw [h6]; exact hl, 0, ?_, ?_⟩
      · have : (0 : ℤ) < a.leg.c := h4.trans_le h5
        exact_mod_cast this
      · change a.legFix l 0 ≠ _
        unfold Args.legFix
        rw [if_pos ⟨hc', rfl⟩]
        intro h'
        rw [← h'] at hne
        simp at hne
  · rw [if_neg (by tauto), if_neg h0]
    rcases runChecks_cases a.checks1 with h | ⟨msg, h⟩
    · exact absurd (runChecks_ok.1 h) h1
    · rw [h]; simp

/-- The hypotheses of C87 are met by calls with any number of streams. -/
example {n : ℕ} (hn : 0 < n) (J : Junk) : ∃ x R, pydisort refExt J (demo n x) = .ok R ∧ ∀ l < (demo n x).tauArr.n, peak (demo n x) l < 1 := by
  obtain ⟨x, R, hR, hw, _⟩ := demo_call hn J
  exact ⟨x, R, hR, hw.peak⟩

/-- Arguments that deserve a warning. -/
example {n : ℕ} : Deserved (demoUnnormalised n) .firstCoefficient :=
  ⟨0, by simp [demoUnnormalised, demoDark, demo], by simp [demoUnnormalised, demoDark, demo], by simp [demoUnnormalised]⟩

end Pydisort

import Verif.Props.DeltaM

/-!
# C27, C29, C31: treatment of the arguments
-/

namespace Pydisort
open Finset Spec

variable {E : Ext} {J : Junk} {a : Args} {R : Solved}

theorem runChecks_first (cs : List (Prop × String)) (msg : String) :
    runChecks cs = .error (.valueError msg) ↔ FirstViolated cs msg := by
  induction cs with
  | nil => simp [runChecks, FirstViolated]
  | cons c cs ih =>
    obtain ⟨p, m⟩ := c
    by_cases hp : p
    · rw [show runChecks ((p, m) :: cs) = runChecks cs by simp [runChecks, hp], ih]
      constructor
      · rintro ⟨i, q, h1, h2, h3⟩
        refine ⟨i + 1, q, by simpa using h1, h2, fun j hj q' m' hq => ?_⟩
        rcases j with _ | j
        · simp only [List.getElem?_cons_zero, Option.some.injEq, Prod.mk.injEq] at hq
          rw [← hq.1]; exact hp
        · exact h3 j (by omega) q' m' (by simpa using hq)
      · rintro ⟨i, q, h1, h2, h3⟩
        rcases i with _ | i
        · simp only [List.getElem?_cons_zero, Option.some.injEq, Prod.mk.injEq] at h1
          rw [← h1.1] at h2; exact absurd hp h2
        · exact ⟨i, q, by simpa using h1, h2, fun j hj q' m' hq => h3 (j + 1) (by omega) q' m' (by simpa using hq)⟩
    · rw [show runChecks ((p, m) :: cs) = .error (.valueError m) by simp [runChecks, hp]]
      constructor
      · intro h
        have hm : m = msg := by simpa using h
        subst hm
        exact ⟨0, p, rfl, hp, fun j hj => absurd hj (Nat.not_lt_zero j)⟩
      · rintro ⟨i, q, h1, h2, h3⟩
        rcases i with _ | i
        · simp only [List.getElem?_cons_zero, Option.some.injEq, Prod.mk.injEq] at h1
          rw [h1.2]
        · exact absurd (h3 0 (by omega) p m (by simp)) hp

theorem runChecks_append (c1 c2 : List (Prop × String)) :
    runChecks (c1 ++ c2) = (do runChecks c1; runChecks c2) := by
  induction c1 with
  | nil => rfl
  | cons c cs ih =>
    obtain ⟨p, m⟩ := c
    by_cases hp : p
    · rw [List.cons_append, show runChecks ((p, m) :: (cs ++ c2)) = runChecks (cs ++ c2) by simp [runChecks, hp],
        show runChecks ((p, m) :: cs) = runChecks cs by simp [runChecks, hp], ih]
    · rw [List.cons_append, show runChecks ((p, m) :: (cs ++ c2)) = .error (.valueError m) by simp [runChecks, hp],
        show runChecks ((p, m) :: cs) = .error (.valueError m) by simp [runChecks, hp]]
      rfl

theorem runChecks_cons {p q : Prop} {m : String} {cs ds : List (Prop × String)} (hpq : p ↔ q)
    (h : p → runChecks cs = runChecks ds) : runChecks ((p, m) :: cs) = runChecks ((q, m) :: ds) := by
  by_cases hp : p
  · have hq := hpq.1 hp
    simp [runChecks, hp, hq, h hp]
  · have hq : ¬ q := fun hq => hp (hpq.2 hq)
    simp [runChecks, hp, hq]

open Classical in
theorem validate_requirements (h0 : a.tauArr.n ≠ 0) : a.validate = runChecks (requirements a) := by
  have hleg : ∀ l k, 1 ≤ k → a.legFix l k = a.leg.get l k := by
    intro l k hk; unfold Args.legFix; rw [if_neg]; omega
  unfold Args.validate
  rw [if_neg h0, ← runChecks_append]
  unfold Args.checks1 Args.checks2 requirements
  simp only [List.cons_append, List.nil_append]
  refine runChecks_cons Iff.rfl fun h1 => ?_
  refine runChecks_cons ?_ fun _ => ?_
  · have := Args.thick_pos_iff h0
    have ht : 0 < a.tauArr.get 0 := h1 0 (by omega)
    constructor
    · exact fun h => (this.1 ⟨h1, h⟩).2
    · exact fun h => (this.2 ⟨ht, h⟩).2
  refine runChecks_cons ⟨fun h k hk => ⟨h.1 k hk, h.2 k hk⟩, fun h => ⟨fun k hk => (h k hk).1, fun k hk => (h k hk).2⟩⟩
    fun _ => ?_
  refine runChecks_cons Iff.rfl fun hn => ?_
  refine runChecks_cons Iff.rfl fun _ => ?_
  refine runChecks_cons Iff.rfl fun _ => ?_
  refine runChecks_cons Iff.rfl fun _ => ?_
  refine runChecks_cons ?_ fun _ => ?_
  · constructor
    · intro h
      by_contra hc
      push Not at hc
      exact h ⟨hc.1, hc.2⟩
    · rintro (h | h) ⟨⟨k, hk, hne⟩, hlen⟩
      · exact hne (h k hk)
      · exact hlen h
  refine runChecks_cons ?_ fun _ => ?_
  · rw [Args.iso_iff]
    show ¬ (¬ NoSource a ∧ ¬ a.s.r = a.tauArr.n) ↔ _
    tauto
  refine runChecks_cons ?_ fun _ => ?_
  · constructor
    · intro h l hl k hk hk1
      have h1 := h.1 l hl k hk hk1
      have h2 := h.2 l hl k hk hk1
      rw [hleg l k hk1] at h1 h2
      exact ⟨h1, h2⟩
    · intro h
      refine ⟨fun l hl k hk hk1 => ?_, fun l hl k hk hk1 => ?_⟩
      · rw [hleg l k hk1]; exact (h l hl k hk hk1).1
      · rw [hleg l k hk1]; exact (h l hl k hk hk1).2
  refine runChecks_cons Iff.rfl fun hQ => ?_
  refine runChecks_cons Int.even_iff.symm fun _ => ?_
  refine runChecks_cons ?_ fun _ => ?_
  · unfold Args.nFourier
    cases a.onlyFlux <;> simp
  refine runChecks_cons ?_ fun _ => ?_
  · unfold Args.nFourier
    have : 0 < a.nLeg := hn
    cases a.onlyFlux
    · simp [Args.nLeg]
    · simp; omega
  refine runChecks_cons Iff.rfl fun _ => ?_
  refine runChecks_cons not_lt fun _ => ?_
  refine runChecks_cons Iff.rfl fun _ => ?_
  refine runChecks_cons Iff.rfl fun _ => ?_
  refine runChecks_cons (Args.shape_iff a.bpos hQ) fun _ => ?_
  refine runChecks_cons (Args.shape_iff a.bneg hQ) fun _ => ?_
  refine runChecks_cons ⟨fun h k hk => ⟨h.1 k hk, h.2 k hk⟩, fun h => ⟨fun k hk => (h k hk).1, fun k hk => (h k hk).2⟩⟩
    fun _ => ?_
  exact runChecks_cons Iff.rfl fun _ => rfl

/-- An exception raised by the validation is raised by the call. -/
theorem pydisort_of_invalid {e : PyErr} (h : a.validate = .error e) : pydisort E J a = .error e := by
  unfold pydisort prepare
  rw [h]; rfl

/-! ## C27 -/

/-- **C27.** For every tuple of arguments with at least one layer: the validation passes exactly when all documented
requirements hold, and otherwise the call raises `ValueError` with the message of the first requirement that is
violated, in the documented order. -/
theorem C27_validation (h0 : a.tauArr.n ≠ 0) :
    (a.validate = .ok () ↔ Accepted a) ∧ (Accepted a ↔ ∀ c ∈ requirements a, c.1) ∧
    ∀ msg, (a.validate = .error (.valueError msg) ↔ FirstViolated (requirements a) msg) ∧
      (FirstViolated (requirements a) msg → pydisort E J a = .error (.valueError msg)) := by
  have hv := validate_requirements h0
  refine ⟨Args.validate_iff, ?_, fun msg => ?_⟩
  · rw [← Args.validate_iff, hv, runChecks_ok]
  · have : a.validate = .error (.valueError msg) ↔ FirstViolated (requirements a) msg := by
      rw [hv, runChecks_first]
    exact ⟨this, fun h => pydisort_of_invalid (this.2 h)⟩

/-- **C27, rejection.** If a documented requirement is violated, some message reports it: the call fails with
`ValueError`. -/
theorem C27_rejects (h0 : a.tauArr.n ≠ 0) (h : ¬ Accepted a) :
    ∃ msg, FirstViolated (requirements a) msg ∧ pydisort E J a = .error (.valueError msg) := by
  have hv := validate_requirements h0
  rcases runChecks_cases (requirements a) with hc | ⟨msg, hc⟩
  · exact absurd (Args.validate_iff.1 (hv.trans hc)) h
  · exact ⟨msg, (runChecks_first _ _).1 hc, pydisort_of_invalid (hv.trans hc)⟩

/-- **C27, no layers.** An empty `tau_arr` is reported by an `IndexError`, not a `ValueError`. -/
theorem C27_no_layers (h0 : a.tauArr.n = 0) : pydisort E J a = .error .indexError :=
  pydisort_of_invalid (by unfold Args.validate; rw [if_pos h0])

/-- Both outcomes occur: `demo` is accepted; with the two layers exchanged it is reported as non-positive thickness. -/
example {n : ℕ} (hn : 0 < n) (J : Junk) :
    (demo n 1).validate = .ok () ∧
    pydisort refExt J { demo n 1 with tauArr := ⟨2, fun k => if k = 0 then 2 else 1⟩ }
      = .error (.valueError "Layer thicknesses cannot be non-positive.") := by
  refine ⟨Args.validate_iff.2 (demo_accepted hn one_pos le_rfl), ?_⟩
  refine ((C27_validation (E := refExt) (J := J) (by simp)).2.2 _).2
    ⟨1, _, rfl, fun h => ?_, fun j hj q m hq => ?_⟩
  · have := h 0 (by simp)
    norm_num at this
  · obtain rfl : j = 0 := by omega
    simp only [requirements, List.getElem?_cons_zero, Option.some.injEq, Prod.mk.injEq] at hq
    rw [← hq.1]
    intro k _
    show (0 : ℝ) < if k = 0 then 2 else 1
    split_ifs <;> norm_num

/-! ## C29: the caller's Legendre coefficients are overwritten -/

/-- Legendre coefficients whose zeroth entry is two. -/
noncomputable def demoUnnormalised (n : ℕ) : Args :=
  { demoDark n with leg := ⟨2, 2 * n, fun _ k => if k = 0 then 2 else (1 / 2) ^ k⟩ }

/-- **C29 is false.** There are accepted arguments for which the caller's `Leg_coeffs_all` array has a different content
after the call (line 248 of `pydisort.py` writes into it). -/
theorem C29_false {n : ℕ} (hn : 0 < n) : ∃ a : Args, nHalf a = n ∧ Accepted a ∧
    ∃ l < a.leg.r, ∃ k < a.leg.c, a.legAfter.get l k ≠ a.leg.get l k := by
  have hacc : Accepted (demoUnnormalised n) :=
    { demoDark_accepted hn with
      legRows := rfl
      legVal := fun l hl k hk hk1 => by
        have := (demoDark_accepted hn).legVal l hl k hk hk1
        show -1 < (if k = 0 then (2 : ℝ) else (1 / 2) ^ k) ∧ (if k = 0 then (2 : ℝ) else (1 / 2) ^ k) < 1
        rw [if_neg (by omega)]
        exact this }
  refine ⟨demoUnnormalised n, demo_nHalf 1, hacc, 0, by simp [demoUnnormalised], 0, by simp [demoUnnormalised]; omega, ?_⟩
  have hv := Args.validate_ok.1 (Args.validate_iff.2 hacc)
  unfold Args.legAfter
  rw [if_pos ⟨hv.1, hv.2.1⟩]
  show (demoUnnormalised n).legFix 0 0 ≠ _
  unfold Args.legFix
  rw [if_pos]
  · simp [demoUnnormalised]
  · refine ⟨fun h => ?_, rfl⟩
    have := h 0 (by simp [Args.NLayers, demoUnnormalised, demoDark, demo])
    simp [demoUnnormalised, demoDark, demo] at this

/-- **C29, the part that holds.** Only the zeroth coefficients can change, and they do not when they are one in every
scattering layer. (`Leg_coeffs_all[:, 0] = 1` is the only assignment into an argument in `pydisort`.) -/
theorem C29_legendre_unchanged_partial :
    a.legAfter.r = a.leg.r ∧ a.legAfter.c = a.leg.c ∧
    (∀ l k, 1 ≤ k → a.legAfter.get l k = a.leg.get l k) ∧
    ((∀ l < a.tauArr.n, a.omega.get l = 0 ∨ a.leg.get l 0 = 1) → a.legAfter = a.leg) := by
  have hk : ∀ l k, 1 ≤ k → a.legFix l k = a.leg.get l k := by
    intro l k hk; unfold Args.legFix; rw [if_neg]; omega
  unfold Args.legAfter
  split_ifs with h
  · refine ⟨rfl, rfl, hk, fun hn => ?_⟩
    have : a.legFix = a.leg.get := by
      funext l k
      unfold Args.legFix
      rw [if_neg]
      rintro ⟨hc, _⟩
      refine hc fun l hl => ?_
      rcases hn l hl with h' | h' <;> rw [h'] <;> ring
    rw [this]
  · exact ⟨rfl, rfl, fun _ _ _ => rfl, fun _ => rfl⟩

/-- Normalised coefficients in a scattering atmosphere. -/
example {n : ℕ} (x : ℝ) : ∀ l < (demo n x).tauArr.n, (demo n x).omega.get l = 0 ∨ (demo n x).leg.get l 0 = 1 :=
  fun _ _ => Or.inr (by simp [demo])

end Pydisort

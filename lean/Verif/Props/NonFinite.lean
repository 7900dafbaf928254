import Verif.NonFiniteLemmas
import Verif.Spec.NonFinite
import Verif.Props.Validation

/-!
# C124, C125: NaN and infinities
-/

namespace Pydisort
open Finset Spec

/-! ## C124: the checks -/

/-- **C124, finite arguments.** On finite arguments the checks with floating-point values are the checks of the exact model. -/
theorem C124_finite (a : Args) : a.toF.validate = a.validate := a.toF_validate

theorem lt_fin_pos {c : ℝ} {x : Fl} (h : Fl.lt (.fin c) x) : (∃ y, c < y ∧ x = .fin y) ∨ x = .pinf := by
  cases x with
  | nan => exact h.elim
  | ninf => exact h.elim
  | fin y => exact Or.inl ⟨y, h, rfl⟩
  | pinf => exact Or.inr rfl

theorem fin_of_between {c d : ℝ} {x : Fl} (h1 : Fl.lt (.fin c) x) (h2 : Fl.lt x (.fin d)) : ∃ y, c < y ∧ y < d ∧ x = .fin y := by
  rcases lt_fin_pos h1 with ⟨y, hy, rfl⟩ | rfl
  · exact ⟨y, hy, h2, rfl⟩
  · exact h2.elim

theorem fin_of_le {c : ℝ} {x : Fl} (h : Fl.le (.fin c) x) : (∃ y, c ≤ y ∧ x = .fin y) ∨ x = .pinf := by
  rcases h with h | h
  · rcases lt_fin_pos h with ⟨y, hy, rfl⟩ | rfl
    · exact Or.inl ⟨y, hy.le, rfl⟩
    · exact Or.inr rfl
  · cases x with
    | fin y => exact Or.inl ⟨y, (show c = y from h).le, rfl⟩
    | nan => exact h.elim
    | ninf => exact h.elim
    | pinf => exact h.elim

/-- **C124, partial.** What the checks do guarantee: optical depths are positive numbers, except that the last may be infinite; single-scattering albedos, peak fractions and Legendre coefficients
after the zeroth are numbers in their ranges; the incident intensity is a non-negative number, infinite or NaN; the direction of an incident beam of positive intensity consists of numbers in their ranges.
Missing: `I0`, `b_pos`, `b_neg`, `s_poly_coeffs`, the last entry of `tau_arr`, and `mu0`, `phi0` without a beam need not be finite (`C124_false`). -/
theorem C124_values_partial {a : ArgsF} (h : a.validate = .ok ()) :
    (∀ k < a.tauArr.n, (∃ x, 0 < x ∧ a.tauArr.get k = .fin x) ∨ (k + 1 = a.tauArr.n ∧ a.tauArr.get k = .pinf)) ∧
    (∀ k < a.omega.n, ∃ x, 0 ≤ x ∧ x < 1 ∧ a.omega.get k = .fin x) ∧
    (∀ k < a.fArr.n, ∃ x, 0 ≤ x ∧ x ≤ 1 ∧ a.fArr.get k = .fin x) ∧
    (∀ l < a.leg.r, ∀ k < a.leg.c, 1 ≤ k → ∃ x, -1 < x ∧ x < 1 ∧ a.leg.get l k = .fin x) ∧
    (a.I0 = .nan ∨ a.I0 = .pinf ∨ ∃ x, 0 ≤ x ∧ a.I0 = .fin x) ∧
    (a.I0 ≠ .nan → a.I0 ≠ .fin 0 → ∃ m p, 0 < m ∧ m ≤ 1 ∧ a.mu0 = .fin m ∧ 0 ≤ p ∧ p < 2 * Real.pi ∧ a.phi0 = .fin p) := by
  obtain ⟨h0, h1, h2⟩ := ArgsF.validate_ok.1 h
  simp only [ArgsF.checks1, ArgsF.checks2, List.forall_mem_cons, List.not_mem_nil, false_imp_iff, implies_true, and_true] at h1 h2
  obtain ⟨t1, t2, w, -⟩ := h1
  obtain ⟨lg, -, -, -, -, -, i0, m0, p0, -, -, f, -⟩ := h2
  have hI : a.I0 = .nan ∨ a.I0 = .pinf ∨ ∃ x, 0 ≤ x ∧ a.I0 = .fin x := by
    cases hx : a.I0 with
    | nan => exact Or.inl rfl
    | pinf => exact Or.inr (Or.inl rfl)
    | ninf => rw [hx] at i0; exact absurd trivial i0
    | fin x => rw [hx] at i0; exact Or.inr (Or.inr ⟨x, not_lt.1 i0, rfl⟩)
  refine ⟨fun k hk => ?_, fun k hk => ?_, fun k hk => ?_, fun l hl k hk hk1 => ?_, hI, fun hn hz => ?_⟩
  · rcases lt_fin_pos (t1 k hk) with hx | hx
    · exact Or.inl hx
    · refine Or.inr ⟨?_, hx⟩
      by_contra hne
      have := t2 (k + 1) (by omega)
      unfold ArgsF.thick at this
      rw [if_neg (by omega), Nat.add_sub_cancel, hx] at this
      revert this
      cases a.tauArr.get (k + 1) <;> exact fun h => h
  · rcases fin_of_le (w.1 k hk) with ⟨x, hx, e⟩ | e
    · have := w.2 k hk
      rw [e] at this
      exact ⟨x, hx, this, e⟩
    · have := w.2 k hk
      rw [e] at this
      exact this.elim
  · rcases fin_of_le (f.1 k hk) with ⟨x, hx, e⟩ | e
    · have := f.2 k hk
      rw [e] at this
      exact ⟨x, hx, (Fl.fin_le _ _).1 this, e⟩
    · have := f.2 k hk
      rw [e] at this
      rcases this with h | h <;> exact h.elim
  · have e : a.legFix l k = a.leg.get l k := by
      unfold ArgsF.legFix
      rw [if_neg (by omega)]
    have b1 := lg.1 l hl k hk hk1
    have b2 := lg.2 l hl k hk hk1
    rw [e] at b1 b2
    exact fin_of_between b1 b2
  · have hb : a.Beam := by
      unfold ArgsF.Beam
      rcases hI with hx | hx | ⟨x, hx0, hx⟩
      · exact absurd hx hn
      · rw [hx]; trivial
      · rw [hx]
        exact lt_of_le_of_ne hx0 fun h => hz (by rw [hx, ← h])
    obtain ⟨m1, m2⟩ := m0 hb
    obtain ⟨p1, p2⟩ := p0 hb
    rcases lt_fin_pos m1 with ⟨m, hm, em⟩ | em
    · rcases fin_of_le p1 with ⟨p, hp, ep⟩ | ep
      · refine ⟨m, p, hm, ?_, em, hp, ?_, ep⟩
        · rw [em] at m2; exact (Fl.fin_le _ _).1 m2
        · rw [ep] at p2; exact p2
      · rw [ep] at p2; exact p2.elim
    · rw [em] at m2
      rcases m2 with h | h <;> exact h.elim

/-- **C124 is false.** Take any accepted arguments. The checks still pass after any of the following: the incident intensity becomes NaN; a positive incident intensity becomes infinite; a boundary
condition becomes NaN or infinite; `s_poly_coeffs` is filled with any values; the last optical depth becomes infinite; without a beam, its direction becomes NaN or infinite. (NaN among the zeroth
Legendre coefficients is overwritten by one.) -/
theorem C124_false {a : Args} (h : Accepted a) :
    ({ a.toF with I0 := .nan } : ArgsF).validate = .ok () ∧
    (0 < a.I0 → ({ a.toF with I0 := .pinf } : ArgsF).validate = .ok ()) ∧
    (∀ x, ({ a.toF with bpos := .scalar x } : ArgsF).validate = .ok ()) ∧
    (∀ x, ({ a.toF with bneg := .scalar x } : ArgsF).validate = .ok ()) ∧
    (∀ s : A2 Fl, s.r = a.tauArr.n → ({ a.toF with s := s } : ArgsF).validate = .ok ()) ∧
    ({ a.toF with tauArr := ⟨a.tauArr.n, fun k => if k + 1 = a.tauArr.n then .pinf else .fin (a.tauArr.get k)⟩ } : ArgsF).validate = .ok () ∧
    (a.I0 = 0 → ∀ x y, ({ a.toF with mu0 := x, phi0 := y } : ArgsF).validate = .ok ()) ∧
    (∀ x : ℕ → Fl, ({ a.toF with leg := ⟨a.leg.r, a.leg.c, fun l k => if k = 0 then x l else .fin (a.leg.get l k)⟩ } : ArgsF).validate = .ok ()) := by
  have hv : a.toF.validate = .ok () := by rw [C124_finite]; exact Args.validate_iff.2 h
  obtain ⟨h0, h1, h2⟩ := ArgsF.validate_ok.1 hv
  simp only [ArgsF.checks1, ArgsF.checks2, List.forall_mem_cons, List.not_mem_nil, false_imp_iff, implies_true, and_true] at h1 h2
  obtain ⟨t1, t2, w, n1, n2, l1, o1, f1, s1⟩ := h1
  obtain ⟨lg, q1, q2, m1, m2, n3, i0, mu, ph, bp, bn, f, ub⟩ := h2
  have hlenp : ∀ (b : ArgsF) (x : Fl), b.bpos = .scalar x → b.bpos'.len = 1 := by
    intro b x hb
    unfold ArgsF.bpos'
    rw [hb]
    split_ifs <;> rfl
  have hlenn : ∀ (b : ArgsF) (x : Fl), b.bneg = .scalar x → b.bneg'.len = 1 := by
    intro b x hb
    unfold ArgsF.bneg'
    rw [hb]
    split_ifs <;> rfl
  refine ⟨?_, fun hI => ?_, fun x => ?_, fun x => ?_, fun s hs => ?_, ?_, fun hI x y => ?_, fun x => ?_⟩
  · refine ArgsF.validate_ok.2 ⟨h0, ?_, ?_⟩
    · simp only [ArgsF.checks1, List.forall_mem_cons, List.not_mem_nil, false_imp_iff, implies_true, and_true]
      exact ⟨t1, t2, w, n1, n2, l1, o1, f1, s1⟩
    · simp only [ArgsF.checks2, List.forall_mem_cons, List.not_mem_nil, false_imp_iff, implies_true, and_true]
      exact ⟨lg, q1, q2, m1, m2, n3, fun h => h, fun h => False.elim h, fun h => False.elim h, bp, bn, f, ub⟩
  · refine ArgsF.validate_ok.2 ⟨h0, ?_, ?_⟩
    · simp only [ArgsF.checks1, List.forall_mem_cons, List.not_mem_nil, false_imp_iff, implies_true, and_true]
      exact ⟨t1, t2, w, n1, n2, l1, o1, f1, s1⟩
    · simp only [ArgsF.checks2, List.forall_mem_cons, List.not_mem_nil, false_imp_iff, implies_true, and_true]
      exact ⟨lg, q1, q2, m1, m2, n3, fun h => h, fun _ => mu hI, fun _ => ph hI, bp, bn, f, ub⟩
  · refine ArgsF.validate_ok.2 ⟨h0, ?_, ?_⟩
    · simp only [ArgsF.checks1, List.forall_mem_cons, List.not_mem_nil, false_imp_iff, implies_true, and_true]
      exact ⟨t1, t2, w, n1, n2, l1, o1, f1, s1⟩
    · simp only [ArgsF.checks2, List.forall_mem_cons, List.not_mem_nil, false_imp_iff, implies_true, and_true]
      exact ⟨lg, q1, q2, m1, m2, n3, i0, mu, ph, fun hb => hb.1 (hlenp _ x rfl), bn, f, ub⟩
  · refine ArgsF.validate_ok.2 ⟨h0, ?_, ?_⟩
    · simp only [ArgsF.checks1, List.forall_mem_cons, List.not_mem_nil, false_imp_iff, implies_true, and_true]
      exact ⟨t1, t2, w, n1, n2, l1, o1, f1, s1⟩
    · simp only [ArgsF.checks2, List.forall_mem_cons, List.not_mem_nil, false_imp_iff, implies_true, and_true]
      exact ⟨lg, q1, q2, m1, m2, n3, i0, mu, ph, bp, fun hb => hb.1 (hlenn _ x rfl), f, ub⟩
  · refine ArgsF.validate_ok.2 ⟨h0, ?_, ?_⟩
    · simp only [ArgsF.checks1, List.forall_mem_cons, List.not_mem_nil, false_imp_iff, implies_true, and_true]
      exact ⟨t1, t2, w, n1, n2, l1, o1, f1, fun hb => hb.2 hs⟩
    · simp only [ArgsF.checks2, List.forall_mem_cons, List.not_mem_nil, false_imp_iff, implies_true, and_true]
      exact ⟨lg, q1, q2, m1, m2, n3, i0, mu, ph, bp, bn, f, ub⟩
  · refine ArgsF.validate_ok.2 ⟨h0, ?_, ?_⟩
    · simp only [ArgsF.checks1, List.forall_mem_cons, List.not_mem_nil, false_imp_iff, implies_true, and_true]
      refine ⟨fun k hk => ?_, fun k hk => ?_, w, n1, n2, l1, o1, f1, s1⟩
      · by_cases hl : k + 1 = a.tauArr.n
        · rw [if_pos hl]; trivial
        · rw [if_neg hl]; exact t1 k hk
      · have := t2 k hk
        unfold ArgsF.thick at this ⊢
        by_cases hk0 : k = 0
        · rw [if_pos hk0] at this ⊢
          show Fl.lt (.fin 0) (if 0 + 1 = a.tauArr.n then Fl.pinf else .fin (a.tauArr.get 0))
          split_ifs
          · trivial
          · exact this
        · rw [if_neg hk0] at this ⊢
          show Fl.lt (.fin 0) (Fl.sub (if k - 1 + 1 + 1 = a.tauArr.n then Fl.pinf else .fin (a.tauArr.get (k - 1 + 1)))
            (if k - 1 + 1 = a.tauArr.n then Fl.pinf else .fin (a.tauArr.get (k - 1))))
          have hk' : k < a.tauArr.n := hk
          rw [if_neg (show ¬ k - 1 + 1 = a.tauArr.n by omega)]
          split_ifs
          · trivial
          · exact this
    · simp only [ArgsF.checks2, List.forall_mem_cons, List.not_mem_nil, false_imp_iff, implies_true, and_true]
      exact ⟨lg, q1, q2, m1, m2, n3, i0, mu, ph, bp, bn, f, ub⟩
  · refine ArgsF.validate_ok.2 ⟨h0, ?_, ?_⟩
    · simp only [ArgsF.checks1, List.forall_mem_cons, List.not_mem_nil, false_imp_iff, implies_true, and_true]
      exact ⟨t1, t2, w, n1, n2, l1, o1, f1, s1⟩
    · simp only [ArgsF.checks2, List.forall_mem_cons, List.not_mem_nil, false_imp_iff, implies_true, and_true]
      have hb : ¬ (0 : ℝ) < a.I0 := by rw [hI]; exact lt_irrefl _
      exact ⟨lg, q1, q2, m1, m2, n3, i0, fun h => absurd h hb, fun h => absurd h hb, bp, bn, f, ub⟩
  · refine ArgsF.validate_ok.2 ⟨h0, ?_, ?_⟩
    · simp only [ArgsF.checks1, List.forall_mem_cons, List.not_mem_nil, false_imp_iff, implies_true, and_true]
      exact ⟨t1, t2, w, n1, n2, l1, o1, f1, s1⟩
    · simp only [ArgsF.checks2, List.forall_mem_cons, List.not_mem_nil, false_imp_iff, implies_true, and_true]
      have e : ∀ l k, 1 ≤ k → ({ a.toF with leg := ⟨a.leg.r, a.leg.c, fun l k => if k = 0 then x l else .fin (a.leg.get l k)⟩ } : ArgsF).legFix l k = a.toF.legFix l k := by
        intro l k hk
        unfold ArgsF.legFix
        rw [if_neg (by omega), if_neg (by omega)]
        show (if k = 0 then x l else .fin (a.leg.get l k)) = .fin (a.leg.get l k)
        rw [if_neg (by omega)]
      refine ⟨⟨fun l hl k hk hk1 => ?_, fun l hl k hk hk1 => ?_⟩, q1, q2, m1, m2, n3, i0, mu, ph, bp, bn, f, ub⟩
      · rw [e l k hk1]; exact lg.1 l hl k hk hk1
      · rw [e l k hk1]; exact lg.2 l hl k hk hk1

/-- Both cases are met: `demo` is accepted, and with `I0 = NaN` still is. -/
example {n : ℕ} (hn : 0 < n) : ∃ a : ArgsF, a.validate = .ok () ∧ a.I0 = .nan :=
  ⟨_, (C124_false (demo_accepted (n := n) hn one_pos le_rfl)).1, rfl⟩

/-! ## C125: the results -/

/-- **C125, finite numbers.** With finite numbers, and a beam direction that is not horizontal, the floating-point model returns and raises what the exact model does. -/
theorem C125_finite (I : AsmIn) (S : Sols) (hm : I.beam = true → I.mu0 ≠ 0) (tau phi : A1 ℝ) :
    (∀ e, (I.toF S).u0 (tau.map .fin) = .error e ↔ I.u0 S tau false = .error e) ∧
    (∀ A, I.u0 S tau false = .ok A → ∃ B, (I.toF S).u0 (tau.map .fin) = .ok B ∧ B.r = A.r ∧ B.c = A.c ∧ ∀ i < A.r, ∀ t < A.c, B.get i t = .fin (A.get i t)) ∧
    (∀ A, I.u S tau phi false = .ok A → ∃ B, (I.toF S).u (tau.map .fin) (phi.map .fin) = .ok B ∧ B.d0 = A.d0 ∧ B.d1 = A.d1 ∧ B.d2 = A.d2 ∧
      ∀ i < A.d0, ∀ t < A.d1, ∀ p < A.d2, B.get i t p = .fin (A.get i t p)) ∧
    (∀ A, I.fluxUp S tau false = .ok A → ∃ B, (I.toF S).fluxUp (tau.map .fin) = .ok B ∧ B.n = A.n ∧ ∀ t < A.n, B.get t = .fin (A.get t)) ∧
    (∀ A, I.fluxDown S tau false = .ok A → ∃ B, (I.toF S).fluxDown (tau.map .fin) = .ok B ∧ B.1.n = A.1.n ∧ (∀ t < A.1.n, B.1.get t = .fin (A.1.get t)) ∧
      B.2.n = A.2.1.n ∧ ∀ t < A.2.1.n, B.2.get t = .fin (A.2.1.get t)) := by
  have hcF := I.toF_checkTau S tau
  rcases hc : I.checkTau tau with e | ⟨⟩
  · have h1 : I.u0 S tau false = .error e := by unfold AsmIn.u0; rw [hc]; rfl
    have h2 : (I.toF S).u0 (tau.map .fin) = .error e := by unfold AsmF.u0; rw [hcF, hc]; rfl
    have h3 : I.fluxUp S tau false = .error e := by unfold AsmIn.fluxUp; rw [hc]; rfl
    have h4 : I.fluxDown S tau false = .error e := by unfold AsmIn.fluxDown; rw [hc]; rfl
    have h5 : I.u S tau phi false = .error e := by unfold AsmIn.u AsmIn.uRaw; rw [hc]; rfl
    refine ⟨fun e' => by rw [h1, h2]; constructor <;> (intro h; cases h; rfl), fun A h => ?_, fun A h => ?_, fun A h => ?_, fun A h => ?_⟩
    · rw [h1] at h; cases h
    · rw [h5] at h; cases h
    · rw [h3] at h; cases h
    · rw [h4] at h; cases h
  · obtain ⟨z, z1, z2, z3, z4⟩ := I.u0_plain S hc
    obtain ⟨w, w1, w2, w3, w4, w5⟩ := I.u_plain S phi hc
    obtain ⟨y, y1, y2, y3⟩ := I.fluxUp_plain S hc
    obtain ⟨F, D, x1, x2, x3, x4, x5⟩ := I.fluxDown_plain S hc
    have e1 : (I.toF S).u0 (tau.map .fin) = .ok ⟨2 * I.N, tau.n, fun i t => (I.toF S).u0Entry i (.fin (tau.get t))⟩ := by
      unfold AsmF.u0; rw [hcF, hc]; rfl
    have e0 : (I.toF S).u (tau.map .fin) (phi.map .fin) = .ok ⟨2 * I.N, tau.n, phi.n, fun i t p => (I.toF S).uEntry i (.fin (tau.get t)) (.fin (phi.get p))⟩ := by
      unfold AsmF.u; rw [hcF, hc]; rfl
    have e2 : (I.toF S).fluxUp (tau.map .fin) = .ok ⟨tau.n, fun t => (I.toF S).fluxUpEntry (.fin (tau.get t))⟩ := by
      unfold AsmF.fluxUp; rw [hcF, hc]; rfl
    have e3 : (I.toF S).fluxDown (tau.map .fin) = .ok (⟨tau.n, fun t => (I.toF S).fluxDownEntry (.fin (tau.get t))⟩,
        if I.beam = true then ⟨tau.n, fun t => (I.toF S).directEntry (.fin (tau.get t))⟩ else ⟨1, fun _ => Fl.mul (.fin I.rescale) (.fin 0)⟩) := by
      unfold AsmF.fluxDown; rw [hcF, hc]; rfl
    refine ⟨fun e => by rw [e1, z1]; constructor <;> (intro h; cases h), fun A h => ?_, fun A h => ?_, fun A h => ?_, fun A h => ?_⟩
    · rw [z1] at h; cases h
      refine ⟨_, e1, z2.symm, z3.symm, fun i hi t ht => ?_⟩
      rw [z4 i (by omega) t (by omega)]
      show Fl.mul (.fin I.rescale) ((I.toF S).um 0 i (.fin (tau.get t))) = _
      rw [I.toF_um S hm, Fl.fin_mul]
    · rw [w1] at h; cases h
      refine ⟨_, e0, w2.symm, w3.symm, w4.symm, fun i hi t ht p hp => ?_⟩
      rw [w5 i (by omega) t (by omega) p (by omega)]
      simp only
      rw [I.toF_uEntry S hm, mul_sum]
      congr 1
      exact sum_congr rfl fun m _ => by ring
    · rw [y1] at h; cases h
      refine ⟨_, e2, y2.symm, fun t ht => ?_⟩
      rw [y3 t (by omega)]
      show Fl.mul (.fin I.rescale) ((I.toF S).fluxQuad 0 (.fin (tau.get t))) = _
      rw [I.toF_fluxQuad S hm, Fl.fin_mul]
      simp only [Nat.zero_add]
    · rw [x1] at h; cases h
      refine ⟨_, e3, x2.symm, fun t ht => ?_, ?_, fun t ht => ?_⟩
      · simp only
        rw [x3 t (by rw [← x2]; exact ht)]
        show Fl.mul (.fin I.rescale) (Fl.sub (Fl.add ((I.toF S).fluxQuad I.N (.fin (tau.get t))) _) _) = _
        rw [I.toF_fluxQuad S hm, I.toF_directScaled S hm, I.toF_direct S hm, Fl.fin_add, Fl.fin_sub, Fl.fin_mul]
        congr 2
        by_cases hb : I.beam = true
        · simp only [hb, if_true]; ring
        · simp only [hb, if_false, Bool.false_eq_true]; ring
      · simp only
        rw [x4]
        split_ifs <;> rfl
      · simp only at ht ⊢
        rw [x5 t ht]
        by_cases hb : I.beam = true
        · simp only [hb, if_true]
          show Fl.mul (.fin I.rescale) ((I.toF S).direct (.fin (tau.get t))) = _
          rw [I.toF_direct S hm, Fl.fin_mul]
          simp only [hb, if_true]
        · simp only [hb, if_false, Bool.false_eq_true, Fl.fin_mul]

/-- **C125, finite rescale factor.** With finite numbers the rescale factor is that of the exact model. -/
theorem C125_rescale (a : Args) (O : Optics) :
    a.toF.rescaleFactor (.fin (O.s.get 0 0)) (.fin (∑ k ∈ range a.nsc, O.s.get (O.s.r - 1) k * O.tau0 a.NLayers ^ k)) = (a.rescaleFactor O).map Fl.fin := by
  unfold ArgsF.rescaleFactor Args.rescaleFactor
  rw [a.toF_bpos, a.toF_bneg, BCv.toF_max, BCv.toF_max]
  rcases a.bpos'.max with e | mp
  · rfl
  rcases a.bneg'.max with e | mn
  · rfl
  show Except.ok _ = Except.ok _
  congr 1
  have hi : a.toF.Iso ↔ a.Iso := by unfold ArgsF.Iso Args.Iso; rw [a.toF_nsc]
  by_cases h : a.Iso
  · rw [if_pos h, if_pos (hi.2 h)]; rfl
  · rw [if_neg h, if_neg fun h' => h (hi.1 h')]; rfl

theorem contains_prime {b : BCvF} {x : Fl} (hx : ¬ Fl.eqv x (.fin 0)) (h : Contains b x) : ¬ b.AllZero := by
  cases b with
  | scalar y => rw [show y = x from h]; exact hx
  | vec v => obtain ⟨i, hi, e⟩ := h; exact fun h' => hx (e ▸ h' i hi)
  | mat v => obtain ⟨i, hi, j, hj, e⟩ := h; exact fun h' => hx (e ▸ h' i hi j hj)

theorem flat_index {r c i j : ℕ} (hi : i < r) (hj : j < c) : i * c + j < r * c ∧ (i * c + j) / c = i ∧ (i * c + j) % c = j := by
  have hc : 0 < c := by omega
  refine ⟨by nlinarith, ?_, ?_⟩
  · rw [Nat.mul_comm, Nat.mul_add_div hc, Nat.div_eq_of_lt hj, add_zero]
  · rw [Nat.mul_comm, Nat.mul_add_mod, Nat.mod_eq_of_lt hj]

theorem max_contains_nan {b : BCvF} (h : Contains b .nan) : b.max = .ok .nan := by
  cases b with
  | scalar y => exact congrArg Except.ok h
  | vec v => obtain ⟨i, hi, e⟩ := h; exact npMaxF_nan hi e
  | mat v =>
    obtain ⟨i, hi, j, hj, e⟩ := h
    obtain ⟨h1, h2, h3⟩ := flat_index hi hj
    exact npMaxF_nan (k := i * v.c + j) h1 (by simp only [h2, h3]; exact e)

theorem max_contains_inf {b : BCvF} (h : Contains b .pinf) : b.max = .ok .nan ∨ b.max = .ok .pinf := by
  cases b with
  | scalar y => exact Or.inr (congrArg Except.ok h)
  | vec v => obtain ⟨i, hi, e⟩ := h; exact npMaxF_big hi e
  | mat v =>
    obtain ⟨i, hi, j, hj, e⟩ := h
    obtain ⟨h1, h2, h3⟩ := flat_index hi hj
    exact npMaxF_big (k := i * v.c + j) h1 (by simp only [h2, h3]; exact e)

theorem rescale_parts {a : ArgsF} {p q r : Fl} (h : a.rescaleFactor p q = .ok r) :
    ∃ mp mn, a.bpos'.max = .ok mp ∧ a.bneg'.max = .ok mn ∧
      (r = Fl.max (Fl.max (Fl.max (Fl.max a.I0 mp) mn) p) q ∨ r = Fl.max (Fl.max a.I0 mp) mn) := by
  unfold ArgsF.rescaleFactor at h
  rcases hp : a.bpos'.max with e | mp
  · rw [hp] at h; cases h
  rcases hn : a.bneg'.max with e | mn
  · rw [hp, hn] at h; cases h
  rw [hp, hn] at h
  have h' := Except.ok.inj h
  refine ⟨mp, mn, rfl, rfl, ?_⟩
  rw [← h']
  split_ifs
  · exact Or.inl rfl
  · exact Or.inr rfl

theorem rescale_nan {a : ArgsF} {p q r : Fl} (h : a.rescaleFactor p q = .ok r) (hs : SourceContains a .nan) : r = .nan := by
  obtain ⟨mp, mn, h1, h2, h3⟩ := rescale_parts h
  have : Fl.max (Fl.max a.I0 mp) mn = .nan := by
    rcases hs with hs | hs | hs
    · rw [hs]; simp
    · have : a.bpos' = a.bpos := by unfold ArgsF.bpos'; rw [if_neg (contains_prime (x := .nan) (fun h => h) hs)]
      rw [this, max_contains_nan hs] at h1
      rw [← Except.ok.inj h1]; simp
    · have : a.bneg' = a.bneg := by unfold ArgsF.bneg'; rw [if_neg (contains_prime (x := .nan) (fun h => h) hs)]
      rw [this, max_contains_nan hs] at h2
      rw [← Except.ok.inj h2]; simp
  rcases h3 with h3 | h3
  · rw [h3, this]; simp
  · rw [h3, this]

theorem rescale_inf {a : ArgsF} {p q r : Fl} (h : a.rescaleFactor p q = .ok r) (hs : SourceContains a .pinf) : r = .nan ∨ r = .pinf := by
  obtain ⟨mp, mn, h1, h2, h3⟩ := rescale_parts h
  have : Fl.max (Fl.max a.I0 mp) mn = .nan ∨ Fl.max (Fl.max a.I0 mp) mn = .pinf := by
    rcases hs with hs | hs | hs
    · exact Fl.max_big (Or.inl (Fl.max_big (Or.inl (Or.inr hs))))
    · have : a.bpos' = a.bpos := by unfold ArgsF.bpos'; rw [if_neg (contains_prime (x := .pinf) (fun h => h) hs)]
      rw [this] at h1
      refine Fl.max_big (Or.inl (Fl.max_big (Or.inr ?_)))
      rcases max_contains_inf hs with e | e
      · exact Or.inl (Except.ok.inj (h1.symm.trans e))
      · exact Or.inr (Except.ok.inj (h1.symm.trans e))
    · have : a.bneg' = a.bneg := by unfold ArgsF.bneg'; rw [if_neg (contains_prime (x := .pinf) (fun h => h) hs)]
      rw [this] at h2
      refine Fl.max_big (Or.inr ?_)
      rcases max_contains_inf hs with e | e
      · exact Or.inl (Except.ok.inj (h2.symm.trans e))
      · exact Or.inr (Except.ok.inj (h2.symm.trans e))
  rcases h3 with h3 | h3
  · rw [h3]
    exact Fl.max_big (Or.inl (Fl.max_big (Or.inl this)))
  · rw [h3]; exact this

theorem allResults_of_rescale {I : AsmF} {P : Fl → Prop} (hP : ∀ x, P (Fl.mul I.rescale x)) (hadd : ∀ x y, P x → P y → P (Fl.add x y)) (tau phi : A1 Fl) :
    AllResults I tau phi P := by
  constructor
  · intro A h i _ t _ p _
    unfold AsmF.u at h
    rcases hc : I.checkTau tau with e | ⟨⟩ <;> rw [hc] at h <;> cases h
    show P (I.uEntry i (tau.get t) (phi.get p))
    unfold AsmF.uEntry
    rcases I.corr with _ | c
    · exact hP _
    · exact hadd _ _ (hP _) (hP _)
  · intro A h i _ t _
    unfold AsmF.u0 at h
    rcases hc : I.checkTau tau with e | ⟨⟩ <;> rw [hc] at h <;> cases h
    exact hP _
  · intro A h t _
    unfold AsmF.fluxUp at h
    rcases hc : I.checkTau tau with e | ⟨⟩ <;> rw [hc] at h <;> cases h
    exact hP _
  · intro A h
    unfold AsmF.fluxDown at h
    rcases hc : I.checkTau tau with e | ⟨⟩ <;> rw [hc] at h <;> cases h
    refine ⟨fun t _ => hP _, fun t _ => ?_⟩
    simp only
    split_ifs
    · exact hP _
    · exact hP _

/-- **C125, sources.** Although such arguments are accepted, they do not give results that look like numbers. If the incident intensity or a boundary condition contains NaN, every intensity and flux, with or without NT corrections, is NaN;
if it contains infinity, every intensity and flux is infinite or NaN. Whatever the solver makes of them: the results are multiplied by the rescale factor, which is then NaN or infinite. -/
theorem C125_sources {a : ArgsF} {p q : Fl} {I : AsmF} (h : a.rescaleFactor p q = .ok I.rescale) (tau phi : A1 Fl) :
    (SourceContains a .nan → AllResults I tau phi (fun x => x = .nan)) ∧
    (SourceContains a .pinf → AllResults I tau phi (fun x => ¬ x.Finite)) := by
  refine ⟨fun hs => allResults_of_rescale (fun x => ?_) (fun x y hx hy => ?_) tau phi, fun hs => allResults_of_rescale (fun x => ?_) (fun x y hx hy => ?_) tau phi⟩
  · rw [rescale_nan h hs, Fl.nan_mul]
  · rw [hx, Fl.nan_add]
  · rcases rescale_inf h hs with e | e
    · rw [e, Fl.nan_mul]; exact fun h => h
    · rw [e]; exact Fl.pinf_mul_not_finite x
  · cases x <;> cases y <;> simp [Fl.add, Fl.Finite] at hx hy ⊢

/-- **C125, depths.** A depth is refused exactly when it is a number (or infinite) outside the range: NaN is accepted. The intensities and diffuse fluxes at that depth are then NaN, and so is
the direct flux of a beam; at every other depth the results are those of a call for that depth alone. -/
theorem C125_depths (I : AsmF) (hN : 0 < I.N) (hF : 0 < I.NFourier) (tau phi : A1 Fl) :
    ((∃ e, I.u0 tau = .error e) ↔ ∃ k < tau.n, Fl.lt (tau.get k) (.fin 0) ∨ Fl.lt (I.tauArr (I.NLayers - 1)) (tau.get k)) ∧
    (∀ A, I.u0 tau = .ok A → ∀ k < tau.n,
      (tau.get k = .nan → ∀ i < 2 * I.N, A.get i k = .nan) ∧
      ∃ B, I.u0 ⟨1, fun _ => tau.get k⟩ = .ok B ∧ ∀ i < 2 * I.N, B.get i 0 = A.get i k) ∧
    (∀ A, I.u tau phi = .ok A → ∀ k < tau.n,
      (tau.get k = .nan → ∀ i < 2 * I.N, ∀ p < phi.n, A.get i k p = .nan) ∧
      ∃ B, I.u ⟨1, fun _ => tau.get k⟩ phi = .ok B ∧ ∀ i < 2 * I.N, ∀ p < phi.n, B.get i 0 p = A.get i k p) ∧
    (∀ A, I.fluxUp tau = .ok A → ∀ k < tau.n,
      (tau.get k = .nan → A.get k = .nan) ∧ ∃ B, I.fluxUp ⟨1, fun _ => tau.get k⟩ = .ok B ∧ B.get 0 = A.get k) ∧
    (∀ A, I.fluxDown tau = .ok A → ∀ k < tau.n,
      (tau.get k = .nan → A.1.get k = .nan ∧ (I.beam = true → A.2.get k = .nan)) ∧
      ∃ B, I.fluxDown ⟨1, fun _ => tau.get k⟩ = .ok B ∧ B.1.get 0 = A.1.get k ∧ B.2.get 0 = A.2.get k) := by
  have hiff : (∃ e, I.checkTau tau = .error e) ↔ ∃ k < tau.n, Fl.lt (tau.get k) (.fin 0) ∨ Fl.lt (I.tauArr (I.NLayers - 1)) (tau.get k) := by
    unfold AsmF.checkTau
    by_cases hc : (∃ k < tau.n, Fl.lt (tau.get k) (.fin 0)) ∨ (∃ k < tau.n, Fl.lt (I.tauArr (I.NLayers - 1)) (tau.get k))
    · rw [if_pos hc]
      refine ⟨fun _ => ?_, fun _ => ⟨_, rfl⟩⟩
      rcases hc with ⟨k, hk, h⟩ | ⟨k, hk, h⟩
      · exact ⟨k, hk, Or.inl h⟩
      · exact ⟨k, hk, Or.inr h⟩
    · rw [if_neg hc]
      refine ⟨fun ⟨e, h⟩ => (by cases h), fun ⟨k, hk, h⟩ => absurd ?_ hc⟩
      rcases h with h | h
      · exact Or.inl ⟨k, hk, h⟩
      · exact Or.inr ⟨k, hk, h⟩
  have hone : I.checkTau tau = .ok () → ∀ k < tau.n, I.checkTau ⟨1, fun _ => tau.get k⟩ = .ok () := by
    intro h k hk
    unfold AsmF.checkTau at h ⊢
    rw [if_neg]
    intro hc
    rw [if_pos] at h
    · cases h
    · rcases hc with ⟨j, _, h⟩ | ⟨j, _, h⟩
      · exact Or.inl ⟨k, hk, h⟩
      · exact Or.inr ⟨k, hk, h⟩
  refine ⟨?_, fun A h k hk => ?_, fun A h k hk => ?_, fun A h k hk => ?_, fun A h k hk => ?_⟩
  · rw [← hiff]
    unfold AsmF.u0
    rcases hc : I.checkTau tau with e | ⟨⟩
    · exact ⟨fun _ => ⟨e, rfl⟩, fun _ => ⟨e, rfl⟩⟩
    · constructor <;> (rintro ⟨e, h⟩; cases h)
  · unfold AsmF.u0 at h ⊢
    rcases hc : I.checkTau tau with e | ⟨⟩ <;> rw [hc] at h <;> cases h
    rw [hone hc k hk]
    refine ⟨fun hn i _ => ?_, _, rfl, fun i _ => rfl⟩
    show Fl.mul I.rescale (I.um 0 i (tau.get k)) = .nan
    rw [hn, I.um_nan hN, Fl.mul_nan]
  · unfold AsmF.u at h ⊢
    rcases hc : I.checkTau tau with e | ⟨⟩ <;> rw [hc] at h <;> cases h
    rw [hone hc k hk]
    refine ⟨fun hn i _ p _ => ?_, _, rfl, fun i _ p _ => rfl⟩
    show I.uEntry i (tau.get k) (phi.get p) = .nan
    rw [hn, I.uEntry_nan hN hF]
  · unfold AsmF.fluxUp at h ⊢
    rcases hc : I.checkTau tau with e | ⟨⟩ <;> rw [hc] at h <;> cases h
    rw [hone hc k hk]
    refine ⟨fun hn => ?_, _, rfl, rfl⟩
    show Fl.mul I.rescale (I.fluxQuad 0 (tau.get k)) = .nan
    rw [hn, I.fluxQuad_nan hN, Fl.mul_nan]
  · unfold AsmF.fluxDown at h ⊢
    rcases hc : I.checkTau tau with e | ⟨⟩ <;> rw [hc] at h <;> cases h
    rw [hone hc k hk]
    refine ⟨fun hn => ⟨?_, fun hb => ?_⟩, _, rfl, rfl, ?_⟩
    · show Fl.mul I.rescale (Fl.sub (Fl.add (I.fluxQuad I.N (tau.get k)) _) _) = .nan
      rw [hn, I.fluxQuad_nan hN, Fl.nan_add, Fl.nan_sub, Fl.mul_nan]
    · simp only [hb, if_true]
      show Fl.mul I.rescale (I.direct (tau.get k)) = .nan
      rw [hn, I.direct_nan hb, Fl.mul_nan]
    · simp only
      split_ifs <;> rfl

/-- **C125, azimuths.** If the azimuth of the beam or the azimuth asked for is NaN or infinite, the intensity is NaN. The former passes the checks when there is no beam (`C124_false`). -/
theorem C125_azimuths (I : AsmF) (hF : 0 < I.NFourier) {tau phi : A1 Fl} {A : A3 Fl} (h : I.u tau phi = .ok A) :
    ∀ i < 2 * I.N, ∀ t < tau.n, ∀ p < phi.n, ¬ I.phi0.Finite ∨ ¬ (phi.get p).Finite → A.get i t p = .nan := by
  intro i _ t _ p _ hp
  unfold AsmF.u at h
  rcases hc : I.checkTau tau with e | ⟨⟩ <;> rw [hc] at h <;> cases h
  exact I.uEntry_azimuth hF i _ hp

/-- The hypotheses of `C125_sources` are met: `demo` with an incident intensity NaN, whatever its solver gives. -/
example {n : ℕ} (I : AsmF) :
    ({ (demo n 1).toF with I0 := .nan, bneg := .scalar (.fin 1) } : ArgsF).rescaleFactor (.fin 0) (.fin 0) = .ok ({ I with rescale := .nan } : AsmF).rescale ∧
    SourceContains { (demo n 1).toF with I0 := .nan, bneg := .scalar (.fin 1) } .nan := by
  refine ⟨?_, Or.inl rfl⟩
  have hp : ∀ b : ArgsF, b.bpos = .scalar (.fin 1) → ∃ x, b.bpos'.max = .ok x := by
    intro b hb
    unfold ArgsF.bpos'
    rw [hb]
    split_ifs <;> exact ⟨_, rfl⟩
  have hn : ∀ b : ArgsF, b.bneg = .scalar (.fin 1) → ∃ x, b.bneg'.max = .ok x := by
    intro b hb
    unfold ArgsF.bneg'
    rw [hb]
    split_ifs <;> exact ⟨_, rfl⟩
  unfold ArgsF.rescaleFactor
  obtain ⟨x, hx⟩ := hp { (demo n 1).toF with I0 := .nan, bneg := .scalar (.fin 1) } rfl
  obtain ⟨y, hy⟩ := hn { (demo n 1).toF with I0 := .nan, bneg := .scalar (.fin 1) } rfl
  rw [hx, hy]
  show Except.ok _ = Except.ok _
  congr 1
  split_ifs <;> simp

end Pydisort

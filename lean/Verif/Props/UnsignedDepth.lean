import Verif.Model.UnsignedDepth
import Verif.Spec.Unsigned
import Verif.Props.IntDepth
import Verif.Props.Flux

/-!
# C135: depths passed to the returned functions as unsigned integers

Specification used: `Spec.FitsIn`, `Spec.PowersFit`, `Spec.Unscaled`, `Spec.SameOutcome`.
-/

namespace Pydisort
open Finset Spec

variable {E : Ext} {J : Junk} {a : Args} {R : Solved} {w : ℕ} {tau : A1 ℕ}

theorem natToInt_toReal (tau : A1 ℕ) : tau.natToInt.toReal = tau.natToReal := by
  unfold A1.natToInt A1.natToReal A1.toReal
  simp

theorem negU_of_pos {t : ℕ} (h0 : 0 < t) (h : t < 2 ^ w) : (negU w t : ℝ) = 2 ^ w - t := by
  unfold negU
  rw [Nat.mod_eq_of_lt (by omega), Nat.cast_sub h.le]
  push_cast; rfl

theorem negU_zero : negU w 0 = 0 := by unfold negU; simp

namespace AsmIn
variable {I : AsmIn} {S : Sols}

theorem umPlainU_eq (h : I.beam = false ∨ ∃ k < I.NLayers, I.scale k ≠ 1) (m i t : ℕ) : I.umPlainU w S m i t = I.umPlain S m i t := by
  unfold umPlainU umPlain
  rcases h with h | h
  · simp [h]
  · unfold negScaledU
    rw [if_pos h]

theorem u0U_eq (h : I.beam = false ∨ ∃ k < I.NLayers, I.scale k ≠ 1) :
    I.u0U w S tau = if w < 64 then I.u0Int S tau.natToInt false else I.u0 S tau.natToReal false := by
  unfold u0U u0Int u0 addIsoU
  simp only [umPlainU_eq h, natToInt_toReal, u0Raw, Bool.false_eq_true, false_and, if_false]
  split_ifs <;> rfl

theorem fluxUpU_eq (h : I.beam = false ∨ ∃ k < I.NLayers, I.scale k ≠ 1) :
    I.fluxUpU w S tau = if w < 64 then I.fluxUpInt S tau.natToInt false else I.fluxUp S tau.natToReal false := by
  unfold fluxUpU fluxUpInt fluxUp addIsoU
  simp only [umPlainU_eq h, natToInt_toReal, Bool.false_eq_true, if_false]
  split_ifs
  · simp only [A1.natToInt, Int.cast_natCast]
  · rfl

theorem uU_eq (h : I.beam = false ∨ ∃ k < I.NLayers, I.scale k ≠ 1) (phi : A1 ℝ) :
    I.uU w S tau phi = if w < 64 then I.uInt S tau.natToInt phi false else I.u S tau.natToReal phi false := by
  by_cases hw : w < 64
  · rw [if_pos hw]
    unfold uU uInt um0U um0Int addIsoU
    simp only [umPlainU_eq h, natToInt_toReal, Bool.false_eq_true, if_false, if_pos hw]
    simp only [A1.natToInt, Int.cast_natCast]
    rfl
  · rw [if_neg hw]
    unfold uU u uRaw um0U um0 addIsoU
    rw [bind_assoc]
    simp only [umPlainU_eq h, Bool.false_eq_true, if_false, if_neg hw, bind_assoc]
    rfl

theorem fluxDownU_eq (h : I.beam = false) :
    I.fluxDownU w S tau = if w < 64 then I.fluxDownInt S tau.natToInt false else I.fluxDown S tau.natToReal false := by
  unfold fluxDownU fluxDownInt fluxDown addIsoU fluxDownRaw
  simp only [umPlainU_eq (Or.inl h), natToInt_toReal, Bool.false_eq_true, if_false, h]
  split_ifs <;> rfl

/-- With or without source, adding its contribution leaves the shape. -/
theorem addIsoU_rows {row0 rows : ℕ} {x : A2 ℝ} (hr : x.r = rows) (hc : x.c = tau.n) : ∃ z, I.addIsoU w S tau row0 rows x = .ok z ∧ z.r = rows ∧ z.c = tau.n := by
  have hadd : ∀ y : A2 ℝ, y.r = rows → y.c = tau.n → ∃ z, A2.bin (fun x y : ℝ => x + y) x y = .ok z ∧ z.r = rows ∧ z.c = tau.n := by
    rintro ⟨_, _, g⟩ rfl rfl
    obtain ⟨z, h1, h2, h3, -⟩ := A2.bin_same (fun x y : ℝ => x + y) (x := x) (y := ⟨_, _, g⟩) hr hc
    exact ⟨z, h1, by rw [h2, hr], by rw [h3, hc]⟩
  unfold addIsoU addIsoInt addIso
  by_cases hi : I.iso = true
  · simp only [if_pos hi]
    unfold isoPartInt isoPart
    simp only [Bool.false_eq_true, if_false]
    split_ifs
    · exact hadd _ rfl rfl
    · exact hadd _ rfl rfl
    · exact hadd _ rfl rfl
  · simp only [if_neg hi]
    split_ifs <;> exact ⟨x, rfl, hr, hc⟩

/-- `flux_down` with a beam. -/
theorem fluxDownU_beam (hb : I.beam = true) (hck : I.checkTau tau.natToReal = .ok ()) :
    ∃ F D q, I.fluxDownU w S tau = .ok (F, D, true) ∧ F.n = tau.n ∧ D.n = tau.n ∧ (∀ k, D.get k = I.rescale * I.directU w (tau.get k)) ∧
      I.addIsoU w S tau I.N I.N ⟨I.N, tau.n, fun i t => I.umPlainU w S 0 (I.N + i) (tau.get t)⟩ = .ok q ∧
      ∀ k < tau.n, F.get k = I.rescale * ((I.fluxQuad q).get k + I.directScaledU w (tau.get k) - I.directU w (tau.get k)) := by
  obtain ⟨z, h1, h2, h3⟩ := addIsoU_rows (I := I) (w := w) (S := S) (tau := tau) (row0 := I.N) (rows := I.N)
    (x := ⟨I.N, tau.n, fun i t => I.umPlainU w S 0 (I.N + i) (tau.get t)⟩) rfl rfl
  unfold fluxDownU
  rw [hck]
  simp only [bind, Except.bind, h1, if_pos hb]
  obtain ⟨d1, e1, e2, e3⟩ := A1.bin_same (fun x y : ℝ => x + y) (x := I.fluxQuad z) (y := ⟨tau.n, fun t => I.directScaledU w (tau.get t)⟩) h3
  rw [e1]
  simp only
  obtain ⟨d2, f1, f2, f3⟩ := A1.bin_same (fun x y : ℝ => x - y) (x := d1) (y := ⟨tau.n, fun t => I.directU w (tau.get t)⟩) (by rw [e2]; exact h3)
  rw [f1]
  simp only
  have hn : (I.fluxQuad z).n = tau.n := h3
  refine ⟨_, _, z, rfl, by simp only [A1.map]; rw [f2, e2, hn], rfl, fun _ => rfl, rfl, fun t ht => ?_⟩
  simp only [A1.map]
  rw [f3 t (by rw [e2, hn]; exact ht), e3 t (by rw [hn]; exact ht)]

theorem addIsoU_scaled (hs : ∃ k < I.NLayers, I.scale k ≠ 1) {row0 rows : ℕ} {x : A2 ℝ} :
    I.addIsoU w S tau row0 rows x = I.addIso S tau.natToReal false row0 rows x := by
  unfold addIsoU addIsoInt isoPartInt addIso
  rw [if_pos hs, natToInt_toReal]
  split_ifs <;> rfl

end AsmIn

theorem scaled_iff (h : pydisort E J a = .ok R) : (∃ k < R.I.NLayers, R.I.scale k ≠ 1) ↔ ¬ Unscaled a := by
  obtain ⟨hacc, O, r, hO, hr, hI, -⟩ := pydisort_ok h
  have hs := Args.optics_spec hacc hO
  unfold Unscaled
  push Not
  rw [hI]
  constructor
  · rintro ⟨k, hk, h1⟩
    refine ⟨k, hk, ?_⟩
    rw [← hs.scale k hk]; exact h1
  · rintro ⟨k, hk, h1⟩
    refine ⟨k, hk, ?_⟩
    change O.scale k ≠ 1
    rw [hs.scale k hk]; exact h1

/-- The depths as floats. -/
theorem asFloats_natToInt (tau : A1 ℕ) : asFloats tau.natToInt = tau.natToReal := natToInt_toReal tau

/-- **C135, as far as it is true.** Suppose the powers formed by `_mathscr_v` do not wrap around. Then unsigned depths give the same `u0`, `flux_up` and (without intensity corrections) `u` as the same depths
as floats if there is no beam or a layer is delta-M scaled, and the same `flux_down` if there is no beam. With a beam and delta-M scaling the diffuse and the direct downward flux still have the right sum.
Missing: the downward fluxes with a beam, everything with a beam and without delta-M scaling; see `C135_false`. -/
theorem C135_partial (h : pydisort E J a = .ok R) (hsafe : NoSource a ∨ ¬ Unscaled a ∨ 64 ≤ w ∨ PowersFit (a.s.c - 1) tau.natToInt) :
    (¬ 0 < a.I0 ∨ ¬ Unscaled a →
      SameOutcome A2.Same (R.u0U w tau) (R.u0 tau.natToReal false) ∧
      SameOutcome A1.Same (R.fluxUpU w tau) (R.fluxUp tau.natToReal false) ∧
      ∀ phi, a.NTcor = false → SameOutcome A3.Same (R.uU w tau phi) (R.u tau.natToReal phi false)) ∧
    (¬ 0 < a.I0 → SameOutcome SameDown (R.fluxDownU w tau) (R.fluxDown tau.natToReal false)) ∧
    (0 < a.I0 → ¬ Unscaled a → SameOutcome (fun x y => x.1.n = y.1.n ∧ x.2.1.n = y.2.1.n ∧ x.2.2 = y.2.2 ∧ ∀ k < tau.n, x.1.get k + x.2.1.get k = y.1.get k + y.2.1.get k)
      (R.fluxDownU w tau) (R.fluxDown tau.natToReal false)) := by
  have hsafe' : w < 64 → NoSource a ∨ ¬ Unscaled a ∨ PowersFit (if false = true then a.s.c else a.s.c - 1) tau.natToInt := fun hw => by
    rcases hsafe with h1 | h1 | h1 | h1
    · exact Or.inl h1
    · exact Or.inr (Or.inl h1)
    · omega
    · exact Or.inr (Or.inr h1)
  have hb : ¬ 0 < a.I0 ∨ ¬ Unscaled a → R.I.beam = false ∨ ∃ k < R.I.NLayers, R.I.scale k ≠ 1 := by
    rintro (h1 | h1)
    · left
      rw [← Bool.not_eq_true, beam_iff h]; exact h1
    · exact Or.inr ((scaled_iff h).2 h1)
  refine ⟨fun h1 => ?_, fun h1 => ?_, fun h1 h2 => ?_⟩
  · refine ⟨?_, ?_, fun phi hnt => ?_⟩
    · unfold Solved.u0U
      rw [AsmIn.u0U_eq (hb h1)]
      split_ifs with hw
      · have := (C128_partial h (hsafe' hw)).1
        rw [asFloats_natToInt] at this
        exact this
      · exact SameOutcome.of_eq A2.Same.refl rfl
    · unfold Solved.fluxUpU
      rw [AsmIn.fluxUpU_eq (hb h1)]
      split_ifs with hw
      · have := (C128_partial h (hsafe' hw)).2.1
        rw [asFloats_natToInt] at this
        exact this
      · exact SameOutcome.of_eq A1.Same.refl rfl
    · have hnone : R.nt = none := by
        obtain ⟨_, O, r, _, _, _, _, _, _, hn⟩ := pydisort_ok h
        refine hn fun hgate => ?_
        rw [hgate.1] at hnt
        cases hnt
      unfold Solved.uU
      rw [AsmIn.uU_eq (hb h1)]
      by_cases hw : w < 64
      · have := (C128_partial h (hsafe' hw)).2.2.2 phi
        rw [asFloats_natToInt] at this
        unfold Solved.uInt at this
        rw [hnone] at this
        rw [if_pos hw]
        exact this
      · rw [if_neg hw]
        unfold Solved.u
        rw [hnone]
        exact SameOutcome.of_eq A3.Same.refl rfl
  · unfold Solved.fluxDownU
    rw [AsmIn.fluxDownU_eq (by rw [← Bool.not_eq_true, beam_iff h]; exact h1)]
    split_ifs with hw
    · have := (C128_partial h (hsafe' hw)).2.2.1
      rw [asFloats_natToInt] at this
      exact this
    · exact SameOutcome.of_eq (fun _ => ⟨A1.Same.refl _, A1.Same.refl _, rfl⟩) rfl
  · have hbeam := (beam_iff h).2 h1
    have hs := (scaled_iff h).2 h2
    rcases hck : R.I.checkTau tau.natToReal with e | ⟨⟩
    · unfold Solved.fluxDownU AsmIn.fluxDownU Solved.fluxDown AsmIn.fluxDown
      rw [hck]
      exact rfl
    · obtain ⟨F, D, q, e1, e2, e3, e4, e5, e6⟩ := AsmIn.fluxDownU_beam (w := w) (S := R.S) hbeam hck
      obtain ⟨F', D', g1, g2, g3, g4, g5⟩ := R.I.fluxDown_plain R.S hck
      rw [AsmIn.addIsoU_scaled hs] at e5
      obtain ⟨z, k1, k2, k3, k4⟩ := R.I.addIso_plain R.S tau.natToReal R.I.N R.I.N
        (x := ⟨R.I.N, tau.n, fun i t => R.I.umPlainU w R.S 0 (R.I.N + i) (tau.get t)⟩) rfl rfl
        (fun i _ t _ => AsmIn.umPlainU_eq (Or.inr hs) _ _ _)
      rw [e5] at k1
      cases k1
      unfold Solved.fluxDownU Solved.fluxDown
      rw [e1, g1]
      rw [if_pos hbeam] at g4
      refine ⟨e2.trans g2.symm, e3.trans g4.symm, hbeam.symm, fun k hk => ?_⟩
      show F.get k + D.get k = F'.get k + D'.get k
      rw [e6 k hk, e4, g3 k hk, g5 k (by rw [g4]; exact hk), if_pos hbeam, if_pos hbeam]
      have hq : (R.I.fluxQuad q).get k = ∑ i ∈ range R.I.N, (2 * Real.pi * (R.I.mu i * R.I.W i)) * R.I.val R.S 0 (tau.natToReal.get k) (R.I.N + i) := by
        simp only [AsmIn.fluxQuad]
        exact sum_congr rfl fun i hi => by rw [k4 i (mem_range.1 hi) k hk]
      rw [hq]
      unfold AsmIn.directScaledU AsmIn.negScaledU
      rw [if_pos hs]
      change _ = _ * (_ + (R.I.I0 * R.I.mu0 * Real.exp (-R.I.scaledTau (tau.get k) / R.I.mu0) - _)) + _ * _
      ring

/-- **C135, direct flux.** With a beam of intensity `I0` the direct flux at an unsigned depth `t > 0` is `I0 mu0 exp((2^w - t) / mu0)`. -/
theorem C135_direct (h : pydisort E J a = .ok R) (hI : 0 < a.I0) (hb : FitsIn w tau) (ht : InRange a tau.natToReal) :
    ∃ diffuse, ReturnsFluxes (R.fluxDownU w tau) tau.n diffuse
      (fun k => if tau.get k = 0 then a.I0 * a.mu0 else a.I0 * a.mu0 * Real.exp ((2 ^ w - tau.get k) / a.mu0)) := by
  obtain ⟨hacc, O, r, hO, hr, hR, -⟩ := pydisort_ok h
  have hres : Rescalable a := Or.inl (Or.inl hI)
  have hs := Args.optics_spec hacc hO
  have hI0 : R.I.rescale * R.I.I0 = a.I0 := by rw [hR]; exact rescale_I0 hacc hs hr hres
  have hmu : R.I.mu0 = a.mu0 := by rw [hR]; rfl
  have hck : R.I.checkTau tau.natToReal = .ok () := by
    unfold AsmIn.checkTau
    rw [if_neg]
    rintro (⟨k, hk, h1⟩ | ⟨k, hk, h1⟩)
    · exact absurd h1 (not_lt.2 (ht k hk).1)
    · refine absurd h1 (not_lt.2 ?_)
      rw [hR]
      exact (ht k hk).2
  obtain ⟨F, D, q, e1, e2, e3, e4, -, -⟩ := AsmIn.fluxDownU_beam (w := w) (S := R.S) ((beam_iff h).2 hI) hck
  refine ⟨F.get, F, D, true, e1, e2, fun _ _ => rfl, by rw [if_pos rfl]; exact e3, fun k hk => ?_⟩
  rw [if_pos rfl, e4]
  unfold AsmIn.directU
  rw [hmu, ← mul_assoc, ← mul_assoc, hI0]
  beta_reduce
  by_cases h0 : tau.get k = 0
  · rw [if_pos h0, h0, negU_zero]
    simp
  · rw [if_neg h0, negU_of_pos (Nat.pos_of_ne_zero h0) (hb k hk)]

/-- **C135, negation.** With a beam, below the top of the atmosphere, the direct flux is never right for unsigned depths: it is larger than at the top, whereas for floats it is smaller. -/
theorem C135_false (h : pydisort E J a = .ok R) (hI : 0 < a.I0) {t : ℕ} (h0 : 0 < t) (hw : t < 2 ^ w) (ht : (t : ℝ) ≤ bottom a) :
    ∃ A B : A1 ℝ × A1 ℝ × Bool, R.fluxDownU w ⟨1, fun _ => t⟩ = .ok A ∧ R.fluxDown ⟨1, fun _ => (t : ℝ)⟩ false = .ok B ∧
      B.2.1.get 0 < a.I0 * a.mu0 ∧ a.I0 * a.mu0 < A.2.1.get 0 := by
  obtain ⟨hacc, -⟩ := pydisort_ok h
  have hmu : 0 < a.mu0 := (hacc.beamDir hI).1.1
  have hin : InRange a (⟨1, fun _ => t⟩ : A1 ℕ).natToReal := fun _ _ => ⟨Nat.cast_nonneg t, ht⟩
  obtain ⟨d, F, D, fl, e1, e2, e3, e4, e5⟩ := C135_direct h hI (w := w) (tau := ⟨1, fun _ => t⟩) (fun _ _ => hw) hin
  obtain ⟨d', F', D', fl', g1, g2, g3, g4, g5⟩ := C10_direct_flux h (Or.inl (Or.inl hI)) ⟨1, fun _ => (t : ℝ)⟩ hin
  refine ⟨_, _, e1, g1, ?_, ?_⟩
  · have := g5 0 one_pos
    rw [ite_self] at this
    show D'.get 0 < _
    rw [this]
    have h2 : Real.exp (-(t : ℝ) / a.mu0) < 1 := by
      rw [← Real.exp_zero]
      exact Real.exp_lt_exp.2 (div_neg_of_neg_of_pos (neg_neg_of_pos (Nat.cast_pos.2 h0)) hmu)
    exact mul_lt_of_lt_one_right (mul_pos hI hmu) h2
  · have := e5 0 one_pos
    rw [ite_self] at this
    beta_reduce at this
    rw [if_neg (show ¬ t = 0 by omega)] at this
    show _ < D.get 0
    rw [this]
    refine lt_mul_of_one_lt_right (mul_pos hI hmu) (Real.one_lt_exp_iff.2 (div_pos ?_ hmu))
    have : (t : ℝ) < 2 ^ w := by exact_mod_cast hw
    linarith

/-- The hypotheses are met: a call with a beam, delta-M scaling and internal sources, whose atmosphere contains the depth 1. -/
example {n : ℕ} (hn : 0 < n) (J : Junk) : ∃ (a : Args) (R : Solved), pydisort refExt J a = .ok R ∧ 0 < a.I0 ∧ ((1 : ℕ) : ℝ) ≤ bottom a ∧ ¬ Unscaled a ∧ ¬ NoSource a := by
  obtain ⟨x, h0, h1, hwp⟩ := demoFull_wellPosed hn
  obtain ⟨R, hR⟩ := C65_well_posed_call_returns hwp J
  refine ⟨_, R, hR, one_pos, ?_, ?_, fun h => ?_⟩
  · norm_num [bottom, demoFull, demoMild, demo]
  · intro h
    have := h 0 (by simp [demoFull, demoMild, demo])
    norm_num [scale, peak, demoFull, demoMild, demo] at this
  · have := h 0 (by simp [demoFull, demoMild, demo]) 0 (by simp [demoFull, demoMild, demo])
    simp [demoFull, demoMild, demo] at this

end Pydisort

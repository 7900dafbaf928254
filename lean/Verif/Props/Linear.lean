import Verif.Homogeneous
import Verif.SameEval
import Verif.Props.Invariance
import Verif.FieldsLemmas

/-!
# Properties C17, C18, C20, C64: how the results depend on the sources and on the layering
-/

namespace Pydisort
open Finset Spec

/-! ### C17 -/

section
variable {E : Ext} {J : Junk} {a : Args} {c : ℝ}

theorem timesResults (R : Solved) {s' : Mat} (h : R.I.iso = true → s' = R.I.s) :
    TimesResults c R ⟨R.I.mod (c * R.I.rescale) s', R.S, R.nt, R.onlyFlux⟩ := by
  obtain ⟨I, S, nt, o⟩ := R
  have hm := mod_facts (I := I) (s' := s') (x := c * I.rescale) S
  have hu : ∀ tau phi anti, SameOutcome (Times3 c) (Solved.uUncorrected ⟨I, S, nt, o⟩ tau phi anti)
      (Solved.uUncorrected ⟨I.mod (c * I.rescale) s', S, nt, o⟩ tau phi anti) := by
    intro tau phi anti
    obtain ⟨h1, h2, h3, h4, h5, h6, h7, h8, h9, h10, h11, h12, h13, h14⟩ := hm tau anti
    simp only [Solved.uUncorrected, AsmIn.u, AsmIn.uRaw, um0_s h, h1, h3, h4, h5, h11, h12, h14, bind, Except.bind]
    rcases I.checkTau tau with e | _
    · rfl
    simp only
    rcases I.um0 S tau anti with e | x
    · rfl
    exact ⟨rfl, rfl, rfl, fun i _ j _ k _ => mul_assoc _ _ _⟩
  refine ⟨⟨rfl, fun _ _ => rfl⟩, fun tau anti => ?_, fun tau anti => ?_, fun tau anti => ?_, fun tau phi anti => ?_⟩
  · obtain ⟨h1, h2, h3, h4, h5, h6, h7, h8, h9, h10, h11, h12, h13, h14⟩ := hm tau anti
    simp only [Solved.u0, AsmIn.u0, addIso_s h, h1, h2, h3, h14, bind, Except.bind]
    rcases I.checkTau tau with e | _
    · rfl
    simp only
    rcases I.addIso S tau anti 0 (2 * I.N) (I.u0Raw S tau anti) with e | x
    · rfl
    exact ⟨rfl, rfl, fun i _ j _ => mul_assoc _ _ _⟩
  · obtain ⟨h1, h2, h3, h4, h5, h6, h7, h8, h9, h10, h11, h12, h13, h14⟩ := hm tau anti
    simp only [Solved.fluxUp, AsmIn.fluxUp, addIso_s h, h1, h3, h4, h5, h6, h14, bind, Except.bind]
    rcases I.checkTau tau with e | _
    · rfl
    simp only
    split
    · rfl
    · exact ⟨rfl, fun i _ => mul_assoc _ _ _⟩
  · obtain ⟨h1, h2, h3, h4, h5, h6, h7, h8, h9, h10, h11, h12, h13, h14⟩ := hm tau anti
    simp only [Solved.fluxDown, AsmIn.fluxDown, addIso_s h, h1, h3, h6, h7, h8, h9, h10, h14, bind, Except.bind]
    rcases I.checkTau tau with e | _
    · rfl
    simp only
    rcases I.fluxDownRaw S tau anti with e | raw
    · rfl
    simp only
    rcases I.addIso S tau anti I.N I.N raw with e | m
    · rfl
    simp only
    by_cases hb : I.beam = true
    · rw [if_pos hb, if_pos hb]
      rcases A1.bin (fun x y => x + y) (I.fluxQuad m) (tau.map (I.directScaled anti)) with e | d1
      · rfl
      simp only
      rcases A1.bin (fun x y => x - y) d1 (tau.map (I.direct anti)) with e | d2
      · rfl
      exact ⟨⟨rfl, fun i _ => mul_assoc _ _ _⟩, ⟨rfl, fun i _ => mul_assoc _ _ _⟩, rfl⟩
    · rw [if_neg hb, if_neg hb]
      exact ⟨⟨rfl, fun i _ => mul_assoc _ _ _⟩, ⟨rfl, fun i _ => mul_assoc _ _ _⟩, rfl⟩
  · unfold Solved.u
    simp only
    by_cases ho : o = true
    · rw [if_pos ho, if_pos ho]; rfl
    rw [if_neg ho, if_neg ho]
    cases nt with
    | none => exact hu tau phi anti
    | some n =>
      have := hu tau phi anti
      obtain ⟨h1, h2, h3, h4, h5, h6, h7, h8, h9, h10, h11, h12, h13, h14⟩ := hm tau anti
      simp only [Solved.uCorrected, h13, h14, bind, Except.bind]
      rcases hx : Solved.uUncorrected ⟨I, S, some n, o⟩ tau phi anti with e | x <;>
        rcases hy : Solved.uUncorrected ⟨I.mod (c * I.rescale) s', S, some n, o⟩ tau phi anti with e' | y
      · rw [hx, hy] at this; exact this
      · rw [hx, hy] at this; exact this.elim
      · rw [hx, hy] at this; exact this.elim
      · rw [hx, hy] at this
        obtain ⟨e0, e1, e2, e3⟩ := this
        simp only
        rcases n.corr tau phi anti fun t => I.layer (tau.get t) with e | v
        · rfl
        simp only [addSqueezed, ← e0, ← e1, ← e2]
        split_ifs
        · refine ⟨rfl, rfl, rfl, fun i hi j hj k hk => ?_⟩
          simp only
          rw [e3 i hi j hj k hk]; ring
        · refine ⟨rfl, rfl, rfl, fun i hi j hj k hk => ?_⟩
          simp only
          rw [e3 i hi j hj k hk]; ring
        · rfl

/-- **C17.** Multiplying the beam intensity, both boundary values and the internal source by the same positive number
multiplies every returned quantity by that number: `u`, `u0`, both fluxes (diffuse and direct) and their
antiderivatives. This is for every call with some light, and includes every exceptional outcome. -/
theorem C17_homogeneous (E : Ext) (J : Junk) (hc : 0 < c) (hlit : Lit a) :
    SameOutcome (TimesResults c) (pydisort E J a) (pydisort E J (brighter c a)) := by
  unfold pydisort prepare
  rw [validate_times hc, optics_times]
  rcases hv : a.validate with e | _
  · rfl
  have hacc := Args.validate_iff.1 hv
  simp only [bind, Except.bind]
  rw [show (brighter c a).quad E = a.quad E from rfl]
  rcases a.quad E with e | q
  · rfl
  simp only
  rcases hO : a.optics with e | O
  · rfl
  simp only [Except.map]
  rw [rescaleFactor_times hc]
  rcases hr : a.rescaleFactor O with e | r
  · rfl
  simp only [Except.map, pure, Except.pure]
  have hr0 : r ≠ 0 := ((rescale_spec hacc (Args.optics_spec hacc hO) hr).2.2 hlit).ne'
  obtain ⟨s', hs, hI⟩ := asmIn_times (a := a) hc (mu := q.1.get) (W := q.2.get) (O := O) hr0
  have hs' : (a.asmIn q.1.get q.2.get O r).iso = true → s' = (a.asmIn q.1.get q.2.get O r).s := by
    intro hi; exact hs (by simpa [Args.asmIn] using hi)
  rw [hI, solveAll_s E J _ s' _ hs', ntIn_times hc hr0]
  rcases solveAll E J (a.asmIn q.1.get q.2.get O r) with e | S
  · rfl
  have hg : (brighter c a).NTGate ↔ a.NTGate := by
    unfold Args.NTGate; rw [beam_times hc]; rfl
  classical
  have key := timesResults (c := c) ⟨a.asmIn q.1.get q.2.get O r, S, if a.NTGate then some (a.ntIn q.1.get O r) else none,
    a.onlyFlux⟩ hs'
  simp only [hg]
  exact key

/-- The hypotheses are met by calls that return, for every number of streams. -/
example {n : ℕ} (hn : 0 < n) (J : Junk) : ∃ (x : ℝ) (R R' : Solved), Lit (demo n x) ∧ pydisort refExt J (demo n x) = .ok R ∧
    pydisort refExt J (brighter 3 (demo n x)) = .ok R' ∧ TimesResults 3 R R' := by
  obtain ⟨x, R, h1, _⟩ := demo_call hn J
  have hl : Lit (demo n x) := Or.inl one_pos
  have := C17_homogeneous refExt J (show (0 : ℝ) < 3 by norm_num) hl
  rw [h1] at this
  rcases h2 : pydisort refExt J (brighter 3 (demo n x)) with e | R'
  · rw [h2] at this; exact this.elim
  · rw [h2] at this; exact ⟨x, R, R', hl, h1, h2, this⟩

end
/-! ### C18 -/

section
variable {E : Ext} {a : Args} {S S' S₁ S₂ : Sources}

/-- The optical properties do not depend on the sources. -/
theorem optics_under {O O' : Optics} (h : (under a S).optics = .ok O) (h' : (under a S').optics = .ok O') :
    O.scale = O'.scale ∧ O.tau0 = O'.tau0 ∧ O.thick = O'.thick ∧ O.omega = O'.omega ∧ O.wLeg = O'.wLeg := by
  have key : ∀ (T : Sources) (Q : Optics), (under a T).optics = .ok Q →
      (∃ k < a.fArr.n, 0 < a.fArr.get k) ∧ Q.scale = a.scale ∧ Q.tau0 = a.tau0 ∧ (Q.thick = fun k => a.scale k * a.thick k) ∧
        (Q.omega = fun k => (1 - a.fArr.get k) / a.scale k * a.omega.get k) ∧
        (Q.wLeg = fun l k => (a.legFix l k - a.fArr.get l) / (1 - a.fArr.get l) * (2 * (k : ℝ) + 1)) ∨
      (¬ ∃ k < a.fArr.n, 0 < a.fArr.get k) ∧ (Q.scale = fun _ => 1) ∧ (Q.tau0 = fun k => if k = 0 then 0 else a.tauArr.get (k - 1))
        ∧ Q.thick = a.thick ∧ Q.omega = a.omega.get ∧ (Q.wLeg = fun l k => a.legFix l k * (2 * (k : ℝ) + 1)) := by
    intro T Q hQ
    unfold Args.optics at hQ
    by_cases hf : ∃ k < a.fArr.n, 0 < a.fArr.get k
    · rw [if_pos (show ∃ k < (under a T).fArr.n, 0 < (under a T).fArr.get k from hf)] at hQ
      refine Or.inl ⟨hf, ?_⟩
      rcases h1 : affineTransform (under a T).s ⟨(under a T).NLayers, (under a T).scale⟩
        ⟨(under a T).NLayers, (under a T).translation⟩ with e | s1
      · rw [h1] at hQ; cases hQ
      rw [h1] at hQ; simp only [bind, Except.bind] at hQ
      rcases h2 : A2.bin (fun x y => x / y) s1 (A1.col ⟨(under a T).NLayers, (under a T).scale⟩) with e | s2
      · rw [h2] at hQ; cases hQ
      rw [h2] at hQ; simp only at hQ
      rcases h3 : A2.bin (fun x y => x * y) s2 (A1.col ⟨(under a T).NLayers, fun k => 1 - (under a T).omega.get k⟩) with e | s3
      · rw [h3] at hQ; cases hQ
      rw [h3] at hQ; cases hQ
      exact ⟨rfl, rfl, rfl, rfl, rfl⟩
    · rw [if_neg (show ¬ ∃ k < (under a T).fArr.n, 0 < (under a T).fArr.get k from hf)] at hQ
      refine Or.inr ⟨hf, ?_⟩
      rcases h3 : A2.bin (fun x y => x * y) (under a T).s (A1.col ⟨(under a T).NLayers, fun k => 1 - (under a T).omega.get k⟩) with e | s3
      · rw [h3] at hQ; cases hQ
      rw [h3] at hQ; cases hQ
      exact ⟨rfl, rfl, rfl, rfl, rfl⟩
  rcases key S O h with ⟨f1, a1, a2, a3, a4, a5⟩ | ⟨f1, a1, a2, a3, a4, a5⟩ <;>
    rcases key S' O' h' with ⟨f2, b1, b2, b3, b4, b5⟩ | ⟨f2, b1, b2, b3, b4, b5⟩
  · exact ⟨a1.trans b1.symm, a2.trans b2.symm, a3.trans b3.symm, a4.trans b4.symm, a5.trans b5.symm⟩
  · exact absurd f1 f2
  · exact absurd f2 f1
  · exact ⟨a1.trans b1.symm, a2.trans b2.symm, a3.trans b3.symm, a4.trans b4.symm, a5.trans b5.symm⟩

theorem beamSource_under (a : Args) (S : Sources) (m l : ℕ) (x : ℝ) :
    beamSource (under a S) m l x = S.I0 * beamSource { a with I0 := 1 } m l x := by
  unfold beamSource
  by_cases h : Significant (omegaStar a l) (nLeg a) (legStar a l) m
  · rw [if_pos (show Significant (omegaStar (under a S) l) (nLeg (under a S)) (legStar (under a S) l) m from h),
      if_pos (show Significant (omegaStar { a with I0 := 1 } l) (nLeg { a with I0 := 1 }) (legStar { a with I0 := 1 } l) m from h)]
    change beamX (omegaStar a l) (nLeg a) (legStar a l) S.I0 a.mu0 m x = S.I0 * beamX (omegaStar a l) (nLeg a) (legStar a l) 1 a.mu0 m x
    unfold beamX; ring
  · rw [if_neg (show ¬ Significant (omegaStar (under a S) l) (nLeg (under a S)) (legStar (under a S) l) m from h),
      if_neg (show ¬ Significant (omegaStar { a with I0 := 1 } l) (nLeg { a with I0 := 1 }) (legStar { a with I0 := 1 } l) m from h),
      mul_zero]

theorem rteUser_under (a : Args) (S : Sources) (mu w : Vec) (m l : ℕ) (t : ℝ) (u : ℕ → ℝ) (i : ℕ) :
    rteUser (under a S) mu w m l t u i = scale a l * (u i - ∑ j ∈ range (2 * nHalf a), streamW (nHalf a) w j *
        kernel a m l (stream (nHalf a) mu i) (stream (nHalf a) mu j) * u j
      - S.I0 * (beamSource { a with I0 := 1 } m l (stream (nHalf a) mu i) * Real.exp (-tauStar a l t / a.mu0)))
      - if m = 0 then (1 - a.omega.get l) * source (under a S) l t else 0 := by
  unfold rteUser rteRHS
  rw [beamSource_under]
  change scale a l * (u i - ∑ j ∈ range (2 * nHalf a), streamW (nHalf a) w j *
        kernel a m l (stream (nHalf a) mu i) (stream (nHalf a) mu j) * u j - S.I0 * _ * Real.exp (-tauStar a l t / a.mu0) - 0)
      - _ = _
  rw [sub_zero, mul_assoc S.I0]
  rfl

theorem isSolution_add (hs : SumOf a S₁ S₂ S) {mu w : Vec} {rho : ℝ → ℝ → ℝ} {m : ℕ} {V₁ V₂ : ℝ → ℕ → ℝ}
    (h₁ : IsSolution (under a S₁) mu w rho m V₁) (h₂ : IsSolution (under a S₂) mu w rho m V₂) :
    IsSolution (under a S) mu w rho m (fun t i => V₁ t i + V₂ t i) := by
  refine ⟨fun i hi => (h₁.cont i hi).add (h₂.cont i hi), fun l hl t ht0 ht1 i hi => ?_, fun i hi => ?_, fun i hi => ?_⟩
  · obtain ⟨d₁, g₁, e₁⟩ := h₁.ode l hl t ht0 ht1 i hi
    obtain ⟨d₂, g₂, e₂⟩ := h₂.ode l hl t ht0 ht1 i hi
    refine ⟨d₁ + d₂, g₁.add g₂, ?_⟩
    change stream (nHalf a) mu i * (d₁ + d₂) = _
    change stream (nHalf a) mu i * d₁ = _ at e₁
    change stream (nHalf a) mu i * d₂ = _ at e₂
    rw [rteUser_under] at e₁ e₂ ⊢
    rw [mul_add, e₁, e₂, hs.beam, hs.source l hl t]
    simp only [mul_add, sum_add_distrib]
    split_ifs <;> ring
  · have e₁ := h₁.top i hi
    have e₂ := h₂.top i hi
    change V₁ 0 (nHalf a + i) + V₂ 0 (nHalf a + i) = bcVal S.bneg m i
    change V₁ 0 (nHalf a + i) = bcVal S₁.bneg m i at e₁
    change V₂ 0 (nHalf a + i) = bcVal S₂.bneg m i at e₂
    rw [e₁, e₂, hs.top]
  · have e₁ := h₁.bot i hi
    have e₂ := h₂.bot i hi
    change V₁ (bottom a) i + V₂ (bottom a) i = bcVal S.bpos m i + if m < a.bdrf.length then _ else 0
    change V₁ (bottom a) i = bcVal S₁.bpos m i + if m < a.bdrf.length then _ else 0 at e₁
    change V₂ (bottom a) i = bcVal S₂.bpos m i + if m < a.bdrf.length then _ else 0 at e₂
    rw [e₁, e₂, hs.bottom]
    by_cases hm : m < a.bdrf.length
    · simp only [if_pos hm]
      unfold reflected
      change _ = bcVal S₁.bpos m i + bcVal S₂.bpos m i + ((1 + if m = 0 then 1 else 0) * ∑ j ∈ range (nHalf a),
        w j * mu j * rho (mu i) (mu j) * (V₁ (bottom a) (nHalf a + j) + V₂ (bottom a) (nHalf a + j))
        + a.mu0 * S.I0 / Real.pi * rho (mu i) a.mu0 * Real.exp (-bdryStar a a.tauArr.n / a.mu0))
      change bcVal S₁.bpos m i + ((1 + if m = 0 then 1 else 0) * ∑ j ∈ range (nHalf a),
        w j * mu j * rho (mu i) (mu j) * V₁ (bottom a) (nHalf a + j)
        + a.mu0 * S₁.I0 / Real.pi * rho (mu i) a.mu0 * Real.exp (-bdryStar a a.tauArr.n / a.mu0))
        + (bcVal S₂.bpos m i + ((1 + if m = 0 then 1 else 0) * ∑ j ∈ range (nHalf a),
        w j * mu j * rho (mu i) (mu j) * V₂ (bottom a) (nHalf a + j)
        + a.mu0 * S₂.I0 / Real.pi * rho (mu i) a.mu0 * Real.exp (-bdryStar a a.tauArr.n / a.mu0))) = _
      rw [hs.beam]
      simp only [mul_add, sum_add_distrib]
      ring
    · simp only [if_neg hm]; ring

open Classical in
/-- The correction per unit of beam intensity. -/
noncomputable def ntUnit (E : Ext) (a : Args) (O : Optics) (t ph : ℝ) (i : ℕ) : ℝ :=
  if a.NTcor = true ∧ a.onlyFlux = false ∧ (∃ k < a.fArr.n, 0 < a.fArr.get k) ∧ a.nLeg < a.NLegAll ∧
      ∃ k < a.omega.n, 0 < a.omega.get k then
    1 / (4 * Real.pi) * ({ a.ntIn (node E a) O 0 with I0div4pi := 1 } : NTIn).corrVal false i
      (argmaxTrue a.tauArr.n (fun k => t ≤ a.tauArr.get k)) t ph
  else 0

theorem ntVal_under {J : Junk} {R : Solved} (h : pydisort E J (under a S) = .ok R) (hres : Rescalable (under a S)) {O : Optics}
    (hO : (under a S).optics = .ok O) (t ph : ℝ) (i : ℕ) : ntVal R t ph i = S.I0 * ntUnit E a O t ph i := by
  obtain ⟨hacc, O', r, hO', hr, hI, _, _, hg1, hg2⟩ := pydisort_ok h
  rw [hO] at hO'; cases hO'
  have hI0 := rescale_I0 hacc (Args.optics_spec hacc hO) hr hres
  have hb : 0 ≤ S.I0 := hacc.beam
  unfold ntVal ntUnit
  by_cases hg : (under a S).NTGate
  · rw [hg1 hg, if_pos ⟨hg.1, hg.2.1, hg.2.2.2⟩]
    simp only
    rw [corrVal_linear, hI]
    change r * (S.I0 / (under a S).rescaleDiv r / (4 * Real.pi) * _) = _
    change r * (S.I0 / (under a S).rescaleDiv r) = S.I0 at hI0
    calc _ = (r * (S.I0 / (under a S).rescaleDiv r)) * (1 / (4 * Real.pi) * ({ a.ntIn (node E a) O 0 with I0div4pi := 1 } : NTIn).corrVal
          false i (argmaxTrue a.tauArr.n (fun k => t ≤ a.tauArr.get k)) t ph) := by
          rw [div_eq_mul_one_div _ (4 * Real.pi)]
          ring_nf
          rfl
      _ = _ := by rw [hI0]
  · rw [hg2 hg]
    simp only
    split_ifs with hG
    · have : ¬ 0 < S.I0 := fun hp => hg ⟨hG.1, hG.2.1, hp, hG.2.2⟩
      rw [le_antisymm (not_lt.mp this) hb, zero_mul]
    · rw [mul_zero]

theorem ntUnit_congr {O O' : Optics} (h : O.scale = O'.scale ∧ O.tau0 = O'.tau0 ∧ O.thick = O'.thick ∧ O.omega = O'.omega ∧ O.wLeg = O'.wLeg) :
    ntUnit E a O = ntUnit E a O' := by
  have : ({ a.ntIn (node E a) O 0 with I0div4pi := 1 } : NTIn) = { a.ntIn (node E a) O' 0 with I0div4pi := 1 } := by
    unfold Args.ntIn
    simp only [h.1, h.2.1, h.2.2.1, h.2.2.2.1, h.2.2.2.2]
  funext t ph i
  unfold ntUnit
  rw [this]

theorem hemiFlux_add (a : Args) (mu w v v' : Vec) :
    hemiFlux a mu w (fun i => v i + v' i) = hemiFlux a mu w v + hemiFlux a mu w v' := by
  unfold hemiFlux
  rw [← mul_add, ← sum_add_distrib]
  congr 1
  exact sum_congr rfl fun i _ => by ring

theorem surface_exists {mu w : Vec} (h : PassiveSurface a mu w) :
    ∃ rho : ℕ → ℝ → ℝ → ℝ, ∀ m < nFourier a, ∀ M, a.bdrf[m]? = some M → Represents M (rho m) := by
  have : ∀ m, ∃ r : ℝ → ℝ → ℝ, m < nFourier a → ∀ M, a.bdrf[m]? = some M → Represents M r := by
    intro m
    by_cases hm : m < nFourier a
    · cases hM : a.bdrf[m]? with
      | none => exact ⟨fun _ _ => 0, fun _ M hM' => by cases hM'⟩
      | some M =>
        obtain ⟨r, hr, _⟩ := h m hm M hM
        exact ⟨r, fun _ M' hM' => by cases hM'; exact hr⟩
    · exact ⟨fun _ _ => 0, fun h => absurd h hm⟩
  choose r hr using this
  exact ⟨r, hr⟩

/-- **C18.** Superposition: for fixed optical properties, surface and options, the results for the sum of two sets of sources are
the sums of the results: `u0`, both fluxes, and `u` with or without corrections. -/
theorem C18_superposition {J J₁ J₂ : Junk} {R R₁ R₂ : Solved} (h₁ : pydisort E J₁ (under a S₁) = .ok R₁)
    (h₂ : pydisort E J₂ (under a S₂) = .ok R₂) (h : pydisort E J (under a S) = .ok R) (hs : SumOf a S₁ S₂ S)
    (hw₁ : WellPosed E (under a S₁)) (hw₂ : WellPosed E (under a S₂)) (hw : WellPosed E (under a S))
    (hr₁ : Rescalable (under a S₁)) (hr₂ : Rescalable (under a S₂)) (hr : Rescalable (under a S)) :
    ∃ F₁ F₂, Evaluates (under a S₁) R₁ F₁ ∧ Evaluates (under a S₂) R₂ F₂ ∧ Evaluates (under a S) R (F₁.add F₂) := by
  obtain ⟨U₁, hU₁, _⟩ := C02_modes_solve_transfer_equation h₁ hw₁.sound hr₁
  obtain ⟨U₂, hU₂, _⟩ := C02_modes_solve_transfer_equation h₂ hw₂.sound hr₂
  obtain ⟨rho, hrho⟩ := surface_exists hw.surface
  have hsol : ∀ m < nFourier (under a S), IsSolution (under a S) (node E (under a S)) (weight E (under a S)) (rho m) m
      (fun t i => U₁ m t i + U₂ m t i) := fun m hm => isSolution_add hs
    (modes_isSolution h₁ hw₁.sound hr₁ hw₁.bottomBC hw₁.topBC hrho hU₁ hm)
    (modes_isSolution h₂ hw₂.sound hr₂ hw₂.bottomBC hw₂.topBC hrho hU₂ hm)
  have hU := C66_code_returns_the_solution h hw hr hrho hsol
  refine ⟨_, _, evaluates h₁ hr₁ hU₁, evaluates h₂ hr₂ hU₂, ?_⟩
  have key : fieldsOf E (under a S) R (fun m t i => U₁ m t i + U₂ m t i)
      = (fieldsOf E (under a S₁) R₁ U₁).add (fieldsOf E (under a S₂) R₂ U₂) := by
    obtain ⟨_, O, _, hO, _⟩ := pydisort_ok h
    obtain ⟨_, O₁, _, hO₁, _⟩ := pydisort_ok h₁
    obtain ⟨_, O₂, _, hO₂, _⟩ := pydisort_ok h₂
    have hlay : ∀ T, layOf (under a T) = layOf a := fun _ => rfl
    unfold fieldsOf Fields.add
    simp only [Fields.mk.injEq, hlay]
    refine ⟨trivial, ?_, ?_, ?_, ?_⟩
    · funext t; exact hemiFlux_add a _ _ _ _
    · funext t
      change hemiFlux a (node E a) (weight E a) (fun i => U₁ 0 t (nHalf a + i) + U₂ 0 t (nHalf a + i)) + (S.I0 * a.mu0 * Real.exp (-tauStar a (layOf a t) t / a.mu0) - S.I0 * a.mu0 * Real.exp (-t / a.mu0))
        = hemiFlux a (node E a) (weight E a) (fun i => U₁ 0 t (nHalf a + i)) + (S₁.I0 * a.mu0 * Real.exp (-tauStar a (layOf a t) t / a.mu0) - S₁.I0 * a.mu0 * Real.exp (-t / a.mu0))
        + (hemiFlux a (node E a) (weight E a) (fun i => U₂ 0 t (nHalf a + i)) + (S₂.I0 * a.mu0 * Real.exp (-tauStar a (layOf a t) t / a.mu0) - S₂.I0 * a.mu0 * Real.exp (-t / a.mu0)))
      rw [hemiFlux_add, hs.beam]; ring
    · funext t
      change S.I0 * a.mu0 * Real.exp (-t / a.mu0) = S₁.I0 * a.mu0 * Real.exp (-t / a.mu0) + S₂.I0 * a.mu0 * Real.exp (-t / a.mu0)
      rw [hs.beam]; ring
    · funext t ph i
      rw [ntVal_under h hr hO, ntVal_under h₁ hr₁ hO₁, ntVal_under h₂ hr₂ hO₂, ntUnit_congr (optics_under hO₁ hO),
        ntUnit_congr (optics_under hO₂ hO), hs.beam]
      change (∑ m ∈ range (nFourier a), (U₁ m t i + U₂ m t i) * Real.cos (m * (a.phi0 - ph))) + _
        = (∑ m ∈ range (nFourier a), U₁ m t i * Real.cos (m * (a.phi0 - ph))) + _
          + ((∑ m ∈ range (nFourier a), U₂ m t i * Real.cos (m * (a.phi0 - ph))) + _)
      simp only [add_mul, sum_add_distrib]
      ring
  rw [← key]
  exact evaluates h hr hU

theorem wellPosed_under (h : WellPosed E a) (hI : 0 ≤ S.I0) (hI' : 0 < S.I0 → 0 < a.I0) (hp : BCShape (nHalf a) S.bpos)
    (hn : BCShape (nHalf a) S.bneg) (hp' : Azimuthless S.bpos) (hn' : Azimuthless S.bneg) (hr : S.s.r = a.tauArr.n)
    (hd : S.s.c ≤ 21 := by exact Nat.le_of_ble_eq_true rfl) : WellPosed E (under a S) where
  accepted := { h.accepted with
    beam := hI
    beamDir := fun h' => h.accepted.beamDir (hI' h')
    bottom := hp
    topBC := hn
    sourceRows := Or.inr hr }
  gauss := h.gauss
  eig := h.eig
  peak := h.peak
  dissipates := h.dissipates
  beam := fun h' => h.beam (hI' h')
  surface := h.surface
  bottomBC := hp'
  topBC := hn'
  sourceShape := Or.inr hr
  degree := Or.inr hd
  angles := h.angles

/-- The hypotheses are met, for every number of streams: all the sources of `demo`, plus the same without the beam and with
uniform boundary values. -/
example {n : ℕ} (hn : 0 < n) (J : Junk) : ∃ (x : ℝ) (S S₁ S₂ : Sources) (R R₁ R₂ : Solved),
    pydisort refExt J (under (demo n x) S₁) = .ok R₁ ∧ pydisort refExt J (under (demo n x) S₂) = .ok R₂ ∧
    pydisort refExt J (under (demo n x) S) = .ok R ∧ SumOf (demo n x) S₁ S₂ S ∧
    (∀ T, T = S ∨ T = S₁ ∨ T = S₂ → WellPosed refExt (under (demo n x) T) ∧ Rescalable (under (demo n x) T)) := by
  obtain ⟨x, hx⟩ := demo_wellPosed hn
  have hh : nHalf (demo n x) = n := demo_nHalf x
  set S : Sources := ⟨1, .scalar 2, .vec ⟨n, fun _ => 2⟩, ⟨2, 2, fun _ _ => 2⟩⟩ with hS
  set S₁ : Sources := ⟨1, .scalar 1, .vec ⟨n, fun _ => 1⟩, ⟨2, 2, fun _ _ => 1⟩⟩ with hS₁
  set S₂ : Sources := ⟨0, .scalar 1, .vec ⟨n, fun _ => 1⟩, ⟨2, 2, fun _ _ => 1⟩⟩ with hS₂
  have key : ∀ T, T = S ∨ T = S₁ ∨ T = S₂ → WellPosed refExt (under (demo n x) T) ∧ Rescalable (under (demo n x) T) := by
    rintro T (rfl | rfl | rfl)
    · exact ⟨wellPosed_under hx zero_le_one (fun _ => one_pos) trivial (Or.inr (Or.inr hh.symm)) trivial trivial rfl,
        Or.inl (Or.inl one_pos)⟩
    · exact ⟨wellPosed_under hx zero_le_one (fun _ => one_pos) trivial (Or.inr (Or.inr hh.symm)) trivial trivial rfl,
        Or.inl (Or.inl one_pos)⟩
    · exact ⟨wellPosed_under hx le_rfl (fun h => absurd h (lt_irrefl _)) trivial (Or.inr (Or.inr hh.symm)) trivial trivial rfl,
        Or.inl (Or.inr (Or.inl one_pos))⟩
  obtain ⟨R, hR⟩ := pydisort_isOk (key S (Or.inl rfl)).1 J
  obtain ⟨R₁, hR₁⟩ := pydisort_isOk (key S₁ (Or.inr (Or.inl rfl))).1 J
  obtain ⟨R₂, hR₂⟩ := pydisort_isOk (key S₂ (Or.inr (Or.inr rfl))).1 J
  refine ⟨x, S, S₁, S₂, R, R₁, R₂, hR₁, hR₂, hR, ⟨by simp [hS, hS₁, hS₂], ?_, ?_, ?_⟩, key⟩
  · intro m i
    simp only [hS, hS₁, hS₂, bcVal]
    split_ifs <;> norm_num
  · intro m i
    simp only [hS, hS₁, hS₂, bcVal]
    split_ifs <;> norm_num
  · intro l hl t
    simp only [source, under, hS, hS₁, hS₂]
    split_ifs
    · rw [← sum_add_distrib]; exact sum_congr rfl fun _ _ => by ring
    · norm_num

end

end Pydisort

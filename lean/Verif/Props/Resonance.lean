import Verif.ResonanceLemmas
import Verif.WitnessIso
import Verif.Props.Cache
import Mathlib.Data.Set.Card

/-!
# C91: resonances of the beam with the atmosphere
-/

namespace Pydisort
open Finset Spec

variable {E : Ext} {a : Args}

/-- C91. If the problem without the beam is well posed, then at most `NFourier * NLayers * NQuad / 2` beam directions are resonant. -/
theorem C91_resonances_are_few (hw : WellPosed E (withoutBeam a)) :
    (resonances a (node E a) (weight E a)).Finite ∧
      (resonances a (node E a) (weight E a)).ncard ≤ nFourier a * a.tauArr.n * nHalf a := by
  classical
  set M : ℕ → ℕ → Matrix (Fin (nHalf a)) (Fin (nHalf a)) ℝ :=
    fun m l => toM (nHalf a) (reduced (nHalf a) (node E a) (weight E a) (kernel a m l)) with hM
  set bad : Finset ℝ := (range (nFourier a)).biUnion fun m => (range a.tauArr.n).biUnion fun l => (M m l).charpoly.roots.toFinset with hbad
  have hcard : bad.card ≤ nFourier a * a.tauArr.n * nHalf a := by
    have h1 : ∀ m l, ((M m l).charpoly.roots.toFinset).card ≤ nHalf a := fun m l =>
      (Multiset.toFinset_card_le _).trans ((Polynomial.card_roots' _).trans (by rw [Matrix.charpoly_natDegree_eq_dim, Fintype.card_fin]))
    refine card_biUnion_le.trans ((sum_le_card_nsmul _ _ (a.tauArr.n * nHalf a) fun m _ => ?_).trans (by simp [mul_assoc]))
    exact card_biUnion_le.trans ((sum_le_card_nsmul _ _ (nHalf a) fun l _ => h1 m l).trans (by simp))
  have hsub : resonances a (node E a) (weight E a) ⊆ (bad.image fun d => 1 / Real.sqrt d : Finset ℝ) := by
    rintro x ⟨⟨h0, h1⟩, m, hm, l, hl, hr⟩
    have hreg : Regular a (node E a) (weight E a) := regular_of_dissipates (a := withoutBeam a) hw.gauss hw.dissipates
    have hdet := ((resonant_iff (E := E) (a := { a with mu0 := x }) (m := m) (l := l)
      { hw.accepted with beamDir := fun h => absurd h (lt_irrefl _) } hw.sourceShape hw.gauss hw.eig hreg h0 hm hl).1 hr).2
    rw [coe_image]
    refine ⟨1 / x ^ 2, ?_, ?_⟩
    · simp only [hbad, coe_biUnion, Set.mem_iUnion, mem_coe, mem_range]
      refine ⟨m, hm, l, hl, ?_⟩
      rw [Multiset.mem_toFinset, Polynomial.mem_roots (Matrix.charpoly_monic _).ne_zero, Polynomial.IsRoot, Matrix.eval_charpoly]
      have e : Matrix.scalar (Fin (nHalf a)) (1 / x ^ 2) - M m l = -(toM (nHalf a) (fun i j => reduced (nHalf a) (node E a) (weight E a) (kernel a m l) i j
          - if i = j then 1 / x ^ 2 else 0)) := by
        ext i j
        simp only [hM, Matrix.sub_apply, Matrix.neg_apply, toM, Matrix.scalar_apply, Matrix.diagonal_apply, Fin.ext_iff]
        ring
      rw [e, Matrix.det_neg]
      exact mul_eq_zero_of_right _ hdet
    · change 1 / Real.sqrt (1 / x ^ 2) = x
      rw [show 1 / x ^ 2 = (1 / x) ^ 2 by ring, Real.sqrt_sq (by positivity), one_div_one_div]
  refine ⟨(finite_toSet _).subset hsub, ?_⟩
  calc (resonances a (node E a) (weight E a)).ncard ≤ ((bad.image fun d => 1 / Real.sqrt d : Finset ℝ) : Set ℝ).ncard :=
        Set.ncard_le_ncard hsub (finite_toSet _)
    _ = (bad.image fun d => 1 / Real.sqrt d).card := Set.ncard_coe_finset _
    _ ≤ bad.card := card_image_le
    _ ≤ _ := hcard

/-- C91. From every other direction the problem with the beam is well posed too, so that the call returns the solution (C66). -/
theorem C91_other_directions (hw : WellPosed E (withoutBeam a)) (hb : BeamInRange E a)
    (hr : a.mu0 ∉ resonances a (node E a) (weight E a)) : WellPosed E a ∧ ∀ J, ∃ R, pydisort E J a = .ok R := by
  have hw' : WellPosed E a :=
    { accepted := accepted_of_withoutBeam hw.accepted hb
      gauss := hw.gauss
      eig := hw.eig
      peak := hw.peak
      dissipates := hw.dissipates
      beam := fun _ m hm l hl hsig hdet => hr ⟨hb.direction, m, hm, l, hl,
        (resonant_iff hw.accepted hw.sourceShape hw.gauss hw.eig (regular_of_dissipates (a := withoutBeam a) hw.gauss hw.dissipates)
          hb.direction.1 hm hl).2 ⟨hsig, hdet⟩⟩
      surface := hw.surface
      bottomBC := hw.bottomBC
      topBC := hw.topBC
      sourceShape := hw.sourceShape
      degree := hw.degree
      angles := hb.angles }
  exact ⟨hw', fun J => pydisort_isOk hw' J⟩

/-- C91, the part that is true: at a resonance the call raises `LinAlgError`, provided that it is in a mode other than the zeroth or there is no
internal source. Missing: a resonance in the zeroth mode with an internal source, see `C91_division_by_zero`. -/
theorem C91_resonance_raises_partial (hw : WellPosed E (withoutBeam a)) (hb : BeamInRange E a) {m l : ℕ} (hm : m < nFourier a) (hl : l < a.tauArr.n)
    (hr : Resonant a (node E a) (weight E a) m l) (hms : m ≠ 0 ∨ NoSource a) (J : Junk) : pydisort E J a = .error .linAlgError := by
  have hacc := accepted_of_withoutBeam hw.accepted hb
  obtain ⟨O, r, p, hs, hp⟩ := prepare_isOk (E := E) hacc hw.sourceShape hb.angles
  have hF := (asm_good_of (r := r) hacc hs hw.gauss hw.eig (regular_of_dissipates (a := withoutBeam a) hw.gauss hw.dissipates)).F
  have hgen : genSol E J.gen (a.asm E O r).genIn = .error .linAlgError := by
    rcases h : genSol E J.gen (a.asm E O r).genIn with e | out
    · rw [genSol_error h]
    · exfalso
      have hsp := genSol_spec hF h
      have hm' : m < (a.asm E O r).NFourier := by rw [← nFourier_eq] at hm; exact hm
      have hbt : (a.asm E O r).beam = true := by simpa [Args.asmIn, Args.Beam] using hb.intensity
      have hiso : ¬ (m = 0 ∧ (a.asm E O r).iso = true) := by
        rintro ⟨h1, h2⟩
        have h3 : a.Iso := by simpa [Args.asmIn] using h2
        exact Args.iso_iff.1 h3 (hms.resolve_left (not_not.2 h1))
      obtain ⟨A, hA, hdet, _⟩ := hsp.beamSolve hbt m hm' l hl ((asm_scatters hs hl m).2 hr.1) hiso
      apply hdet
      refine (congrArg Matrix.det ?_).trans (resonant_singular (r := r) hs hw.gauss hl hr)
      ext i j
      exact fullA_eq hA i.2 j.2
  unfold pydisort
  rw [hp]
  simp only [bind, Except.bind]
  unfold solveAll
  rw [hgen]
  rfl

/-- C91. Without an internal source the call returns exactly for the beam directions that are not resonant. -/
theorem C91_returns_iff (hw : WellPosed E (withoutBeam a)) (hb : BeamInRange E a) (hs : NoSource a) (J : Junk) :
    (∃ R, pydisort E J a = .ok R) ↔ a.mu0 ∉ resonances a (node E a) (weight E a) := by
  constructor
  · rintro ⟨R, hR⟩ ⟨_, m, hm, l, hl, hr⟩
    have := C91_resonance_raises_partial hw hb hm hl hr (Or.inr hs) J
    rw [hR] at this
    cases this
  · exact fun hr => (C91_other_directions hw hb hr).2 J

open Classical in
/-- The statement of C91 is false with an internal source: a resonance in the zeroth mode (and in no other) does not make the call raise an
exception, although the denominator `1 / mu0 + K` in line 218 of `_solve_for_gen_and_part_sols.py` is zero for some stream. (The model's quotient
by zero is zero; NumPy's is infinite or not a number.) -/
theorem C91_division_by_zero (hw : WellPosed E (withoutBeam a)) (hb : BeamInRange E a) {l : ℕ} (hl : l < a.tauArr.n)
    (hr : Resonant a (node E a) (weight E a) 0 l) (hs : ¬ NoSource a)
    (hother : ∀ m < nFourier a, 0 < m → ∀ l < a.tauArr.n, ¬ Resonant a (node E a) (weight E a) m l) (J : Junk) :
    ∃ R, pydisort E J a = .ok R ∧ ∃ j < 2 * nHalf a, 1 / a.mu0 + R.S.K 0 l j = 0 := by
  have hacc := accepted_of_withoutBeam hw.accepted hb
  have hreg : Regular a (node E a) (weight E a) := regular_of_dissipates (a := withoutBeam a) hw.gauss hw.dissipates
  obtain ⟨O, r, p, hO, hp⟩ := prepare_isOk (E := E) hacc hw.sourceShape hb.angles
  obtain ⟨S, hS⟩ := solveAll_isOk_of (E := E) (a := a) hacc hw.gauss hw.eig hw.dissipates hw.surface hw.bottomBC hw.topBC
    (fun _ m hm l hl hsig hms hdet => hother m hm (Nat.pos_of_ne_zero fun h => hms ⟨h, hs⟩) l hl
      ((resonant_iff hw.accepted hw.sourceShape hw.gauss hw.eig hreg hb.direction.1 hm hl).2 ⟨hsig, hdet⟩)) hO (r := r) J
  have hF := (asm_good_of (r := r) hacc hO hw.gauss hw.eig hreg).F
  refine ⟨⟨a.asm E O r, S, if a.NTGate then some p else none, a.onlyFlux⟩, ?_, ?_⟩
  · unfold pydisort
    rw [hp]
    simp only [bind, Except.bind]
    rw [hS]
    rfl
  · obtain ⟨out, GC, hout, _, rfl⟩ := AsmIn.solveAll_ok hS
    have hsp := genSol_spec hF hout
    have hF' : 0 < nFourier a := by rw [← nFourier_eq]; exact hF
    obtain ⟨hbas, he⟩ := eigOK_of (r := r) hO hw.eig hl hr.1 (hreg 0 hF' l hl hr.1)
    obtain ⟨k, hk, hd⟩ := eigenvalue_of_det hbas
      ((resonant_iff hw.accepted hw.sourceShape hw.gauss hw.eig hreg hb.direction.1 hF' hl).1 hr).2
    refine ⟨k, by omega, ?_⟩
    change 1 / a.mu0 + out.K 0 l k = 0
    rw [(hsp.scatG 0 hF l hl ((asm_scatters hO hl 0).2 hr.1)).2]
    unfold eigK
    rw [if_pos (show k < (a.asm E O r).genIn.N from hk), hd, show 1 / a.mu0 ^ 2 = (1 / a.mu0) ^ 2 by ring,
      Real.sqrt_sq (one_div_nonneg.2 hb.direction.1.le)]
    ring

/-! ### A resonant atmosphere -/

/-- An atmosphere of `L` layers and two streams, lit from the direction that is resonant in the first layer, with an internal source `c`. -/
noncomputable def demoResonant (L : ℕ) (c : ℝ) : Args :=
  { demoIso 1 L 1 (Real.sqrt (15 / 32)) with s := ⟨L, 1, fun _ _ => c⟩ }

theorem demoResonant_wellPosed {L : ℕ} (hL : 0 < L) (c : ℝ) : WellPosed refExt (withoutBeam (demoResonant L c)) := by
  have h0 : (0 : ℝ) < Real.sqrt (15 / 32) := Real.sqrt_pos.2 (by norm_num)
  have h1 : Real.sqrt (15 / 32) ≤ 1 := Real.sqrt_le_one.2 (by norm_num)
  have hacc := demoIso_accepted (n := 1) (L := L) (F := 1) one_pos hL one_pos le_rfl h0 h1
  have hN : nHalf (withoutBeam (demoResonant L c)) = 1 := demoIso_nHalf (n := 1) (L := L) (F := 1) (x := 1)
  refine wellPosed_of { hacc with beam := le_rfl, beamDir := fun h => absurd h (lt_irrefl _), sourceRows := Or.inr rfl } (by rw [hN]; exact one_pos) ?_
    (by rw [hN]; exact (demoIso_nLeg (n := 1) (L := L) (F := 1) (x := 1)).le) (fun h => absurd h (lt_irrefl _)) (Or.inl rfl) trivial trivial
    (Or.inr rfl) rfl
  intro l hl
  rw [show peak (withoutBeam (demoResonant L c)) l = isoPeak l from demoIso_peak (n := 1) (L := L) (F := 1) (x := 1) hl]
  linarith [(isoPeak_bounds l).2]

theorem demoResonant_beam (L : ℕ) (c : ℝ) : BeamInRange refExt (demoResonant L c) where
  intensity := one_pos
  direction := ⟨Real.sqrt_pos.2 (by norm_num), Real.sqrt_le_one.2 (by norm_num)⟩
  azimuth := ⟨zero_le_one, by change (1 : ℝ) < 2 * Real.pi; linarith [Real.two_le_pi]⟩
  angles := fun h => Bool.noConfusion h

theorem demoResonant_resonant {L : ℕ} (hL : 0 < L) (c : ℝ) :
    Resonant (demoResonant L c) (node refExt (demoResonant L c)) (weight refExt (demoResonant L c)) 0 0 := by
  set x := Real.sqrt (15 / 32) with hx
  have h0 : (0 : ℝ) < x := Real.sqrt_pos.2 (by norm_num)
  have hx2 : x ^ 2 = 15 / 32 := Real.sq_sqrt (by norm_num)
  have hN : nHalf (demoResonant L c) = 1 := demoIso_nHalf (n := 1) (L := L) (F := 1) (x := x)
  have hk : ∀ y z, kernel (demoResonant L c) 0 0 y z = 7 / 30 := by
    intro y z
    rw [show kernel (demoResonant L c) 0 0 y z = omegaStar (demoIso 1 L 1 x) 0 / 2 from demoIso_kernel (n := 1) (L := L) (F := 1) (x := x) hL one_pos y z]
    unfold omegaStar
    rw [demoIso_scale hL, demoIso_peak hL]
    simp only [isoPeak, demoIso, if_true]
    norm_num
  obtain ⟨n0, w0⟩ := half_node (E := refExt) (demoResonant L c) hN (by rw [hN]; exact refExt_gauss one_pos)
  refine ⟨demoIso_significant (n := 1) (L := L) (F := 1) (x := x) hL one_pos, fun i => if i = 0 then 1 - 1 / (2 * x) else 1 + 1 / (2 * x), ⟨1, by rw [hN]; norm_num, ?_⟩, ?_⟩
  · beta_reduce; rw [if_neg one_ne_zero]; positivity
  · intro i hi
    rw [hN] at hi ⊢
    change stream 1 _ i * (-(1 / x) * _) = _
    have e : ∑ j ∈ range (2 * 1), streamW 1 (weight refExt (demoResonant L c)) j * kernel (demoResonant L c) 0 0
        (stream 1 (node refExt (demoResonant L c)) i) (stream 1 (node refExt (demoResonant L c)) j) * (if j = 0 then 1 - 1 / (2 * x) else 1 + 1 / (2 * x))
        = 7 / 15 := by
      rw [show 2 * 1 = 2 from rfl, sum_range_succ, sum_range_one]
      simp only [hk, streamW, w0]
      norm_num
      ring
    rw [e]
    have hi' : i = 0 ∨ i = 1 := by omega
    have hxi : (1 / x) ^ 2 = 32 / 15 := by rw [div_pow, hx2]; norm_num
    have hxh : 1 / (2 * x) = 1 / x / 2 := by field_simp
    rcases hi' with rfl | rfl
    · simp only [stream, if_true, zero_lt_one, n0, hxh]
      linear_combination (1 / 4) * hxi
    · simp only [stream, if_neg one_ne_zero, lt_irrefl, if_false, Nat.sub_self, n0, hxh]
      linear_combination (1 / 4) * hxi

/-- A beam from this direction raises the exception without an internal source, whatever the number of layers. -/
example (L : ℕ) (hL : 0 < L) (J : Junk) : pydisort refExt J (demoResonant L 0) = .error .linAlgError :=
  C91_resonance_raises_partial (demoResonant_wellPosed hL 0) (demoResonant_beam L 0) (m := 0) (l := 0)
    (by rw [show nFourier (demoResonant L 0) = 1 from demoIso_nFourier (n := 1) (L := L) (F := 1) (x := 1)]; exact one_pos)
    hL (demoResonant_resonant hL 0) (Or.inr fun _ _ _ _ => rfl) J

/-- With an internal source it does not. -/
example (L : ℕ) (hL : 0 < L) (J : Junk) : ∃ R, pydisort refExt J (demoResonant L 1) = .ok R ∧
    ∃ j < 2 * nHalf (demoResonant L 1), 1 / (demoResonant L 1).mu0 + R.S.K 0 0 j = 0 :=
  C91_division_by_zero (demoResonant_wellPosed hL 1) (demoResonant_beam L 1) hL (demoResonant_resonant hL 1)
    (fun h => one_ne_zero (h 0 hL 0 one_pos))
    (fun m hm h0 => by
      rw [show nFourier (demoResonant L 1) = 1 from demoIso_nFourier (n := 1) (L := L) (F := 1) (x := 1)] at hm; omega) J

/-- At most as many resonances as there are layers in this atmosphere, and at least one. -/
example (L : ℕ) (hL : 0 < L) :
    (resonances (demoResonant L 0) (node refExt (demoResonant L 0)) (weight refExt (demoResonant L 0))).ncard ≤ L ∧
    (demoResonant L 0).mu0 ∈ resonances (demoResonant L 0) (node refExt (demoResonant L 0)) (weight refExt (demoResonant L 0)) := by
  have hF : nFourier (demoResonant L 0) = 1 := demoIso_nFourier (n := 1) (L := L) (F := 1) (x := 1)
  have hN : nHalf (demoResonant L 0) = 1 := demoIso_nHalf (n := 1) (L := L) (F := 1) (x := 1)
  refine ⟨(C91_resonances_are_few (demoResonant_wellPosed hL 0)).2.trans ?_, (demoResonant_beam L 0).direction, 0,
    by rw [hF]; exact one_pos, 0, hL, demoResonant_resonant hL 0⟩
  rw [hF, hN, one_mul, mul_one]
  exact le_rfl

/-- From some direction the beam is not resonant, for any number of streams. -/
example (J : Junk) (n : ℕ) (hn : 0 < n) : ∃ x, BeamInRange refExt (demoIso n 2 n x) ∧ WellPosed refExt (withoutBeam (demoIso n 2 n x)) ∧
    x ∉ resonances (demoIso n 2 n x) (node refExt (demoIso n 2 n x)) (weight refExt (demoIso n 2 n x)) := by
  obtain ⟨x, hw, _⟩ := demoIso_wellPosed (n := n) (L := 2) (F := n) hn (by norm_num) hn le_rfl
  have hb := hw.accepted.beamDir one_pos
  have hw' : WellPosed refExt (withoutBeam (demoIso n 2 n x)) :=
    { hw with
      accepted := { hw.accepted with beam := le_rfl, beamDir := fun h => absurd h (lt_irrefl _) }
      beam := fun h => absurd h (lt_irrefl _)
      angles := fun h => Bool.noConfusion h }
  have hbr : BeamInRange refExt (demoIso n 2 n x) := ⟨one_pos, hb.1, hb.2, fun h => Bool.noConfusion h⟩
  refine ⟨x, hbr, hw', fun hr => ?_⟩
  obtain ⟨R, hR⟩ := pydisort_isOk hw J
  exact (C91_returns_iff hw' hbr demoIso_noSource J).1 ⟨R, hR⟩ hr

end Pydisort

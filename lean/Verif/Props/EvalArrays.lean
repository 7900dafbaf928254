import Verif.EvalArrLemmas
import Verif.Props.Vectorised
import Verif.Props.Bounds

/-!
# C98: the array programs of the evaluation functions
-/

namespace Pydisort
open Finset Spec
variable {E : Ext} {J : Junk} {a : Args} {R : Solved}

theorem asm_pos (h : pydisort E J a = .ok R) : 0 < R.I.NLayers ∧ 0 < R.I.NFourier ∧ 0 < R.I.N ∧ R.I.N = nHalf a := by
  obtain ⟨hacc, O, r, hO, hr, hI, hsol, hof, hg1, hg2⟩ := pydisort_ok h
  have hN : 0 < R.I.N := by
    rw [hI]
    have := hacc.streams.1
    change 0 < nHalf a
    unfold nHalf; omega
  have hF : 0 < R.I.NFourier := by
    rw [hI]
    change 0 < a.nFourier.toNat
    unfold Args.nFourier
    split_ifs with ho
    · exact one_pos
    · have := (hacc.modes (by simpa using ho)).1
      omega
  exact ⟨by rw [hI]; exact hacc.layers, hF, hN, by rw [hI]; rfl⟩

/-- **C98.** Every NumPy operation of `u`, `u0`, `flux_up` and `flux_down` is kept: the search for the layers, fancy indexing, slices, concatenations, broadcasts,
einsums, the in-place addition to mode zero. For any array of depths of the atmosphere, in any order and with repetitions, entry `t` of what these programs return is the value
at depth `tau[t]` alone of the functions of one depth that the call describes (`F`, the same as in the other properties); the junk in uninitialised arrays is irrelevant. If
one depth lies outside the atmosphere, the whole call raises `ValueError`. (`u` before the corrections, which are absent without `NT_cor`; `ag` is `autograd_compatible`.) -/
theorem C98_every_depth_on_its_own (h : pydisort E J a = .ok R) {F : Fields} (hF : Evaluates a R F) (ag : Bool) (junk : Vec) (tau : A1 ℝ) :
    (InRange a tau →
      Returns2 (R.I.u0Arr R.S junk tau false) (2 * nHalf a) tau.n (fun i t => F.u0 (tau.get t) i) ∧
      Returns1 (R.I.fluxUpArr R.S junk tau false) tau.n (fun t => F.up (tau.get t)) ∧
      (∃ x d isArray, R.I.fluxDownArr R.S junk tau false = .ok (x, d, isArray) ∧ x.r = 1 ∧ x.c = tau.n ∧
        (∀ t < tau.n, x.get 0 t = F.diffuse (tau.get t)) ∧
        (if isArray = true then d.n = tau.n ∧ ∀ t < tau.n, d.get t = F.direct (tau.get t) else ∀ t < tau.n, d.get 0 = F.direct (tau.get t))) ∧
      (a.onlyFlux = false → a.NTcor = false → ∀ phi, ∃ A, R.I.uArr R.S ag junk tau phi false = .ok A ∧ A.d0 = 2 * nHalf a ∧ A.d1 = tau.n ∧ A.d2 = phi.n ∧
        ∀ i < 2 * nHalf a, ∀ t < tau.n, ∀ p < phi.n, R.I.rescale * A.get i t p = F.u (tau.get t) (phi.get p) i)) ∧
    (¬ InRange a tau → ∃ m, R.I.u0Arr R.S junk tau false = .error (.valueError m) ∧ R.I.fluxUpArr R.S junk tau false = .error (.valueError m) ∧
      R.I.fluxDownArr R.S junk tau false = .error (.valueError m) ∧ ∀ phi, R.I.uArr R.S ag junk tau phi false = .error (.valueError m)) := by
  obtain ⟨hL, hN4, hN, hNn⟩ := asm_pos h
  refine ⟨fun ht => ⟨?_, ?_, ?_, ?_⟩, fun ht => ?_⟩
  · have h1 := R.I.u0Arr_same R.S hL hN4 junk tau false
    obtain ⟨A, a1, a2, a3, a4⟩ := hF.u0 tau ht
    rw [show R.I.u0 R.S tau false = _ from a1] at h1
    rcases hx : R.I.u0Arr R.S junk tau false with e | x <;> rw [hx] at h1
    · exact h1.elim
    · exact ⟨x, rfl, h1.1.trans a2, h1.2.1.trans a3, fun i hi t ht =>
        (h1.2.2 i (by rw [h1.1, a2]; exact hi) t (by rw [h1.2.1, a3]; exact ht)).trans (a4 i hi t ht)⟩
  · have h1 := R.I.fluxUpArr_same R.S hL hN4 hN junk tau false
    obtain ⟨A, a1, a2, a3⟩ := hF.up tau ht
    rw [show R.I.fluxUp R.S tau false = _ from a1] at h1
    rcases hx : R.I.fluxUpArr R.S junk tau false with e | x <;> rw [hx] at h1
    · exact h1.elim
    · exact ⟨x, rfl, h1.1.trans a2, fun t ht => (h1.2 t (by rw [h1.1, a2]; exact ht)).trans (a3 t ht)⟩
  · have h1 := R.I.fluxDownArr_same R.S hL hN4 hN junk tau false
    obtain ⟨A, D, flag, a1, a2, a3, a4, a5⟩ := hF.down tau ht
    rw [show R.I.fluxDown R.S tau false = _ from a1] at h1
    rcases hx : R.I.fluxDownArr R.S junk tau false with e | ⟨x, d, fl⟩ <;> rw [hx] at h1
    · exact h1.elim
    obtain ⟨⟨b1, b2, b3⟩, ⟨b4, b5⟩, b6⟩ := h1
    dsimp only at b1 b2 b3 b4 b5 b6
    subst b6
    refine ⟨x, d, fl, rfl, b1, b2.trans a2, fun t ht => (b3 t (by rw [a2]; exact ht)).trans (a3 t ht), ?_⟩
    split_ifs with hfl
    · rw [if_pos hfl] at a4
      refine ⟨b4.trans a4, fun t ht => ?_⟩
      have := a5 t ht
      rw [if_pos hfl] at this
      exact (b5 t (by rw [b4, a4]; exact ht)).trans this
    · rw [if_neg hfl] at a4
      intro t ht
      have := a5 t ht
      rw [if_neg hfl] at this
      exact (b5 0 (by rw [b4, a4]; exact Nat.one_pos)).trans this
  · intro hf hnt phi
    have h1 := R.I.uArr_same R.S hL hN4 hN ag junk tau phi false
    obtain ⟨A, a1, a2, a3, a4, a5⟩ := hF.u hf tau phi ht (fun h => by rw [hnt] at h; cases h)
    obtain ⟨hacc, O, r, hO, hr, hI, hsol, hof, hg1, hg2⟩ := pydisort_ok h
    have hng : ¬ a.NTGate := fun hg => by rw [hg.1] at hnt; cases hnt
    have ho : ¬ R.onlyFlux = true := by rw [hof, hf]; exact Bool.false_ne_true
    unfold Solved.u at a1
    rw [if_neg ho, hg2 hng] at a1
    simp only [Solved.uUncorrected, AsmIn.u] at a1
    rcases hy : R.I.uRaw R.S tau phi false with e | y <;> rw [hy] at a1 h1
    · cases a1
    rcases hx : R.I.uArr R.S ag junk tau phi false with e | x <;> rw [hx] at h1
    · exact h1.elim
    cases a1
    obtain ⟨b1, b2, b3, b4⟩ := h1
    dsimp only at a2 a3 a4 a5
    refine ⟨x, rfl, b1.trans a2, b2.trans a3, b3.trans a4, fun i hi t ht p hp => ?_⟩
    rw [b4 i (by omega) t (by omega) p (by omega)]
    exact a5 i hi t ht p hp
  · have hd := R.I.depths_error (checkTau_of_not h ht)
    refine ⟨"tau input outside the tau range", ?_, ?_, ?_, fun phi => ?_⟩
    · unfold AsmIn.u0Arr; rw [hd]; rfl
    · unfold AsmIn.fluxUpArr; rw [hd]; rfl
    · unfold AsmIn.fluxDownArr; rw [hd]; rfl
    · unfold AsmIn.uArr; rw [hd]; rfl

/-- **C98, the flags.** With `is_antiderivative_wrt_tau` (either way), for the extra output of `u0` and for the Fourier error too the array programs do what the
pointwise model says: the same arrays, the same exceptions. (`flux_down`: if both the particular solution and the beam term fail, the first of the two exceptions is
raised, not the one named in the model.) The theorems about antiderivatives and about the Fourier error start from there. -/
theorem C98_array_programs_are_the_model (h : pydisort E J a = .ok R) (ag : Bool) (junk : Vec) (tau phi : A1 ℝ) (anti : Bool) :
    SameOutcome A2.Same (R.I.u0Arr R.S junk tau anti) (R.u0 tau anti) ∧
    SameOutcome A1.Same (R.I.fluxUpArr R.S junk tau anti) (R.fluxUp tau anti) ∧
    SameOrRaise SameDownRow (R.I.fluxDownArr R.S junk tau anti) (R.fluxDown tau anti) ∧
    SameOutcome A3.Same (R.I.uArr R.S ag junk tau phi anti) (R.I.uRaw R.S tau phi anti) ∧
    R.I.fourierErrorArr R.S ag junk tau phi anti = R.I.fourierError R.S tau phi anti ∧
    (InRange a tau → SameOutcome A1.Same (R.I.actReclassArr tau anti) (.ok (R.I.actReclass tau anti))) := by
  obtain ⟨hL, hF, hN, _⟩ := asm_pos h
  exact ⟨R.I.u0Arr_same R.S hL hF junk tau anti, R.I.fluxUpArr_same R.S hL hF hN junk tau anti, R.I.fluxDownArr_same R.S hL hF hN junk tau anti,
    R.I.uArr_same R.S hL hF hN ag junk tau phi anti, R.I.fourierErrorArr_same R.S hL hF hN ag junk tau phi anti,
    fun ht => R.I.actReclassArr_same hL (checkTau_of_inRange h ht) anti⟩

/-- The hypotheses are met: the demonstration problem, two layers, with a beam and a source; depths in both layers, not in order, one repeated. -/
example {n : ℕ} (hn : 0 < n) (J : Junk) : ∃ (x : ℝ) (R : Solved) (F : Fields), pydisort refExt J (demo n x) = .ok R ∧ Evaluates (demo n x) R F ∧
    InRange (demo n x) ⟨3, fun t => if t = 1 then 1 / 2 else 3 / 2⟩ ∧ ¬ InRange (demo n x) ⟨2, fun t => if t = 1 then -1 else 1⟩ := by
  obtain ⟨x, R, h1, _, h2, h3⟩ := demo_call hn J
  obtain ⟨F, hF⟩ := evaluates_exists h1 h2 h3
  refine ⟨x, R, F, h1, hF, fun t _ => ?_, fun hc => ?_⟩
  · change 0 ≤ (if t = 1 then (1 / 2 : ℝ) else 3 / 2) ∧ (if t = 1 then (1 / 2 : ℝ) else 3 / 2) ≤ ((1 : ℕ) : ℝ) + 1
    split_ifs <;> norm_num
  · have := (hc 1 (by decide)).1
    norm_num at this

end Pydisort

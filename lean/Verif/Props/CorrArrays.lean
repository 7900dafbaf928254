import Verif.NTArrLemmas
import Verif.Props.EvalArrays
import Verif.Props.Returned

/-!
# C99: the whole of `u` as a program on arrays
-/

namespace Pydisort
open Finset Spec
variable {E : Ext} {J : Junk} {a : Args} {R : Solved}

/-- **C99, refinement.** Every NumPy operation of `u`, with the corrections, with the final squeezes and for both values of `autograd_compatible` (`ag`), is kept in `uProgram`.
It returns the same array, or raises the same exception, as the model about which the other properties are proved, whatever the flag, the depths and the azimuths. -/
theorem C99_program_is_the_model (h : pydisort E J a = .ok R) (ag : Bool) (junk : Vec) (tau phi : A1 ℝ) (anti : Bool) :
    SameOutcome SameND (R.uProgram ag junk tau phi anti) (R.uReturned ag tau phi anti) := by
  obtain ⟨hL, hF, hN, _⟩ := asm_pos h
  refine uProgram_same hL hF hN (fun n hn => ?_) ag junk tau phi anti
  obtain ⟨hacc, O, r, hO, hr, hI, hsol, hof, hg1, hg2⟩ := pydisort_ok h
  by_cases hg : a.NTGate
  · rw [hg1 hg] at hn
    cases hn
    refine ⟨by rw [hI]; rfl, by rw [hI]; rfl, ?_⟩
    have := hg.2.2.2.2.1
    change a.nLeg.toNat ≤ a.NLegAll
    omega
  · rw [hg2 hg] at hn
    cases hn

/-- **C99.** What the program of `u` hands to the caller for an array of depths, in any order and with repetitions, and an array of azimuths: an array with the axes streams,
depths, azimuths (those of length one left out), in which every entry is the intensity at that depth and azimuth alone. In particular neither the restriction to the layers that
occur (`np.unique`), nor the cumulative sums over the layers, nor the tests that skip an addition mix up depths, layers or streams. With corrections at least one depth is needed,
and with two streams exactly one azimuth (C45). -/
theorem C99_intensity_program (h : pydisort E J a = .ok R) {F : Fields} (hF : Evaluates a R F) (hf : a.onlyFlux = false) (ag : Bool) (junk : Vec) {tau : A1 ℝ}
    (ht : InRange a tau) (phi : A1 ℝ) (hp : a.NTcor = true → tau.n ≠ 0 ∧ (nHalf a ≠ 1 ∨ phi.n = 1)) :
    Hands (R.uProgram ag junk tau phi false) [2 * nHalf a, tau.n, phi.n]
      (fun ix => F.u (tau.get (ix.getD 1 0)) (phi.get (ix.getD 2 0)) (ix.getD 0 0)) := by
  obtain ⟨V, v1, v2, v3⟩ := (C85_shapes h hF ht phi).2.2.2.2.2 hf hp
  have hV : ∃ W, R.uReturned ag tau phi false = .ok W ∧ SameND V W := by
    cases ag
    · exact ⟨V, v1, rfl, fun _ _ => rfl⟩
    · exact C84_autograd h tau phi false v1
  obtain ⟨W, w1, w2⟩ := hV
  have h1 := C99_program_is_the_model h ag junk tau phi false
  rcases hx : R.uProgram ag junk tau phi false with e | X <;> rw [hx, w1] at h1
  · exact h1.elim
  refine ⟨X, rfl, h1.1.trans (w2.1.symm.trans v2), fun ix hix => ?_⟩
  have hv := validIx_squeezedIx hix
  rw [h1.2 _ (by rw [h1.1, ← w2.1, v2]; exact hv), ← w2.2 _ (by rw [v2]; exact hv)]
  exact v3 ix hix

/-- **C99, exceptions.** One depth outside the atmosphere: `ValueError`. -/
theorem C99_outside (h : pydisort E J a = .ok R) (hf : a.onlyFlux = false) (ag : Bool) (junk : Vec) {tau : A1 ℝ} (ht : ¬ InRange a tau) (phi : A1 ℝ) (anti : Bool) :
    ∃ m, R.uProgram ag junk tau phi anti = .error (.valueError m) := by
  obtain ⟨hacc, O, r, hO, hr, hI, hsol, hof, hg1, hg2⟩ := pydisort_ok h
  refine ⟨"tau input outside the tau range", ?_⟩
  unfold Solved.uProgram
  rw [if_neg (by rw [hof, hf]; exact Bool.false_ne_true), R.I.depths_error (checkTau_of_not h ht)]
  rfl

/-- A call with corrections, two layers, up to ten million streams per hemisphere, to which this applies, at three depths in both layers, not in order, one repeated, and four
azimuths. -/
example (J : Junk) {n : ℕ} (hn : 1 < n) (hn' : n < 10 ^ 7) (ag : Bool) (junk : Vec) : ∃ a R F, pydisort refExt J a = .ok R ∧ Corrected a ∧ nHalf a = n ∧ Evaluates a R F ∧
    InRange a ⟨3, fun t => if t = 1 then 1 / 2 else 3 / 2⟩ ∧
    ∃ V, R.uProgram ag junk ⟨3, fun t => if t = 1 then 1 / 2 else 3 / 2⟩ ⟨4, fun k => (k : ℝ)⟩ false = .ok V ∧ V.shape = [2 * n, 3, 4] := by
  obtain ⟨x, R, hR, hF, hx0, hx1, hwp, hS, hres⟩ := demoNT_call (by omega) hn' ∅ J
  obtain ⟨F, hF⟩ := evaluates_exists hR hS hres
  have hc := demoNT_corrected (n := n) (by omega) x
  have ht : InRange (demoNT n x) ⟨3, fun t => if t = 1 then 1 / 2 else 3 / 2⟩ := by
    intro t _
    change 0 ≤ (if t = 1 then (1 / 2 : ℝ) else 3 / 2) ∧ (if t = 1 then (1 / 2 : ℝ) else 3 / 2) ≤ ((1 : ℕ) : ℝ) + 1
    split_ifs <;> norm_num
  obtain ⟨V, v1, v2, -⟩ := C99_intensity_program hR hF hc.2.1 ag junk ht ⟨4, fun k => (k : ℝ)⟩ (fun _ => ⟨by simp, Or.inl (by rw [demoNT_nHalf]; omega)⟩)
  refine ⟨_, R, F, hR, hc, demoNT_nHalf x, hF, ht, V, v1, ?_⟩
  rw [v2, demoNT_nHalf]
  simp [List.filter_cons]

end Pydisort

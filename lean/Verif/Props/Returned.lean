import Verif.ReturnedLemmas
import Verif.Props.Tools
import Verif.Props.Bounds
import Verif.WitnessNT

/-!
# C84, C85: what the caller receives
-/

namespace Pydisort
open Finset Spec

variable {E : Ext} {J : Junk} {a : Args} {R : Solved}

/-! ## C85: axes -/

theorem hands_of_same {x : Py (ND ℝ)} {V : ND ℝ} {B : ND ℝ} (hx : x = .ok V) (h : SameND V B.squeeze) : Hands x B.shape B.get :=
  ⟨V, hx, h.1, fun ix hix => by rw [h.2 _ (h.1 ▸ validIx_squeezedIx hix), squeeze_get _ hix]⟩

theorem SameND.refl (A : ND ℝ) : SameND A A := ⟨rfl, fun _ _ => rfl⟩

theorem Hands.congr {x : Py (ND ℝ)} {s s' : List ℕ} {v v' : List ℕ → ℝ} (h : Hands x s v) (hs : s = s') (hv : ∀ ix, ValidIx s ix → v ix = v' ix) :
    Hands x s' v' := by
  subst hs
  obtain ⟨A, h1, h2, h3⟩ := h
  exact ⟨A, h1, h2, fun ix hix => (h3 ix hix).trans (hv ix hix)⟩

/-- **C85, any arguments.** The sum of the squeezed intensity and the squeezed corrections is the squeezed sum of intensity and
corrections: `u` hands out the array with axes `mu, tau, phi` of the model without its axes of length one, and raises if the model raises. -/
theorem C85_squeeze (h : pydisort E J a = .ok R) (tau phi : A1 ℝ) (anti : Bool) :
    (∀ A, R.u tau phi anti = .ok A → Hands (R.uReturned false tau phi anti) [A.d0, A.d1, A.d2] (fun ix => A.get (ix.getD 0 0) (ix.getD 1 0) (ix.getD 2 0)))
    ∧ ∀ e, R.u tau phi anti = .error e → R.uReturned false tau phi anti = .error e := by
  have key := uReturned_same h false tau phi anti (by simp)
  refine ⟨fun A hA => ?_, fun e he => ?_⟩
  · rcases hV : R.uReturned false tau phi anti with e | V
    · rw [hV, hA] at key; exact key.elim
    · rw [hV, hA] at key
      exact hands_of_same (B := A.toND) rfl key
  · rcases hV : R.uReturned false tau phi anti with e' | V
    · rw [hV, he] at key; exact congrArg _ key
    · rw [hV, he] at key; exact key.elim

theorem fluxDown_flag {I : AsmIn} {S : Sols} {tau : A1 ℝ} {anti : Bool} {x : A1 ℝ × A1 ℝ × Bool} (h : I.fluxDown S tau anti = .ok x) :
    x.2.2 = I.beam ∧ (I.beam = false → x.2.1.get 0 = 0) := by
  unfold AsmIn.fluxDown at h
  rcases h1 : I.checkTau tau with e | _
  · rw [h1] at h; cases h
  rcases h2 : I.fluxDownRaw S tau anti with e | raw
  · rw [h1, h2] at h; cases h
  rcases h3 : I.addIso S tau anti I.N I.N raw with e | b
  · rw [h1, h2] at h
    simp only [bind, Except.bind] at h
    rw [h3] at h; cases h
  rw [h1, h2] at h
  simp only [bind, Except.bind] at h
  rw [h3] at h
  simp only at h
  by_cases hb : I.beam = true
  · rw [if_pos hb] at h
    rcases h4 : A1.bin (fun x y => x + y) (I.fluxQuad b) (tau.map (I.directScaled anti)) with e | d1
    · rw [h4] at h; cases h
    rw [h4] at h
    simp only at h
    rcases h5 : A1.bin (fun x y => x - y) d1 (tau.map (I.direct anti)) with e | d2
    · rw [h5] at h; cases h
    rw [h5] at h
    cases h
    exact ⟨hb.symm, fun h => by rw [hb] at h; cases h⟩
  · rw [if_neg hb] at h
    cases h
    refine ⟨by simpa using hb, fun _ => by simp⟩

/-- **C85.** The returned arrays have the axes `mu, tau, phi` in this order, without those of length one, and the entries stand where
they should: a single depth or azimuth (or the absence of an axis) only drops the axis. -/
theorem C85_shapes (h : pydisort E J a = .ok R) {F : Fields} (hF : Evaluates a R F) {tau : A1 ℝ} (ht : InRange a tau) (phi : A1 ℝ) :
    Hands (R.u0Returned tau false) [2 * nHalf a, tau.n] (fun ix => F.u0 (tau.get (ix.getD 1 0)) (ix.getD 0 0)) ∧
    Hands (R.fluxUpReturned tau false) [tau.n] (fun ix => F.up (tau.get (ix.getD 0 0))) ∧
    Hands ((R.fluxDownReturned tau false).map Prod.fst) [tau.n] (fun ix => F.diffuse (tau.get (ix.getD 0 0))) ∧
    (0 < a.I0 → Hands ((R.fluxDownReturned tau false).map Prod.snd) [tau.n] (fun ix => F.direct (tau.get (ix.getD 0 0)))) ∧
    (a.I0 = 0 → Hands ((R.fluxDownReturned tau false).map Prod.snd) [] (fun _ => 0)) ∧
    (a.onlyFlux = false → (a.NTcor = true → tau.n ≠ 0 ∧ (nHalf a ≠ 1 ∨ phi.n = 1)) →
      Hands (R.uReturned false tau phi false) [2 * nHalf a, tau.n, phi.n]
        (fun ix => F.u (tau.get (ix.getD 1 0)) (phi.get (ix.getD 2 0)) (ix.getD 0 0))) := by
  obtain ⟨_, O, r, _, _, hI, _⟩ := pydisort_ok h
  have hbeam : R.I.beam = true ↔ 0 < a.I0 := by rw [hI]; simp [Args.asmIn, Args.Beam]
  obtain ⟨A, a1, a2, a3, a4⟩ := hF.u0 tau ht
  obtain ⟨B, b1, b2, b3⟩ := hF.up tau ht
  obtain ⟨C, D, flag, c1, c2, c3, c4, c5⟩ := hF.down tau ht
  obtain ⟨f1, f2⟩ := fluxDown_flag c1
  simp only at f1 f2
  refine ⟨?_, ?_, ?_, fun hb => ?_, fun hb => ?_, fun hf hnt => ?_⟩
  · unfold Solved.u0Returned
    rw [a1]
    refine Hands.congr (hands_of_same (B := A.toND) rfl (SameND.refl _)) (by simp only [A2.toND, a2, a3]) fun ix hix => ?_
    simp only [A2.toND, a2, a3] at hix ⊢
    obtain _ | ⟨g0, _ | ⟨g1, _ | _⟩⟩ := hix
    exact a4 _ g0 _ g1
  · unfold Solved.fluxUpReturned
    rw [b1]
    refine Hands.congr (hands_of_same (B := B.toND) rfl (SameND.refl _)) (by simp only [A1.toND, b2]) fun ix hix => ?_
    simp only [A1.toND, b2] at hix ⊢
    obtain _ | ⟨g0, _ | _⟩ := hix
    exact b3 _ g0
  · unfold Solved.fluxDownReturned
    rw [c1]
    refine Hands.congr (hands_of_same (B := C.toND) rfl (SameND.refl _)) (by simp only [A1.toND, c2]) fun ix hix => ?_
    simp only [A1.toND, c2] at hix ⊢
    obtain _ | ⟨g0, _ | _⟩ := hix
    exact c3 _ g0
  · have hfl : flag = true := by rw [f1]; exact hbeam.2 hb
    subst hfl
    unfold Solved.fluxDownReturned
    rw [c1]
    simp only [if_true] at c4 c5
    refine Hands.congr (hands_of_same (B := D.toND) rfl (SameND.refl _)) (by simp only [A1.toND, c4]) fun ix hix => ?_
    simp only [A1.toND, c4] at hix ⊢
    obtain _ | ⟨g0, _ | _⟩ := hix
    exact c5 _ g0
  · have hfl : R.I.beam = false := by
      rw [← Bool.not_eq_true, hbeam, hb]
      exact lt_irrefl _
    have hfl' : flag = false := f1.trans hfl
    subst hfl'
    unfold Solved.fluxDownReturned
    rw [c1]
    exact ⟨_, rfl, rfl, fun ix _ => f2 hfl⟩
  · obtain ⟨A, u1, u2, u3, u4, u5⟩ := hF.u hf tau phi ht hnt
    refine Hands.congr ((C85_squeeze h tau phi false).1 A u1) (by rw [u2, u3, u4]) fun ix hix => ?_
    rw [u2, u3, u4] at hix
    obtain _ | ⟨g0, _ | ⟨g1, _ | ⟨g2, _ | _⟩⟩⟩ := hix
    exact u5 _ g0 _ g1 _ g2

/-- For a single depth and azimuth `u` returns a vector with one entry per stream. -/
theorem C85_single (h : pydisort E J a = .ok R) {F : Fields} (hF : Evaluates a R F) (hf : a.onlyFlux = false) {t : ℝ}
    (ht : 0 ≤ t ∧ t ≤ a.tauArr.get (a.tauArr.n - 1)) (ph : ℝ) :
    ∃ V, R.uReturned false ⟨1, fun _ => t⟩ ⟨1, fun _ => ph⟩ false = .ok V ∧ V.shape = [2 * nHalf a] ∧ ∀ i < 2 * nHalf a, V.get [i] = F.u t ph i := by
  obtain ⟨V, v1, v2, v3⟩ := (C85_shapes h hF (tau := ⟨1, fun _ => t⟩) (fun _ _ => ht) ⟨1, fun _ => ph⟩).2.2.2.2.2 hf (fun _ => ⟨one_ne_zero, Or.inr rfl⟩)
  have hn : 2 * nHalf a ≠ 1 := by omega
  refine ⟨V, v1, ?_, fun i hi => ?_⟩
  · rw [v2]; simp [List.filter_cons]
  · have := v3 [i, 0, 0] (.cons hi (.cons one_pos (.cons one_pos .nil)))
    simpa [squeezedIx, hn] using this

/-! ## C84: `autograd_compatible` -/

theorem same_of_both {x y : Py (ND ℝ)} {z : Py (A3 ℝ)} (h1 : SameOutcome (fun V A => SameND V A.toND.squeeze) x z)
    (h2 : SameOutcome (fun V A => SameND V A.toND.squeeze) y z) : SameOutcome SameND x y := by
  rcases x with e | x <;> rcases y with e' | y <;> rcases z with e'' | z <;> first | exact h1.elim | exact h2.elim | skip
  · exact Eq.trans h1 (Eq.symm h2)
  · exact ⟨h1.1.trans h2.1.symm, fun ix hix => (h1.2 ix hix).trans (h2.2 ix (h2.1 ▸ h1.1 ▸ hix)).symm⟩

/-- **C84.** Whatever `u` returns with `autograd_compatible = False`, it returns with `autograd_compatible = True`. -/
theorem C84_autograd (h : pydisort E J a = .ok R) (tau phi : A1 ℝ) (anti : Bool) {V : ND ℝ} (hV : R.uReturned false tau phi anti = .ok V) :
    ∃ V', R.uReturned true tau phi anti = .ok V' ∧ SameND V V' := by
  have h1 := uReturned_same h false tau phi anti (by simp)
  rcases hA : R.u tau phi anti with e | A
  · rw [hV, hA] at h1; exact h1.elim
  have h2 := uReturned_same h true tau phi anti (fun _ hN => (u_two_streams h hA hN).imp_right Or.inl)
  have h3 := same_of_both h1 h2
  rcases hV' : R.uReturned true tau phi anti with e | V'
  · rw [hV, hV'] at h3; exact h3.elim
  · rw [hV, hV'] at h3; exact ⟨V', rfl, h3⟩

/-- **C84, exceptions.** It also raises in the same cases. (The cases left out are those of C45: two streams, corrections and not a single azimuth, where `autograd_compatible = False`
always raises; for an empty array of azimuths, or the antiderivative, NumPy's broadcasting may let `autograd_compatible = True` return.) -/
theorem C84_outcome (h : pydisort E J a = .ok R) (tau phi : A1 ℝ) (anti : Bool) (hp : nHalf a ≠ 1 ∨ phi.n = 1 ∨ (phi.n ≠ 0 ∧ anti = false)) :
    SameOutcome SameND (R.uReturned false tau phi anti) (R.uReturned true tau phi anti) :=
  same_of_both (uReturned_same h false tau phi anti (by simp)) (uReturned_same h true tau phi anti (fun _ h1 => Or.inr (hp.resolve_left (fun h2 => h2 h1))))

/-- A call with corrections to which all of this applies: two layers, up to ten million streams per hemisphere. -/
example (J : Junk) {n : ℕ} (hn : 1 < n) (hn' : n < 10 ^ 7) : ∃ a R F, pydisort refExt J a = .ok R ∧ Corrected a ∧ nHalf a = n ∧ Evaluates a R F ∧
    InRange a ⟨2, fun k => (k : ℝ) + 1⟩ ∧ ∃ V, R.uReturned false ⟨2, fun k => (k : ℝ) + 1⟩ ⟨3, fun k => (k : ℝ)⟩ false = .ok V ∧ V.shape = [2 * n, 2, 3] := by
  obtain ⟨x, R, hR, hF, hx0, hx1, hwp, hS, hres⟩ := demoNT_call (by omega) hn' ∅ J
  obtain ⟨F, hF⟩ := evaluates_exists hR hS hres
  have hc := demoNT_corrected (n := n) (by omega) x
  have ht : InRange (demoNT n x) ⟨2, fun k => (k : ℝ) + 1⟩ := by
    intro t htt
    change 0 ≤ (t : ℝ) + 1 ∧ (t : ℝ) + 1 ≤ ((1 : ℕ) : ℝ) + 1
    have : t ≤ 1 := by change t < 2 at htt; omega
    have h2 : (t : ℝ) ≤ ((1 : ℕ) : ℝ) := by exact_mod_cast this
    exact ⟨by positivity, by linarith⟩
  obtain ⟨V, v1, v2, -⟩ := (C85_shapes hR hF ht ⟨3, fun k => (k : ℝ)⟩).2.2.2.2.2 hc.2.1 (fun _ => ⟨by simp, Or.inl (by rw [demoNT_nHalf]; omega)⟩)
  refine ⟨_, R, F, hR, hc, demoNT_nHalf x, hF, ht, V, v1, ?_⟩
  rw [v2, demoNT_nHalf]
  simp [List.filter_cons]

end Pydisort

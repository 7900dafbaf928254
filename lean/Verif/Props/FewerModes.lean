import Verif.SameEval
import Verif.Props.Estimate
import Verif.Witness

/-!
# C139: asking for fewer Fourier modes cuts the series off
-/

namespace Pydisort
open Finset Spec

variable {E : Ext} {J : Junk} {a : Args} {R : Solved}

theorem val_same {I : AsmIn} {S S' : Sols} {F F' : ℕ} {D : BCData} (hS : EvalAgree I F S S') (hL : 0 < I.NLayers) {m : ℕ} (hm : m < F) (t : ℝ) {i : ℕ}
    (hi : i < 2 * I.N) : (I.withBC F' D).val S' m t i = I.val S m t i := by
  unfold AsmIn.val
  refine congrArg₂ (· + ·) (AsmIn.umPlain_same hS hL hm hi t) ?_
  change (if m = 0 ∧ I.iso = true then _ else (0 : ℝ)) = _
  by_cases h : m = 0 ∧ I.iso = true
  · rw [if_pos h, if_pos h]
    exact (mathscrV_same _ fun f => (hS.iso h.2 _ (AsmIn.layer_lt' hL t) i hi f).symm).symm
  · rw [if_neg h, if_neg h]

/-- **C139.** A call with fewer Fourier modes, but otherwise the same arguments, returns as well. It has the same modes: both intensity functions are Fourier series with the same
coefficients `U`, one of them cut off after `k` terms. So are the intensities with the corrections: they differ in the terms left out. -/
theorem C139_fewer_modes (h : pydisort E J a = .ok R) (ho : a.onlyFlux = false) {k : ℕ} (hk0 : 0 < k) (hk : k ≤ nFourier a) (J' : Junk) :
    ∃ R' U, pydisort E J' { a with NFourier := some k } = .ok R' ∧ IsModes a R U ∧ IsModes { a with NFourier := some k } R' U ∧
      ∀ tau phi, InRange a tau → SameOutcome (fun x x' => x.d0 = x'.d0 ∧ x.d1 = x'.d1 ∧ x.d2 = x'.d2 ∧ x.d0 = 2 * nHalf a ∧ x.d1 = tau.n ∧ x.d2 = phi.n ∧
        ∀ i < x.d0, ∀ t < x.d1, ∀ p < x.d2,
          x.get i t p - x'.get i t p = ∑ m ∈ Ico k (nFourier a), U m (tau.get t) i * Real.cos (m * (a.phi0 - phi.get p)))
        (R.u tau phi false) (R'.u tau phi false) := by
  obtain ⟨hacc, O, r, _, _, hI, _, hof, _⟩ := pydisort_ok h
  have hn : 0 < nHalf a := by have := hacc.streams.1; unfold nHalf; omega
  have hFz : (nFourier a : ℤ) = a.NFourier.getD a.NQuad := by
    have := (hacc.modes ho).1
    unfold nFourier
    rw [if_neg (by simp [ho])]
    omega
  have hm := hacc.modes ho
  have hacc' : Accepted { a with NFourier := some (k : ℤ) } := { hacc with modes := fun _ => ⟨by simpa using hk0, by simp; omega⟩ }
  have hkF : nFourier { a with NFourier := some (k : ℤ) } = k := by
    unfold nFourier
    rw [if_neg (by simp [ho])]
    simp
  obtain ⟨R', d, h1, h2, h3, h4, h5⟩ := call_transfer (a' := { a with NFourier := some (k : ℤ) }) (J' := J') (F := k)
    (D := fun d => ⟨a.bdrf, a.bpos'.div d, a.bneg'.div d, _, _, _, _, _⟩) h hacc' rfl rfl (fun _ => rfl)
    (fun mu W O r => by
      have : ({ a with NFourier := some (k : ℤ) } : Args).nFourier.toNat = k := by rw [nFourier_eq]; exact hkF
      unfold Args.asmIn
      rw [this]
      rfl) hk0 hk
    (fun O r out out' m _ => CoefIn.AgreeBC.refl' rfl rfl rfl rfl rfl rfl rfl rfl rfl rfl rfl rfl rfl)
  have hnt : R'.nt = R.nt := h5 Iff.rfl fun _ _ _ => rfl
  have hL : 0 < R.I.NLayers := by rw [hI]; exact hacc.layers
  have hN : R.I.N = nHalf a := by rw [hI]; rfl
  have hv : ∀ m < k, ∀ t, ∀ i < 2 * nHalf a, R'.I.rescale * R'.I.val R'.S m t i = R.I.rescale * R.I.val R.S m t i := by
    intro m hm t i hi
    rw [h2]
    exact congrArg (R.I.rescale * ·) (val_same (h3.eval hk0) hL hm t (by rw [hN]; exact hi))
  have hrs : R'.I.rescale = R.I.rescale := by rw [h2]; rfl
  have hly : ∀ t, R'.I.layer t = R.I.layer t := fun t => by rw [h2]; rfl
  have m1 := modes_val h
  have m2 := modes_val h1
  have m2' : IsModes { a with NFourier := some (k : ℤ) } R' (fun m t i => R.I.rescale * R.I.val R.S m t i) := by
    refine ⟨fun tau ht => ?_, fun tau phi ht => ?_⟩
    · obtain ⟨A, x1, x2, x3, x4⟩ := m2.u0 tau ht
      exact ⟨A, x1, x2, x3, fun i hi t ht => (x4 i hi t ht).trans (hv 0 hk0 _ i hi)⟩
    · obtain ⟨A, x1, x2, x3, x4, x5⟩ := m2.u tau phi ht
      refine ⟨A, x1, x2, x3, x4, fun i hi t ht p hp => (x5 i hi t ht p hp).trans (sum_congr rfl fun m hm => ?_)⟩
      rw [mem_range, hkF] at hm
      simp only [hv m hm _ i hi]
  refine ⟨R', _, h1, m1, m2', fun tau phi ht => ?_⟩
  obtain ⟨A, x1, x2, x3, x4, x5⟩ := m1.u tau phi ht
  obtain ⟨A', y1, y2, y3, y4, y5⟩ := m2'.u tau phi ht
  rw [hkF] at y5
  have hd : ∀ i < A.d0, ∀ t < A.d1, ∀ p < A.d2, A.get i t p - A'.get i t p
      = ∑ m ∈ Ico k (nFourier a), R.I.rescale * R.I.val R.S m (tau.get t) i * Real.cos (m * (a.phi0 - phi.get p)) := by
    intro i hi t ht p hp
    rw [x2] at hi; rw [x3] at ht; rw [x4] at hp
    rw [x5 i hi t ht p hp, y5 i hi t ht p hp]
    beta_reduce
    rw [← sum_range_add_sum_Ico _ hk]
    exact add_sub_cancel_left _ _
  have e0 : A.d0 = A'.d0 := x2.trans y2.symm
  have e1 : A.d1 = A'.d1 := x3.trans y3.symm
  have e2 : A.d2 = A'.d2 := x4.trans y4.symm
  unfold Solved.u
  rw [show R.onlyFlux = false by rw [hof, ho], show R'.onlyFlux = false by rw [h4]; exact ho, hnt]
  simp only [Bool.false_eq_true, if_false]
  cases hc : R.nt with
  | none =>
    simp only
    rw [x1, y1]
    exact ⟨e0, e1, e2, x2, x3, x4, hd⟩
  | some n =>
    simp only
    unfold Solved.uCorrected
    rw [x1, y1]
    simp only [bind, Except.bind, hrs, hly]
    rcases n.corr tau phi false (fun t => R.I.layer (tau.get t)) with e | c
    · exact rfl
    simp only
    unfold addSqueezed
    rw [e0, e1, e2]
    split_ifs
    · refine ⟨rfl, rfl, rfl, y2, y3, y4, fun i hi t ht p hp => ?_⟩
      simp only at hi ht hp ⊢
      rw [← hd i (by rw [e0]; exact hi) t (by rw [e1]; exact ht) p (by rw [e2]; exact hp)]
      ring
    · refine ⟨rfl, rfl, rfl, y2, y3, y4, fun i hi t ht p hp => ?_⟩
      simp only at hi ht hp ⊢
      rw [← hd i (by rw [e0]; exact hi) t (by rw [e1]; exact ht) p (by rw [e2]; exact hp)]
      ring
    · exact rfl

namespace AsmIn

variable {I : AsmIn} {S S' : Sols} {F : ℕ} {D : BCData}

/-- Term of the series `u` evaluates at modes above zero. -/
noncomputable def term (I : AsmIn) (S : Sols) (anti : Bool) (m : ℕ) (t : ℝ) (i : ℕ) : ℝ :=
  I.rescale * if anti = true then I.umAnti S m i t else I.umPlain S m i t

/-- What the two evaluations have in common. -/
def Fewer (I : AsmIn) (S : Sols) (F : ℕ) (tau phi : A1 ℝ) (anti : Bool) (x x' : A3 ℝ) : Prop :=
  x.d0 = x'.d0 ∧ x.d1 = x'.d1 ∧ x.d2 = x'.d2 ∧ ∀ i < x.d0, ∀ t < x.d1, ∀ p < x.d2,
    x.get i t p - x'.get i t p = ∑ m ∈ Ico F I.NFourier, I.term S anti m (tau.get t) i * Real.cos (m * (I.phi0 - phi.get p))

theorem um0_fewer (hS : EvalAgree I F S S') (hN : 0 < I.N) (hL : 0 < I.NLayers) (hF : 2 ≤ F) (hFI : F ≤ I.NFourier) (tau : A1 ℝ)
    (anti : Bool) : SameOutcome (fun x y => A2.Same x y ∧ x.r = 2 * I.N) (I.um0 S tau anti) ((I.withBC F D).um0 S' tau anti) := by
  unfold um0
  change SameOutcome _ _ (if I.iso = true then _ else _)
  simp only
  have hraw : A2.Same ⟨2 * I.N, tau.n, fun i t => if anti = true then I.umAnti S 0 i (tau.get t) else I.umPlain S 0 i (tau.get t)⟩
    ⟨2 * I.N, tau.n, fun i t => if anti = true then (I.withBC F D).umAnti S' 0 i (tau.get t)
      else (I.withBC F D).umPlain S' 0 i (tau.get t)⟩ := by
    refine ⟨rfl, rfl, fun i hi t _ => ?_⟩
    show (if _ then _ else _) = if _ then _ else _
    rw [umAnti_same hS hL (by omega) hi, umPlain_same hS hL (by omega) hi]
  by_cases hi : I.iso = true
  · rw [if_pos hi, if_pos hi]
    refine SameOutcome.bind' (addIso_same (rows := 2 * I.N) hS hL tau anti (by omega) hraw) fun y z hy hyz => ?_
    have hrows := addIso_rows (x := ⟨2 * I.N, tau.n, _⟩) (rows := 2 * I.N) rfl (by omega) hy
    change SameOutcome _ _ (if F = 1 ∨ z.c = tau.n then _ else _)
    rw [← hyz.2.1]
    have e1 : ¬ I.NFourier = 1 := by omega
    have e2 : ¬ F = 1 := by omega
    simp only [e1, e2, false_or]
    split_ifs with hc
    · exact ⟨hyz, hrows⟩
    · exact rfl
  · rw [if_neg hi, if_neg hi]
    exact ⟨hraw, rfl⟩

theorem u_fewer (hS : EvalAgree I F S S') (hN : 0 < I.N) (hL : 0 < I.NLayers) (hF : 2 ≤ F) (hFI : F ≤ I.NFourier) (tau phi : A1 ℝ)
    (anti : Bool) : SameOutcome (Fewer I S F tau phi anti) (I.u S tau phi anti) ((I.withBC F D).u S' tau phi anti) := by
  unfold u uRaw
  simp only [bind_assoc]
  refine SameOutcome.bind (rel := Eq) (SameOutcome.of_eq (fun _ => rfl) (checkTau_same tau).symm) fun _ _ _ => ?_
  refine SameOutcome.bind (um0_fewer hS hN hL hF hFI tau anti) fun u v huv => ?_
  obtain ⟨huv, hr⟩ := huv
  refine ⟨rfl, huv.2.1, rfl, fun i hi t ht p _ => ?_⟩
  change i < 2 * I.N at hi
  change t < u.c at ht
  show I.rescale * ∑ m ∈ range I.NFourier, _ - I.rescale * ∑ m ∈ range F, _ = _
  have e : ∑ m ∈ range F, (if m = 0 then v.get i t
      else if anti = true then (I.withBC F D).umAnti S' m i (tau.get t) else (I.withBC F D).umPlain S' m i (tau.get t))
        * Real.cos ((m : ℝ) * (I.phi0 - phi.get p))
      = ∑ m ∈ range F, (if m = 0 then u.get i t
      else if anti = true then I.umAnti S m i (tau.get t) else I.umPlain S m i (tau.get t))
        * Real.cos ((m : ℝ) * (I.phi0 - phi.get p)) := by
    refine sum_congr rfl fun m hm => ?_
    rw [mem_range] at hm
    refine congrArg (· * _) ?_
    split_ifs with h0 h1
    · exact (huv.2.2 i (by rw [hr]; exact hi) t ht).symm
    · exact umAnti_same hS hL hm hi _
    · exact umPlain_same hS hL hm hi _
  refine (congrArg (fun z => I.rescale * _ - I.rescale * z) e).trans ?_
  rw [← sum_range_add_sum_Ico _ hFI, mul_add, add_sub_cancel_left, mul_sum]
  refine sum_congr rfl fun m hm => ?_
  rw [mem_Ico] at hm
  rw [if_neg (by omega : m ≠ 0)]
  exact (mul_assoc _ _ _).symm

end AsmIn

/-- **C139**, also for the antiderivatives. The modes left out do not depend on where the series is cut off: there are functions `W` such that for every `k` from two on the
call with `k` modes returns and `u` raises the same exceptions at the same arguments or its results differ by the terms from `k` on. With a single mode the code adds the internal
source by another statement, which does not raise where the others do (`C37_single_depth_raises`); hence `k` from two on. -/
theorem C139_any_cut (h : pydisort E J a = .ok R) (ho : a.onlyFlux = false) (anti : Bool) :
    ∃ W : ℕ → ℝ → ℕ → ℝ, ∀ k : ℕ, 2 ≤ k → k ≤ nFourier a → ∀ J' : Junk, ∃ R', pydisort E J' { a with NFourier := some k } = .ok R' ∧
      ∀ tau phi, SameOutcome (fun x x' => x.d0 = x'.d0 ∧ x.d1 = x'.d1 ∧ x.d2 = x'.d2 ∧
        ∀ i < x.d0, ∀ t < x.d1, ∀ p < x.d2,
          x.get i t p - x'.get i t p = ∑ m ∈ Ico k (nFourier a), W m (tau.get t) i * Real.cos (m * (a.phi0 - phi.get p)))
        (R.u tau phi anti) (R'.u tau phi anti) := by
  obtain ⟨hacc, O, r, _, _, hI, _, hof, _⟩ := pydisort_ok h
  refine ⟨R.I.term R.S anti, fun k hk2 hk J' => ?_⟩
  have hk0 : 0 < k := by omega
  have hn : 0 < nHalf a := by have := hacc.streams.1; unfold nHalf; omega
  have hFz : (nFourier a : ℤ) = a.NFourier.getD a.NQuad := by
    have := (hacc.modes ho).1
    unfold nFourier
    rw [if_neg (by simp [ho])]
    omega
  have hm := hacc.modes ho
  have hacc' : Accepted { a with NFourier := some (k : ℤ) } := { hacc with modes := fun _ => ⟨by simpa using hk0, by simp; omega⟩ }
  have hkF : nFourier { a with NFourier := some (k : ℤ) } = k := by
    unfold nFourier
    rw [if_neg (by simp [ho])]
    simp
  obtain ⟨R', d, h1, h2, h3, h4, h5⟩ := call_transfer (a' := { a with NFourier := some (k : ℤ) }) (J' := J') (F := k)
    (D := fun d => ⟨a.bdrf, a.bpos'.div d, a.bneg'.div d, _, _, _, _, _⟩) h hacc' rfl rfl (fun _ => rfl)
    (fun mu W O r => by
      have : ({ a with NFourier := some (k : ℤ) } : Args).nFourier.toNat = k := by rw [nFourier_eq]; exact hkF
      unfold Args.asmIn
      rw [this]
      rfl) hk0 hk
    (fun O r out out' m _ => CoefIn.AgreeBC.refl' rfl rfl rfl rfl rfl rfl rfl rfl rfl rfl rfl rfl rfl)
  have hnt : R'.nt = R.nt := h5 Iff.rfl fun _ _ _ => rfl
  have hL : 0 < R.I.NLayers := by rw [hI]; exact hacc.layers
  have hN : 0 < R.I.N := by rw [hI]; exact hn
  have hNF : R.I.NFourier = nFourier a := by rw [hI]; exact nFourier_eq
  have hphi : R.I.phi0 = a.phi0 := by rw [hI]; rfl
  have hrs : R'.I.rescale = R.I.rescale := by rw [h2]; rfl
  have hly : ∀ t, R'.I.layer t = R.I.layer t := fun t => by rw [h2]; rfl
  refine ⟨R', h1, fun tau phi => ?_⟩
  have hu : SameOutcome (AsmIn.Fewer R.I R.S k tau phi anti) (R.uUncorrected tau phi anti) (R'.uUncorrected tau phi anti) := by
    unfold Solved.uUncorrected
    rw [h2]
    exact AsmIn.u_fewer (h3.eval hk0) hN hL hk2 (by rw [hNF]; exact hk) tau phi anti
  unfold AsmIn.Fewer at hu
  rw [hNF, hphi] at hu
  unfold Solved.u
  rw [show R.onlyFlux = false by rw [hof, ho], show R'.onlyFlux = false by rw [h4]; exact ho, hnt]
  simp only [Bool.false_eq_true, if_false]
  cases hc : R.nt with
  | none => exact hu
  | some n =>
    simp only [Solved.uCorrected]
    refine SameOutcome.bind hu fun x y hxy => ?_
    obtain ⟨e0, e1, e2, hd⟩ := hxy
    simp only [hrs, hly]
    rcases n.corr tau phi anti (fun t => R.I.layer (tau.get t)) with e | c
    · exact rfl
    simp only [bind, Except.bind, addSqueezed]
    rw [e0, e1, e2] at hd ⊢
    split_ifs
    · refine ⟨rfl, rfl, rfl, fun i hi t ht p hp => ?_⟩
      simp only at hi ht hp ⊢
      rw [← hd i hi t ht p hp]
      ring
    · refine ⟨rfl, rfl, rfl, fun i hi t ht p hp => ?_⟩
      simp only at hi ht hp ⊢
      rw [← hd i hi t ht p hp]
      ring
    · exact rfl

/-- The hypotheses are met for every number of streams and every number of modes up to that of the first call. -/
example {n k : ℕ} (hn : 0 < n) (hk : k ≤ n) (J : Junk) : ∃ x R, pydisort refExt J (demo n x) = .ok R ∧ (demo n x).onlyFlux = false ∧ k ≤ nFourier (demo n x) := by
  obtain ⟨x, R, h, -⟩ := demo_call hn J
  exact ⟨x, R, h, rfl, by simpa [nFourier, demo] using hk⟩

end Pydisort

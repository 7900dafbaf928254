import Verif.PochLemmas
import Verif.Spec.Poch
import Verif.Props.Absorbing

/-! Helper lemmas for C136: Fourier modes whose factorial quotients are all computed as zero. -/

namespace Pydisort
open Finset Spec

variable {E : Ext} {a : Args} {O : Optics} {r : ℝ} {po : ℕ → ℕ → ℝ}

set_option exponentiation.threshold 1100 in
theorem two_pow_lt_factorial : (2 : ℝ) ^ 1076 < (Nat.factorial 178 : ℝ) := by norm_num [Nat.factorial]

theorem quotient_lt {P : ℝ} (hP : 0 < P) {n m : ℕ} (h : P < (n.factorial : ℝ)) (hn : n ≤ 2 * m) (k : ℕ) :
    (k.factorial : ℝ) / ((2 * m + k).factorial : ℝ) < 1 / P := by
  have h1 : (k.factorial : ℝ) * ((2 * m).factorial : ℝ) ≤ ((2 * m + k).factorial : ℝ) := by
    rw [mul_comm]
    exact_mod_cast Nat.le_of_dvd (Nat.factorial_pos _) (Nat.factorial_mul_factorial_dvd_factorial_add _ _)
  have h2 : (n.factorial : ℝ) ≤ ((2 * m).factorial : ℝ) := by exact_mod_cast Nat.factorial_le hn
  have h3 : (0 : ℝ) < (k.factorial : ℝ) := by exact_mod_cast Nat.factorial_pos k
  rw [div_lt_div_iff₀ (by exact_mod_cast Nat.factorial_pos _) hP, one_mul]
  exact lt_of_lt_of_le (mul_lt_mul_of_pos_left (lt_of_lt_of_le h h2) h3) h1

theorem flushes_zero (h : Flushes po) {m : ℕ} (hm : 89 ≤ m) (k : ℕ) : po m k = 0 :=
  h m k (quotient_lt (pow_pos two_pos _) two_pow_lt_factorial (by omega) k)

/-- A vector that a regular matrix maps to zero. -/
theorem mulVec_eq_zero {n : ℕ} {A : Mat} (hd : (toM n A).det ≠ 0) {x : Vec} (h : ∀ i < n, mulVec n A x i = 0) : ∀ i < n, x i = 0 := by
  intro i hi
  have : toV n x = 0 := by
    refine Matrix.eq_zero_of_mulVec_eq_zero hd ?_
    funext j
    have := h j j.2
    simp only [mulVec, Matrix.mulVec, dotProduct, toM, toV, Pi.zero_apply] at this ⊢
    rw [← this, Finset.sum_range]
  exact congrFun this ⟨i, hi⟩

theorem XrowP_zero {I : GenIn} {m : ℕ} (hz : ∀ k, po m k = 0) (l i : ℕ) : I.XrowP po m l i = 0 := by
  have e : ∀ k, I.XtempP po m l k = 0 := fun k => by simp [GenIn.XtempP, GenIn.scalarFacP, hz]
  unfold GenIn.XrowP GenIn.XposP GenIn.XnegP
  simp [e]

theorem B_zero {I : GenIn} {out : GenOut} (h : GenSpecP po E I out) (hb : I.beam = true) {m : ℕ} (hm : m < I.NFourier) (hm0 : m ≠ 0) (hz : ∀ k, po m k = 0) {l : ℕ}
    (hl : l < I.NLayers) : ∀ i < 2 * I.N, out.B m l i = 0 := by
  by_cases hs : I.scatters m l
  · obtain ⟨A, _, hd, hx⟩ := h.beamSolve hb m hm l hl hs fun hc => hm0 hc.1
    exact mulVec_eq_zero hd fun i hi => by rw [hx i hi, XrowP_zero hz]
  · intro i _
    rw [(h.trivG m hm l hl hs).2.2]

/-- The coefficients of a mode with nothing on the right-hand side. -/
theorem coefMode_zero {c : CoefIn} (hN : 0 < c.N) (hL : 0 < c.NLayers) {m : ℕ} {x : Vec} (h : coefMode c m = .ok x) (hR : c.bdrf[m]? = none)
    (hbn : ∀ v, bcMode c.N m c.bnegScalar c.bnegVector c.bneg = .ok v → ∀ i < c.N, v i = 0)
    (hbp : ∀ v, bcMode c.N m c.bposScalar c.bposVector c.bpos = .ok v → ∀ i < c.N, v i = 0)
    (hp : ∀ l < c.NLayers, ∀ t, ∀ q < 2 * c.N, c.part m l t q = 0) : ∀ i < c.dim, x i = 0 := by
  unfold coefMode at h
  have e1 : coefR c m = .ok none := by unfold coefR; rw [hR]
  rw [e1] at h
  simp only [bind, Except.bind] at h
  rcases hX : coefX c m with e | X
  · rw [hX] at h; cases h
  rcases h1 : bcMode c.N m c.bposScalar c.bposVector c.bpos with e | bpos
  · rw [hX, h1] at h; cases h
  rcases h2 : bcMode c.N m c.bnegScalar c.bnegVector c.bneg with e | bneg
  · rw [hX, h1, h2] at h; cases h
  rw [hX, h1, h2] at h
  simp only at h
  have hr : ∀ i < c.dim, c.rhs m bneg bpos none X (fun _ => 0) i = 0 := by
    intro i hi
    rcases CoefIn.row_cases hN hL hi with h' | ⟨k, hk, q, hq, rfl⟩ | ⟨t, ht, rfl⟩
    · rw [CoefIn.rhs_top c hN hL m _ _ _ _ _ h', hbn _ h2 i h', hp 0 hL _ _ (by omega), sub_zero]
    · rw [CoefIn.rhs_mid c m _ _ _ _ _ hk hq, hp _ (by omega) _ _ hq, hp _ (by omega) _ _ hq, sub_zero]
    · rw [CoefIn.rhs_bot c hN hL m _ _ _ _ _ ht, hbp _ h1 t ht, hp _ (by omega) _ _ (by omega)]
      simp
  unfold npSolve at h
  split_ifs at h with hd
  cases h
  have hz : toV c.dim (c.rhs m bneg bpos none X fun _ => 0) = 0 := by
    funext j; exact hr j j.2
  intro i hi
  rw [hz, Matrix.mulVec_zero]
  simp [ofV]

theorem pydisortP_ok {J : Junk} {R : Solved} (h : pydisortP po E J a = .ok R) :
    Accepted a ∧ ∃ O r, a.optics = .ok O ∧ a.rescaleFactor O = .ok r ∧ R.I = a.asm E O r ∧ solveAllP po E J R.I = .ok R.S
      ∧ R.onlyFlux = a.onlyFlux ∧ (¬ a.NTGate → R.nt = none) := by
  unfold pydisortP at h
  rcases h1 : prepare E a with e | p
  · rw [h1] at h; cases h
  rw [h1] at h; simp only [bind, Except.bind] at h
  rcases h2 : solveAllP po E J p.1 with e | S
  · rw [h2] at h; cases h
  rw [h2] at h; cases h
  obtain ⟨hacc, O, r, hO, hr, rfl⟩ := prepare_ok h1
  exact ⟨hacc, O, r, hO, hr, rfl, h2, rfl, fun hg => by simp [hg]⟩

theorem solveAllP_ok {J : Junk} {I : AsmIn} {S : Sols} (h : solveAllP po E J I = .ok S) :
    ∃ out GC, genSolP po E J.gen I.genIn = .ok out ∧ solveCoeffs (I.coefIn out) J.coef J.rhs = .ok GC ∧
      S = ⟨out.G, out.K, out.B, I.gim out.Ginv0, GC⟩ := by
  unfold solveAllP at h
  rcases h1 : genSolP po E J.gen I.genIn with e | out
  · rw [h1] at h; cases h
  rcases h2 : solveCoeffs (I.coefIn out) J.coef J.rhs with e | GC
  · rw [h1] at h; simp only [bind, Except.bind] at h; rw [h2] at h; cases h
  · rw [h1] at h; simp only [bind, Except.bind] at h; rw [h2] at h; cases h
    exact ⟨out, GC, rfl, h2, rfl⟩

/-- A mode whose factorial quotients are all computed as zero, with nothing prescribed at the boundaries and no reflection, is computed as zero. -/
theorem val_zero {J : Junk} {R : Solved} (h : pydisortP po E J a = .ok R) (hres : Rescalable a) {m : ℕ} (hm : m < nFourier a) (hm0 : m ≠ 0) (hz : ∀ k, po m k = 0)
    (hbp : Azimuthless a.bpos) (hbn : Azimuthless a.bneg) (hB : a.bdrf.length ≤ m) (t : ℝ) : ∀ i < 2 * nHalf a, R.I.rescale * R.I.val R.S m t i = 0 := by
  obtain ⟨hacc, O, r, hO, hr, hI, hsol, _⟩ := pydisortP_ok h
  have hs := Args.optics_spec hacc hO
  have hrI : R.I.rescale = r := by rw [hI]; rfl
  rcases eq_or_ne r 0 with h0 | h0
  · intro i _; rw [hrI, h0, zero_mul]
  rw [hI] at hsol
  obtain ⟨out, GC, hout, hGC, hS⟩ := solveAllP_ok hsol
  have hd := asm_depthOK (E := E) (r := r) hacc hs
  have hNh : 0 < (a.asm E O r).N := by
    have := hacc.streams.1
    change 0 < (a.NQuad / 2).toNat
    omega
  have hn : a.halfN = ((a.asm E O r).N : ℤ) := by
    change a.NQuad / 2 = ((a.NQuad / 2).toNat : ℤ)
    have := hacc.streams.1; omega
  have hm' : m < (a.asm E O r).NFourier := by rw [← nFourier_eq] at hm; exact hm
  have hsp : GenSpecP po E (a.asm E O r).genIn out := genSolP_spec (by change 0 < (a.asm E O r).NFourier; omega) hout
  set I := a.asm E O r with hIdef
  obtain ⟨C, hGCe, hC⟩ := solveCoeffs_ok (I := I.coefIn out) hNh hd.L hGC
  have hB0 : I.beam = true → ∀ l < I.NLayers, ∀ i < 2 * I.N, out.B m l i = 0 := fun hb l hl => B_zero hsp hb hm' hm0 hz hl
  have hcase : ∀ (b : BCv), ((0 < r ∧ a.rescaleDiv r = r) ∨ (r = 0 ∧ b.AllZero)) := fun b => by
    rcases rescale_cases hacc hs hr hres with h2 | h2
    · exact Or.inl h2
    · exact absurd h2.1 h0
  have hCz : ∀ i < (I.coefIn out).dim, C m i = 0 := by
    refine coefMode_zero hNh hd.L (hC m hm') (List.getElem?_eq_none hB) ?_ ?_ ?_
    · intro v hv i hi
      have := bcMode_spec (b := a.bneg) (b' := a.bneg') (d := a.rescaleDiv r) (hcase _) hbn (by
        unfold Args.bneg'
        by_cases hz : a.bneg.AllZero
        · exact Or.inl ⟨hz, by rw [if_pos hz]⟩
        · exact Or.inr ⟨hz, by rw [if_neg hz]⟩) (by simp [I, AsmIn.coefIn, Args.asmIn]) (by
        rw [show (I.coefIn out).bnegVector = decide (¬ a.bneg'.len = 1 ∧ (a.bneg'.len : ℤ) = a.halfN) from by
          simp [I, AsmIn.coefIn, Args.asmIn], decide_eq_true_eq, hn]
        simp only [Nat.cast_inj]; exact Iff.rfl) hv hi
      rw [bcVal_mode hbn hm0] at this
      exact (mul_eq_zero.1 this).resolve_left h0
    · intro v hv i hi
      have := bcMode_spec (b := a.bpos) (b' := a.bpos') (d := a.rescaleDiv r) (hcase _) hbp (by
        unfold Args.bpos'
        by_cases hz : a.bpos.AllZero
        · exact Or.inl ⟨hz, by rw [if_pos hz]⟩
        · exact Or.inr ⟨hz, by rw [if_neg hz]⟩) (by simp [I, AsmIn.coefIn, Args.asmIn]) (by
        rw [show (I.coefIn out).bposVector = decide (¬ a.bpos'.len = 1 ∧ (a.bpos'.len : ℤ) = a.halfN) from by
          simp [I, AsmIn.coefIn, Args.asmIn], decide_eq_true_eq, hn]
        simp only [Nat.cast_inj]; exact Iff.rfl) hv hi
      rw [bcVal_mode hbp hm0] at this
      exact (mul_eq_zero.1 this).resolve_left h0
    · intro l hl t q hq
      unfold CoefIn.part
      rw [if_neg (show ¬ (m = 0 ∧ (I.coefIn out).iso = true) from fun h => hm0 h.1), zero_add]
      split_ifs with hb
      · rw [show (I.coefIn out).B m l q = 0 from hB0 hb l hl q hq, zero_mul]
      · rfl
  intro i hi
  have hlay : I.layer t < I.NLayers := AsmIn.layer_lt hd t
  have hv : I.val R.S m t i = 0 := by
    unfold AsmIn.val AsmIn.umPlain
    rw [if_neg (show ¬ (m = 0 ∧ I.iso = true) from fun h => hm0 h.1), add_zero, hS]
    have e1 : ∑ j ∈ range (2 * I.N), GC m (I.layer t) i j * Real.exp (I.exponent ⟨out.G, out.K, out.B, I.gim out.Ginv0, GC⟩ m t j) = 0 := by
      refine sum_eq_zero fun j hj => ?_
      have hj' := mem_range.1 hj
      rw [hGCe]
      have : (I.layer t + 1) * (2 * I.N) ≤ I.NLayers * (2 * I.N) := Nat.mul_le_mul_right _ hlay
      have hlt : I.layer t * (2 * I.N) + j < (I.coefIn out).dim := by
        change _ < I.NLayers * (2 * I.N)
        rw [Nat.succ_mul] at this
        omega
      change (out.G m (I.layer t) i j * C m (I.layer t * (2 * I.N) + j)) * _ = 0
      rw [hCz _ hlt, mul_zero, zero_mul]
    simp only [e1, zero_add]
    split_ifs with hb
    · rw [hB0 hb _ hlay i hi, zero_mul]
    · rfl
  rw [hI, hv, mul_zero]

end Pydisort

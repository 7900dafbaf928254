import Verif.FieldLemmas

/-! Helper lemmas: what the returned functions evaluate to, and the main result on the computed field. -/

namespace Pydisort
open Finset
open Spec (bdry)

/-- Elementwise operation on arrays of equal shape. -/
theorem A2.bin_same {α β γ : Type} (f : α → β → γ) {x : A2 α} {y : A2 β} (hr : x.r = y.r) (hc : x.c = y.c) :
    ∃ z, A2.bin f x y = .ok z ∧ z.r = x.r ∧ z.c = x.c ∧
      ∀ i < x.r, ∀ j < x.c, z.get i j = f (x.get i j) (y.get i j) := by
  unfold A2.bin
  rw [← hr, ← hc, bdim_self, bdim_self]
  refine ⟨_, rfl, rfl, rfl, fun i hi j hj => ?_⟩
  simp only
  rw [bix_of_lt hi, bix_of_lt hj]

theorem A1.bin_same {α β γ : Type} (f : α → β → γ) {x : A1 α} {y : A1 β} (hr : x.n = y.n) :
    ∃ z, A1.bin f x y = .ok z ∧ z.n = x.n ∧ ∀ i < x.n, z.get i = f (x.get i) (y.get i) := by
  unfold A1.bin
  rw [← hr, bdim_self]
  refine ⟨_, rfl, rfl, fun i hi => ?_⟩
  simp only
  rw [bix_of_lt hi]

namespace AsmIn
variable (I : AsmIn) (S : Sols)

/-- Value of mode `m` at depth `t`, stream `i`, before scaling back. -/
noncomputable def val (m : ℕ) (t : ℝ) (i : ℕ) : ℝ :=
  I.umPlain S m i t + (if m = 0 ∧ I.iso = true then
      mathscrV (2 * I.N) I.Nscoeffs (I.s (I.layer t)) (S.G 0 (I.layer t)) (S.K 0 (I.layer t))
        (S.Gim (I.layer t)) (I.scaledTau t) i else 0)

theorem mathscrV_shift (n Nc : ℕ) (s : Vec) (G : Mat) (K g : Vec) (tau : ℝ) (r0 q : ℕ) :
    mathscrV n Nc s (fun q => G (r0 + q)) K g tau q = mathscrV n Nc s G K g tau (r0 + q) := rfl

theorem addIso_plain (tau : A1 ℝ) (row0 rows : ℕ) {x : A2 ℝ} (hr : x.r = rows) (hc : x.c = tau.n)
    (hx : ∀ i < rows, ∀ t < tau.n, x.get i t = I.umPlain S 0 (row0 + i) (tau.get t)) :
    Spec.Returns2 (I.addIso S tau false row0 rows x) rows tau.n (fun i t => I.val S 0 (tau.get t) (row0 + i)) := by
  unfold addIso
  by_cases hi : I.iso = true
  · rw [if_pos hi]
    unfold isoPart
    simp only [Bool.false_eq_true, if_false, bind, Except.bind]
    obtain ⟨z, h1, h2, h3, h4⟩ := A2.bin_same (fun x y : ℝ => x + y) (x := x)
      (y := ⟨rows, tau.n, fun q t => mathscrV (2 * I.N) I.Nscoeffs (I.s (I.layer (tau.get t)))
        (fun q => S.G 0 (I.layer (tau.get t)) (row0 + q)) (S.K 0 (I.layer (tau.get t)))
        (S.Gim (I.layer (tau.get t))) (I.scaledTau (tau.get t)) q⟩) hr hc
    refine ⟨z, h1, by rw [h2, hr], by rw [h3, hc], fun i hi' t ht => ?_⟩
    rw [h4 i (by omega) t (by omega), hx i hi' t ht]
    unfold val
    simp only [hi, and_self, if_true]
    rw [mathscrV_shift]
  · rw [if_neg hi]
    refine ⟨x, rfl, hr, hc, fun i hi' t ht => ?_⟩
    rw [hx i hi' t ht]
    unfold val
    simp [hi]

theorem u0_plain {tau : A1 ℝ} (h : I.checkTau tau = .ok ()) :
    Spec.Returns2 (I.u0 S tau false) (2 * I.N) tau.n (fun i t => I.rescale * I.val S 0 (tau.get t) i) := by
  unfold u0
  rw [h]
  obtain ⟨z, h1, h2, h3, h4⟩ := I.addIso_plain S tau 0 (2 * I.N) (x := I.u0Raw S tau false)
    (by simp [u0Raw]) (by simp [u0Raw]) (by intro i _ t _; simp [u0Raw])
  simp only [bind, Except.bind, h1]
  refine ⟨_, rfl, h2, h3, fun i hi t ht => ?_⟩
  simp only [A2.map]
  rw [h4 i hi t ht]; simp only [Nat.zero_add]

theorem um0_plain (tau : A1 ℝ) :
    Spec.Returns2 (I.um0 S tau false) (2 * I.N) tau.n (fun i t => I.val S 0 (tau.get t) i) := by
  unfold um0
  simp only [Bool.false_eq_true, if_false]
  obtain ⟨z, h1, h2, h3, h4⟩ := I.addIso_plain S tau 0 (2 * I.N)
    (x := ⟨2 * I.N, tau.n, fun i t => I.umPlain S 0 i (tau.get t)⟩) rfl rfl (by intro i _ t _; simp)
  by_cases hi : I.iso = true
  · rw [if_pos hi]
    simp only [bind, Except.bind, h1]
    rw [if_pos (Or.inr h3)]
    refine ⟨z, rfl, h2, h3, fun i hi t ht => ?_⟩
    rw [h4 i hi t ht]; simp only [Nat.zero_add]
  · rw [if_neg hi]
    refine ⟨_, rfl, rfl, rfl, fun i _ t _ => ?_⟩
    unfold val; simp [hi]

theorem uRaw_plain {tau : A1 ℝ} (phi : A1 ℝ) (h : I.checkTau tau = .ok ()) :
    Spec.Returns3 (I.uRaw S tau phi false) (2 * I.N) tau.n phi.n (fun i t p =>
      ∑ m ∈ range I.NFourier, I.val S m (tau.get t) i * Real.cos ((m : ℝ) * (I.phi0 - phi.get p))) := by
  unfold uRaw
  rw [h]
  obtain ⟨z, h1, h2, h3, h4⟩ := I.um0_plain S tau
  simp only [bind, Except.bind, h1]
  refine ⟨_, rfl, rfl, h3, rfl, fun i hi t ht p hp => ?_⟩
  simp only
  refine sum_congr rfl fun m _ => ?_
  congr 1
  by_cases hm : m = 0
  · rw [if_pos hm, h4 i hi t ht, hm]
  · rw [if_neg hm]
    unfold val; simp [hm]

theorem u_plain {tau : A1 ℝ} (phi : A1 ℝ) (h : I.checkTau tau = .ok ()) :
    Spec.Returns3 (I.u S tau phi false) (2 * I.N) tau.n phi.n (fun i t p =>
      ∑ m ∈ range I.NFourier, (I.rescale * I.val S m (tau.get t) i) * Real.cos ((m : ℝ) * (I.phi0 - phi.get p))) := by
  obtain ⟨z, h1, h2, h3, h4, h5⟩ := I.uRaw_plain S phi h
  unfold u
  simp only [bind, Except.bind, h1]
  refine ⟨_, rfl, h2, h3, h4, fun i hi t ht p hp => ?_⟩
  simp only
  rw [h5 i hi t ht p hp, mul_sum]
  exact sum_congr rfl fun m _ => by ring

end AsmIn

/-- The solution layer by layer (`U m l t i`), as a function of the caller's depth, with the residual that overflowing factorials may leave. -/
structure IsFieldR (E : Ext) (a : Args) (R : Solved) (U : ℕ → ℕ → ℝ → ℕ → ℝ) : Prop where
  odeR : ∀ m < Spec.nFourier a, ∀ l < a.tauArr.n, ∀ t, ∀ i < 2 * Spec.nHalf a,
    HasDerivAt (fun x => U m l x i) (Spec.rteUser a (Spec.node E a) (Spec.weight E a) m l t (U m l t) i
      / Spec.stream (Spec.nHalf a) (Spec.node E a) i
      + if m = 0 ∧ R.I.iso = true then R.I.rescale * Spec.scale a l * ∑ k ∈ range (2 * Spec.nHalf a),
          R.S.G 0 l i k * (resid R.I.Nscoeffs (R.I.s l) (R.S.K 0 l k) (Spec.tauStar a l t) * R.S.Gim l k) else 0) t
  top : Spec.Azimuthless a.bneg → ∀ m < Spec.nFourier a, ∀ i < Spec.nHalf a,
    U m 0 0 (Spec.nHalf a + i) = Spec.bcVal a.bneg m i
  mid : ∀ m < Spec.nFourier a, ∀ l, l + 1 < a.tauArr.n → ∀ i < 2 * Spec.nHalf a,
    U m l (a.tauArr.get l) i = U m (l + 1) (a.tauArr.get l) i
  bot : Spec.Azimuthless a.bpos → ∀ rho : ℕ → ℝ → ℝ → ℝ,
    (∀ m < Spec.nFourier a, ∀ M, a.bdrf[m]? = some M → Spec.Represents M (rho m)) →
    ∀ m < Spec.nFourier a, ∀ i < Spec.nHalf a,
      U m (a.tauArr.n - 1) (a.tauArr.get (a.tauArr.n - 1)) i = Spec.bcVal a.bpos m i
        + if m < a.bdrf.length then Spec.reflected a (Spec.node E a) (Spec.weight E a) (rho m) m (Spec.node E a i)
            (fun j => U m (a.tauArr.n - 1) (a.tauArr.get (a.tauArr.n - 1)) (Spec.nHalf a + j)) else 0
  modes : Spec.IsModes a R (fun m t i => U m (R.I.layer t) t i)
  nonzero : ∀ l < a.tauArr.n, ∀ k < 2 * Spec.nHalf a, R.S.K 0 l k ≠ 0

/-- The solution layer by layer, without residual. -/
structure IsField (E : Ext) (a : Args) (R : Solved) (U : ℕ → ℕ → ℝ → ℕ → ℝ) : Prop extends IsFieldR E a R U where
  ode : ∀ m < Spec.nFourier a, ∀ l < a.tauArr.n, ∀ t, ∀ i < 2 * Spec.nHalf a,
    HasDerivAt (fun x => U m l x i) (Spec.rteUser a (Spec.node E a) (Spec.weight E a) m l t (U m l t) i
      / Spec.stream (Spec.nHalf a) (Spec.node E a) i) t

theorem isFieldR {E : Ext} {J : Junk} {a : Args} {R : Solved} (h : pydisort E J a = .ok R) (hS : Spec.Numerics E a)
    (hres : Spec.Rescalable a) : ∃ U, IsFieldR E a R U := by
  obtain ⟨hacc, O, r, hO, hr, hI, hsol, _⟩ := pydisort_ok h
  have hs := Args.optics_spec hacc hO
  have hI' : R.I = a.asm E O r := hI
  rw [hI'] at hsol
  have hg := asm_good_of (r := r) hacc hs hS.gauss hS.eig hS.regular
  have hd := asm_depthOK (E := E) (r := r) hacc hs
  have hL : 0 < a.tauArr.n := hacc.layers
  obtain ⟨out, C, hsp, hG, hK, hB, hGim, hC, hGC, hms, hbc⟩ :=
    AsmIn.modeSol hsol hg (asm_nonRes hacc hs hS hsol)
  set w := ((a.asm E O r).coefIn out).sol C with hw
  refine ⟨fun m l t i => r * w m l (Spec.tauStar a l t) i, ?_, ?_, ?_, ?_, ?_, ?_⟩
  · intro m hm l hl t i hi
    have hm' : m < (a.asm E O r).NFourier := by rw [← nFourier_eq] at hm; exact hm
    have h1 := hms.deriv m hm' l hl (Spec.tauStar a l t) i hi
    have h2 : HasDerivAt (fun x => Spec.tauStar a l x) (Spec.scale a l) t := by
      unfold Spec.tauStar
      have := (((hasDerivAt_id t).sub_const (bdry a.tauArr.get l)).const_mul (Spec.scale a l)).const_add
        (Spec.bdryStar a l)
      simpa using this
    have h3 := (HasDerivAt.comp t h1 h2).const_mul r
    refine h3.congr_deriv ?_
    rw [← odeRHS_spec hacc hs hr hres hS.gauss hl m t _ hi, mul_div_cancel_left₀ _ (stream_ne hS.gauss hi), hI']
    change r * (_ * _) = _ + if m = 0 ∧ (a.asm E O r).iso = true then r * _ * _ else 0
    split_ifs
    · rw [add_mul, mul_add]
      congr 1
      · ring
      · change r * ((∑ k ∈ range (2 * Spec.nHalf a), _) * _) = _
        ring
    · ring
  · intro haz m hm i hi
    have hm' : m < (a.asm E O r).NFourier := by rw [← nFourier_eq] at hm; exact hm
    obtain ⟨Rf, X, bneg, bpos, hR, hX, hbn, hbp, hb⟩ := hbc m hm'
    have ht : Spec.tauStar a 0 0 = 0 := by simp [Spec.tauStar, Spec.bdryStar, bdry]
    have h1 := hb.top i hi
    change w m 0 0 (Spec.nHalf a + i) = bneg i at h1
    simp only [ht]
    rw [h1]
    refine bcMode_spec (b := a.bneg) (b' := a.bneg') (d := a.rescaleDiv r) ?_ haz ?_ ?_ ?_ hbn hi
    · rcases rescale_cases hacc hs hr hres with h2 | h2
      · exact Or.inl h2
      · exact Or.inr ⟨h2.1, h2.2.2.2.2.2⟩
    · unfold Args.bneg'
      by_cases hz : a.bneg.AllZero
      · exact Or.inl ⟨hz, by rw [if_pos hz]⟩
      · exact Or.inr ⟨hz, by rw [if_neg hz]⟩
    · simp [Args.asmIn]
    · have hn : a.halfN = ((a.asm E O r).N : ℤ) := by
        change a.NQuad / 2 = ((a.NQuad / 2).toNat : ℤ)
        have := hacc.streams.1; omega
      rw [show (a.asm E O r).bnegVector = decide (¬ a.bneg'.len = 1 ∧ (a.bneg'.len : ℤ) = a.halfN) from by
        simp [Args.asmIn], decide_eq_true_eq, hn]
      simp
  · intro m hm l hl i hi
    have hm' : m < (a.asm E O r).NFourier := by rw [← nFourier_eq] at hm; exact hm
    obtain ⟨Rf, X, bneg, bpos, hR, hX, hbn, hbp, hb⟩ := hbc m hm'
    have h1 := hb.mid l (by change l < a.tauArr.n - 1; omega) i hi
    have ht0 : ((a.asm E O r).coefIn out).tau0 (l + 1) = Spec.bdryStar a (l + 1) := hs.tau0 (l + 1) (by
      change l + 1 ≤ a.tauArr.n; omega)
    have e1 : Spec.tauStar a l (a.tauArr.get l) = Spec.bdryStar a (l + 1) := by
      rw [bdryStar_eq, Spec.bdry_succ]
    have e2 : Spec.tauStar a (l + 1) (a.tauArr.get l) = Spec.bdryStar a (l + 1) := by
      simp [Spec.tauStar, Spec.bdry_succ]
    rw [ht0] at h1
    simp only [e1, e2]
    change w m l _ i = w m (l + 1) _ i at h1
    rw [h1]
  · intro haz rho hrho m hm i hi
    have hm' : m < (a.asm E O r).NFourier := by rw [← nFourier_eq] at hm; exact hm
    obtain ⟨Rf, X, bneg, bpos, hR, hX, hbn, hbp, hb⟩ := hbc m hm'
    have ht0 : ((a.asm E O r).coefIn out).tau0 ((a.asm E O r).coefIn out).NLayers = Spec.bdryStar a a.tauArr.n :=
      hs.tau0 a.tauArr.n le_rfl
    have ht : Spec.tauStar a (a.tauArr.n - 1) (a.tauArr.get (a.tauArr.n - 1)) = Spec.bdryStar a a.tauArr.n := by
      have := bdryStar_eq a (a.tauArr.n - 1)
      rw [Spec.bdry_succ, show a.tauArr.n - 1 + 1 = a.tauArr.n by omega] at this
      exact this.symm
    have h1 := hb.bot i hi
    rw [ht0] at h1
    change w m (a.tauArr.n - 1) _ i = _ at h1
    simp only [ht]
    rw [h1, mul_add]
    congr 1
    · refine bcMode_spec (b := a.bpos) (b' := a.bpos') (d := a.rescaleDiv r) ?_ haz ?_ ?_ ?_ hbp hi
      · rcases rescale_cases hacc hs hr hres with h2 | h2
        · exact Or.inl h2
        · exact Or.inr ⟨h2.1, h2.2.2.2.2.1⟩
      · unfold Args.bpos'
        by_cases hz : a.bpos.AllZero
        · exact Or.inl ⟨hz, by rw [if_pos hz]⟩
        · exact Or.inr ⟨hz, by rw [if_neg hz]⟩
      · simp [Args.asmIn]
      · have hn : a.halfN = ((a.asm E O r).N : ℤ) := by
          change a.NQuad / 2 = ((a.NQuad / 2).toNat : ℤ)
          have := hacc.streams.1; omega
        rw [show (a.asm E O r).bposVector = decide (¬ a.bpos'.len = 1 ∧ (a.bpos'.len : ℤ) = a.halfN) from by
          simp [Args.asmIn], decide_eq_true_eq, hn]
        simp
    · by_cases hlen : m < a.bdrf.length
      · have hM : a.bdrf[m]? = some a.bdrf[m] := List.getElem?_eq_getElem hlen
        obtain ⟨R', rfl⟩ := coefR_some (c := (a.asm E O r).coefIn out) hM hR
        have hrep := hrho m hm _ hM
        rw [if_pos hlen]
        simp only
        unfold Spec.reflected
        rw [mul_add, mul_sum, mul_sum]
        congr 1
        · refine sum_congr rfl fun j hj => ?_
          have hj' : j < Spec.nHalf a := mem_range.mp hj
          rw [coefR_spec (c := (a.asm E O r).coefIn out) hM hrep hR hi hj']
          change r * ((_ * rho m (Spec.node E a i) (Spec.node E a j) * (Spec.node E a j * Spec.weight E a j))
            * w m (a.tauArr.n - 1) _ (Spec.nHalf a + j)) = _
          ring
        · have hI0 := rescale_I0 hacc hs hr hres
          by_cases hb : ((a.asm E O r).coefIn out).beam = true
          · rw [if_pos hb, coefX_spec (c := (a.asm E O r).coefIn out) hM hrep hb hX hi]
            change r * ((a.mu0 * (a.I0 / a.rescaleDiv r / (4 * Real.pi)) * 4) * rho m (Spec.node E a i) a.mu0
              * Real.exp (-Spec.bdryStar a a.tauArr.n / a.mu0)) = _
            conv_rhs => rw [← hI0]
            have := Real.pi_ne_zero
            field_simp
          · rw [if_neg hb]
            have : a.I0 = 0 := by
              have : ¬ a.I0 > 0 := by simpa [Args.asmIn, AsmIn.coefIn, Args.Beam] using hb
              exact le_antisymm (not_lt.mp this) hacc.beam
            rw [this]; ring
      · have hM : a.bdrf[m]? = none := List.getElem?_eq_none (by omega)
        have := coefR_none (c := (a.asm E O r).coefIn out) hM hR
        subst this
        rw [if_neg hlen]; simp
  · have hval : ∀ m t i, r * (a.asm E O r).val R.S m t i
        = r * w m (R.I.layer t) (Spec.tauStar a (R.I.layer t) t) i := by
      intro m t i
      rw [hI']
      have h1 := hms.eval m t i
      have h2 := AsmIn.scaledTau_eq hd t
      have hl := AsmIn.layer_lt hd t
      have h3 : (a.asm E O r).scaledTau t = Spec.tauStar a ((a.asm E O r).layer t) t := by
        rw [h2]
        change O.tau0 _ + O.scale _ * (t - bdry a.tauArr.get _) = _
        rw [hs.tau0 _ hl.le, hs.scale _ hl]; rfl
      rw [← h3]
      unfold AsmIn.val
      rw [h1]
    constructor
    · intro tau hin
      have hc : (a.asm E O r).checkTau tau = .ok () := AsmIn.checkTau_ok hin
      obtain ⟨z, h1, h2, h3, h4⟩ := (a.asm E O r).u0_plain R.S hc
      refine ⟨z, ?_, h2, h3, fun i hi t ht => ?_⟩
      · unfold Solved.u0; rw [hI']; exact h1
      · rw [h4 i hi t ht]; exact hval 0 _ i
    · intro tau phi hin
      have hc : (a.asm E O r).checkTau tau = .ok () := AsmIn.checkTau_ok hin
      obtain ⟨z, h1, h2, h3, h4, h5⟩ := (a.asm E O r).u_plain R.S phi hc
      refine ⟨z, by unfold Solved.uUncorrected; rw [hI']; exact h1, h2, h3, h4, fun i hi t ht p hp => ?_⟩
      rw [h5 i hi t ht p hp]
      rw [← nFourier_eq]
      exact sum_congr rfl fun m _ => by rw [show (a.asm E O r).rescale = r from rfl, hval m]; rfl
  · intro l hl k hk
    rw [hK]
    exact AsmIn.K_ne_zero hsp hg.quad hg.eig hg.F hl hk

theorem isField {E : Ext} {J : Junk} {a : Args} {R : Solved} (h : pydisort E J a = .ok R) (hS : Spec.Sound E a)
    (hres : Spec.Rescalable a) : ∃ U, IsField E a R U := by
  obtain ⟨U, hU⟩ := isFieldR h hS.toNumerics hres
  refine ⟨U, hU, fun m hm l hl t i hi => (hU.odeR m hm l hl t i hi).congr_deriv ?_⟩
  split_ifs with hc
  · have hdeg : R.I.Nscoeffs ≤ 21 := by
      obtain ⟨hacc, O, r, hO, hr, hI, hsol, _⟩ := pydisort_ok h
      have hiso := hc.2
      rw [hI] at hiso ⊢
      have hi : a.Iso := by classical simpa [Args.asmIn] using hiso
      change a.nsc ≤ 21
      rw [Args.nsc_of_iso hi]; exact hS.degree.resolve_left (Args.iso_iff.1 hi)
    rw [sum_eq_zero fun k hk => ?_, mul_zero, add_zero]
    rw [resid_eq_zero hdeg _ (hU.nonzero l hl k (mem_range.mp hk)), zero_mul, mul_zero]
  · rw [add_zero]

section
variable {E : Ext} {J : Junk} {a : Args} {R : Solved} {U : ℕ → ℕ → ℝ → ℕ → ℝ}

theorem depthOK_of (h : pydisort E J a = .ok R) : R.I.DepthOK ∧ R.I.tauArr = a.tauArr.get ∧ R.I.NLayers = a.tauArr.n := by
  obtain ⟨hacc, O, r, hO, hr, hI, _⟩ := pydisort_ok h
  rw [hI]
  exact ⟨asm_depthOK hacc (Args.optics_spec hacc hO), rfl, rfl⟩

/-- At every depth of a (closed) layer, the value returned is that of the layer's solution. -/
theorem IsFieldR.eq_layer (hF : IsFieldR E a R U) (h : pydisort E J a = .ok R) {m l : ℕ} (hm : m < Spec.nFourier a)
    (hl : l < a.tauArr.n) {t : ℝ} (ht : Spec.InLayer a l t) {i : ℕ} (hi : i < 2 * Spec.nHalf a) :
    U m (R.I.layer t) t i = U m l t i := by
  obtain ⟨hd, e1, e2⟩ := depthOK_of h
  obtain ⟨h1, h2⟩ := ht
  rw [← e1] at h1 h2
  by_cases hlt : bdry R.I.tauArr l < t ∨ l = 0
  · rw [AsmIn.layer_eq hd (by omega) hlt h2]
  · push Not at hlt
    obtain ⟨hle, hl0⟩ := hlt
    have he : t = bdry R.I.tauArr l := le_antisymm hle h1
    have hlay : R.I.layer t = l - 1 := by
      refine AsmIn.layer_eq hd (by omega) (Or.inl ?_) ?_
      · rw [he]
        have := hd.mono (l - 1) (by omega)
        rwa [show l - 1 + 1 = l by omega] at this
      · rw [show l - 1 + 1 = l by omega]; exact he.le
    rw [hlay]
    have hm' := hF.mid m hm (l - 1) (by omega) i hi
    have : t = a.tauArr.get (l - 1) := by
      rw [he, e1]; simp [bdry, hl0]
    rw [show l - 1 + 1 = l by omega, ← this] at hm'
    exact hm'

end
end Pydisort

import Verif.ExponentsBC
import Verif.Props.Azimuth

/-!
# C132: inexact exponentials do not make the linear systems singular
-/

namespace Pydisort
open Finset Spec

variable {E : Ext} {a : Args} {O : Optics} {r : ℝ} {ex : ℝ → ℝ}

/-- Scattering is symmetric, so the operator of a layer is symmetric with respect to the flux form. -/
theorem asm_symm (hg : GaussContract E (nHalf a)) (hs : Args.OpticsSpec a O) {m l : ℕ} (hl : l < a.tauArr.n) :
    FluxSymm (nHalf a) (fun i => weight E a i * node E a i) ((a.asm E O r).genIn.effA m l) := by
  have key : ∀ x y : Vec, fluxForm (nHalf a) (fun i => weight E a i * node E a i) x (mulVec (2 * nHalf a) ((a.asm E O r).genIn.effA m l) y)
      = ∑ i ∈ range (2 * nHalf a), streamW (nHalf a) (weight E a) i * x i * y i
        - ∑ i ∈ range (2 * nHalf a), ∑ j ∈ range (2 * nHalf a), streamW (nHalf a) (weight E a) i * streamW (nHalf a) (weight E a) j
            * kernel a m l (stream (nHalf a) (node E a) i) (stream (nHalf a) (node E a) j) * x i * y j := by
    intro x y
    rw [← sum_sub_distrib]
    refine sum_congr rfl fun i hi => ?_
    have := effA_spec (r := r) hs hg hl m y (mem_range.mp hi)
    have e1 : sgn (nHalf a) (fun i => weight E a i * node E a i) i
        = streamW (nHalf a) (weight E a) i * stream (nHalf a) (node E a) i := by
      unfold sgn streamW stream; split_ifs <;> ring
    rw [e1]
    calc streamW (nHalf a) (weight E a) i * stream (nHalf a) (node E a) i * x i
          * mulVec (2 * nHalf a) ((a.asm E O r).genIn.effA m l) y i
        = streamW (nHalf a) (weight E a) i * x i * (stream (nHalf a) (node E a) i
          * mulVec (2 * nHalf a) ((a.asm E O r).genIn.effA m l) y i) := by ring
      _ = _ := by
        rw [this, mul_sub, mul_sum]
        congr 1
        exact sum_congr rfl fun j _ => by ring
  intro x y
  rw [key, fluxForm_comm, key, sum_comm]
  congr 1
  · exact sum_congr rfl fun i _ => by ring
  · refine sum_congr rfl fun i _ => sum_congr rfl fun j _ => ?_
    rw [kernel_symm]; ring

/-- One pass through the loop over the modes. -/
theorem coefBodyX_isOk (hw : WellPosed E a) (hex : Damping ex) (hs : Args.OpticsSpec a O) {out : GenOut}
    (hsp : GenSpec E (a.asm E O r).genIn out) (hG : ∀ m < nFourier a, ∀ l < a.tauArr.n, (toM (2 * nHalf a) (out.G m l)).det ≠ 0) {m : ℕ} (hm : m < nFourier a)
    (junk : ℕ → Vec) {st : CoefState} (hst : st.OK ((a.asm E O r).coefIn out)) :
    ∃ st', coefBodyX ex ((a.asm E O r).coefIn out) junk m st = .ok st' ∧ st'.OK ((a.asm E O r).coefIn out) := by
  have hacc := hw.accepted
  have hg := asm_good_of (r := r) hacc hs hw.gauss hw.eig (regular_of_dissipates hw.gauss hw.dissipates)
  have hdep := asm_depthOK (E := E) (r := r) hacc hs
  set I := a.asm E O r with hI
  set c := I.coefIn out with hc
  have hm' : m < I.NFourier := by rw [← nFourier_eq] at hm; exact hm
  have hsurf := hw.surface m hm
  obtain ⟨R, hR⟩ := coefR_isOk (c := c) (m := m) (fun M hM => by obtain ⟨rho, h1, _⟩ := hsurf M hM; exact ⟨rho, h1⟩)
  obtain ⟨X, hX⟩ := coefX_isOk (c := c) (m := m) (fun M hM => by obtain ⟨rho, h1, _⟩ := hsurf M hM; exact ⟨rho, h1⟩)
  have hhalf : a.halfN = (nHalf a : ℤ) := by
    have := hacc.streams.1
    unfold nHalf Args.halfN; omega
  obtain ⟨bp, hbp⟩ := bcMode_isOk (n := nHalf a) (m := m) (d := a.rescaleDiv r) hw.bottomBC hacc.bottom
  obtain ⟨bn, hbn⟩ := bcMode_isOk (n := nHalf a) (m := m) (d := a.rescaleDiv r) hw.topBC hacc.topBC
  have hbp' : bcMode c.N m c.bposScalar c.bposVector c.bpos = .ok bp := by
    rw [← hbp, ← hhalf]; rfl
  have hbn' : bcMode c.N m c.bnegScalar c.bnegVector c.bneg = .ok bn := by
    rw [← hbn, ← hhalf]; rfl
  have hdet : ∀ {M : Mat}, c.IsLhsX ex m R M → (toM c.dim M).det ≠ 0 := by
    intro M hM
    refine CoefIn.lhsX_det (s := fun i => weight E a i * node E a i) (A := fun l => I.genIn.effA m l)
      hex hg.N hg.L (fun m hm l hl j hj => AsmIn.K_sym hsp hm hl hj) hg.tau00 ?_ hm' R
      (fun l hl => (gen_K_neg hw hs hsp hm hl).1) (asm_dissipative hw hs hm)
      (fun l hl => asm_symm hw.gauss hs hl) (eig_of_spec hsp hg.eig m hm') (hG m hm) ?_ hM
    · intro l hl
      have h1 := hdep.step l hl
      have h2 := hdep.mono l hl
      have h3 : 0 < I.scale l := by
        change 0 < O.scale l
        rw [hs.scale l hl]; exact Args.scale_pos hacc hl
      change I.tau0 l < I.tau0 (l + 1)
      have h1' : I.tau0 (l + 1) = I.tau0 l + I.scale l * (bdry I.tauArr (l + 1) - bdry I.tauArr l) := h1
      have h2' : bdry I.tauArr l < bdry I.tauArr (l + 1) := h2
      nlinarith
    · intro R' hR' d
      rcases hM : a.bdrf[m]? with _ | M
      · have := coefR_none (c := c) hM hR
        rw [this] at hR'; cases hR'
      · obtain ⟨rho, hrep, hpas⟩ := hsurf M hM
        rw [hR'] at hR
        refine le_trans (le_of_eq ?_) (hpas d)
        refine sum_congr rfl fun i hi => ?_
        congr 2
        rw [mul_sum]
        refine sum_congr rfl fun j hj => ?_
        rw [coefR_spec (c := c) hM hrep hR (mem_range.mp hi) (mem_range.mp hj)]
        change _ * rho (node E a i) (node E a j) * (node E a j * weight E a j) * d j = _
        ring
  unfold coefBodyX
  rw [hR, hX, hbp', hbn']
  simp only [bind, Except.bind]
  have h1 := CoefIn.denseX_spec (ex := ex) hg.N hg.L m R hst.1
  have h2 := CoefIn.bandX_spec (ex := ex) hg.N hg.L m R hst.2
  unfold npSolve
  by_cases hb : c.useBanded = true
  · rw [if_pos hb, if_neg (hdet h2)]
    exact ⟨_, rfl, hst.1, h2.zero⟩
  · rw [if_neg hb, if_neg (hdet h1)]
    exact ⟨_, rfl, h1.zero, hst.2⟩

/-- C132: a well-posed call returns whatever numbers between 0 and 1 the exponentials of negative numbers are computed as. -/
theorem C132_solvable (hw : WellPosed E a) (hex : Damping ex) (J : Junk) : ∃ R, pydisortX ex E J a = .ok R := by
  obtain ⟨O, r, p, hs, hp⟩ := prepare_isOk (E := E) hw.accepted hw.sourceShape hw.angles
  obtain ⟨out, hout, hsp, hG⟩ := gen_isOk (r := r) hw hs J
  have key : ∀ n ≤ nFourier a, ∃ st, forRangeM n (coefBodyX ex ((a.asm E O r).coefIn out) J.rhs) ⟨J.coef.RHS, fun _ _ => 0, fun _ => 0, J.coef.C⟩ = .ok st
      ∧ st.OK ((a.asm E O r).coefIn out) := by
    intro n hn
    induction n with
    | zero => exact ⟨_, rfl, coefInit_ok _ _ _⟩
    | succ n ih =>
      obtain ⟨st, h1, h2⟩ := ih (by omega)
      obtain ⟨st', h3, h4⟩ := coefBodyX_isOk hw hex hs hsp hG (m := n) (by omega) J.rhs h2
      refine ⟨st', ?_, h4⟩
      unfold forRangeM
      rw [h1]
      exact h3
  obtain ⟨st, h1, _⟩ := key (nFourier a) le_rfl
  have h2 : ∃ GC, solveCoeffsX ex ((a.asm E O r).coefIn out) J.coef J.rhs = .ok GC := by
    unfold solveCoeffsX
    rw [show ((a.asm E O r).coefIn out).NFourier = nFourier a from nFourier_eq, h1]
    exact ⟨_, rfl⟩
  obtain ⟨GC, hGC⟩ := h2
  unfold pydisortX
  rw [hp]
  simp only [bind, Except.bind]
  unfold solveAllX
  rw [hout]
  simp only [bind, Except.bind]
  rw [hGC]
  exact ⟨_, rfl⟩

/-- With the exact exponential function the model is the one of `Model/Coeffs.lean`. -/
theorem C132_exact : pydisortX Real.exp = pydisort := rfl

theorem pydisortX_ok {J : Junk} {R : Solved} (h : pydisortX ex E J a = .ok R) :
    Accepted a ∧ ∃ O r, a.optics = .ok O ∧ a.rescaleFactor O = .ok r ∧
      R.I = a.asmIn (node E a) (weight E a) O r ∧ solveAllX ex E J R.I = .ok R.S := by
  unfold pydisortX at h
  rcases h1 : prepare E a with e | p
  · rw [h1] at h; cases h
  rw [h1] at h; simp only [bind, Except.bind] at h
  rcases h2 : solveAllX ex E J p.1 with e | S
  · rw [h2] at h; cases h
  rw [h2] at h; cases h
  obtain ⟨hacc, O, r, hO, hr, rfl⟩ := prepare_ok h1
  exact ⟨hacc, O, r, hO, hr, rfl, h2⟩

theorem solveAllX_ok {I : AsmIn} {J : Junk} {S : Sols} (h : solveAllX ex E J I = .ok S) (h1 : ex 0 = 1) (hF : 0 < I.NFourier) (hN : 0 < I.N) (hL : 0 < I.NLayers)
    (h0 : I.tau0 0 = 0) : ∃ out, ∀ m < I.NFourier, ∃ Rf X bneg bpos, coefR (I.coefIn out) m = .ok Rf ∧ coefX (I.coefIn out) m = .ok X
      ∧ bcMode I.N m I.bnegScalar I.bnegVector I.bneg = .ok bneg ∧ bcMode I.N m I.bposScalar I.bposVector I.bpos = .ok bpos
      ∧ (I.coefIn out).BCsX ex m Rf X bneg bpos (fun l x q => I.layerX ex S m l x q) := by
  unfold solveAllX at h
  rcases hg : genSol E J.gen I.genIn with e | out
  · rw [hg] at h; cases h
  rw [hg] at h; simp only [bind, Except.bind] at h
  have hsp := genSol_spec hF hg
  have hs : (I.coefIn out).KSym := fun m hm l hl j hj => AsmIn.K_sym hsp hm hl hj
  unfold solveCoeffsX at h
  rcases hf : forRangeM (I.coefIn out).NFourier (coefBodyX ex (I.coefIn out) J.rhs) ⟨J.coef.RHS, fun _ _ => 0, fun _ => 0, J.coef.C⟩ with e | st
  · rw [hf] at h; cases h
  rw [hf] at h; cases h
  refine ⟨out, fun m hm => ?_⟩
  obtain ⟨Rf, X, bneg, bpos, e1, e2, e3, e4, e5⟩ :=
    (coefLoopX_spec h1 hN hL hs h0 J.rhs (coefInit_ok (I.coefIn out) _ _) _ le_rfl st hf).2 m hm
  refine ⟨Rf, X, bneg, bpos, e1, e2, e3, e4, ?_⟩
  have : (fun l x q => (I.coefIn out).solX ex (st.C m) m l x q)
      = fun l x q => I.layerX ex ⟨out.G, out.K, out.B, I.gim out.Ginv0, fun m l i k => (I.coefIn out).G m l i k * st.C m (l * (2 * (I.coefIn out).N) + k)⟩ m l x q := by
    funext l x q
    unfold CoefIn.solX AsmIn.layerX CoefIn.partX
    rw [add_assoc, add_comm (if I.beam = true then _ else _)]
    rfl
  rw [this] at e5
  exact e5

/-- C132: the coefficients that a call returns make the computed modes satisfy the boundary and continuity conditions without any error, whatever function `ex` with `ex 0 = 1` computes
the exponentials. -/
theorem C132_conditions {J : Junk} {R : Solved} (h : pydisortX ex E J a = .ok R) (h1 : ex 0 = 1) (hres : Rescalable a) :
    (Azimuthless a.bneg → ∀ m < nFourier a, ∀ i < nHalf a, R.modeX ex m (nHalf a + i) 0 = bcVal a.bneg m i) ∧
    (∀ m < nFourier a, ∀ l, l + 1 < a.tauArr.n → ∀ i < 2 * nHalf a,
      R.I.layerX ex R.S m l (bdryStar a (l + 1)) i = R.I.layerX ex R.S m (l + 1) (bdryStar a (l + 1)) i) ∧
    (Azimuthless a.bpos → ∀ rho : ℕ → ℝ → ℝ → ℝ, (∀ m < nFourier a, ∀ M, a.bdrf[m]? = some M → Represents M (rho m)) →
      ∀ m < nFourier a, ∀ i < nHalf a, R.modeX ex m i (a.tauArr.get (a.tauArr.n - 1)) = bcVal a.bpos m i
        + if m < a.bdrf.length then reflectedX ex a (node E a) (weight E a) (rho m) m (node E a i)
            (fun j => R.modeX ex m (nHalf a + j) (a.tauArr.get (a.tauArr.n - 1))) else 0) := by
  obtain ⟨hacc, O, r, hO, hr, hI, hsol⟩ := pydisortX_ok h
  have hs := Args.optics_spec hacc hO
  have hI' : R.I = a.asm E O r := hI
  rw [hI'] at hsol
  have hd := asm_depthOK (E := E) (r := r) hacc hs
  have hL : 0 < a.tauArr.n := hacc.layers
  have hNh : 0 < (a.asm E O r).N := by
    have := hacc.streams.1
    change 0 < (a.NQuad / 2).toNat
    omega
  have hF : 0 < (a.asm E O r).NFourier := by
    change 0 < a.nFourier.toNat
    have h1 := hacc.modes
    unfold Args.nFourier
    split_ifs with hf
    · simp
    · have := (h1 (by simpa using hf)).1; omega
  have ht0 : (a.asm E O r).tau0 0 = 0 := by
    change O.tau0 0 = 0
    rw [hs.tau0 0 (Nat.zero_le _)]; simp [bdryStar]
  have hn : a.halfN = ((a.asm E O r).N : ℤ) := by
    change a.NQuad / 2 = ((a.NQuad / 2).toNat : ℤ)
    have := hacc.streams.1; omega
  obtain ⟨out, hbc⟩ := solveAllX_ok hsol h1 hF hNh hL ht0
  have hm' : ∀ m < nFourier a, m < (a.asm E O r).NFourier := fun m hm => by rw [← nFourier_eq] at hm; exact hm
  have etop : ∀ m i, R.modeX ex m i 0 = r * (a.asm E O r).layerX ex R.S m 0 0 i := by
    intro m i
    have h2 : (0 : ℝ) ≤ bdry (a.asm E O r).tauArr (0 + 1) := by
      have := (hd.mono 0 hL).le
      simpa [bdry] using this
    have el : (a.asm E O r).layer 0 = 0 := AsmIn.layer_eq hd (l := 0) hL (Or.inr rfl) h2
    have es : (a.asm E O r).scaledTau 0 = 0 := by
      rw [AsmIn.scaledTau_eq hd, el, ht0]
      simp [bdry]
    unfold Solved.modeX
    rw [hI', es, el]
    rfl
  have ebot : ∀ m i, R.modeX ex m i (a.tauArr.get (a.tauArr.n - 1))
      = r * (a.asm E O r).layerX ex R.S m (a.tauArr.n - 1) (bdryStar a a.tauArr.n) i := by
    intro m i
    have e : bdry (a.asm E O r).tauArr (a.tauArr.n - 1 + 1) = a.tauArr.get (a.tauArr.n - 1) := Spec.bdry_succ _ _
    have el : (a.asm E O r).layer (a.tauArr.get (a.tauArr.n - 1)) = a.tauArr.n - 1 :=
      AsmIn.layer_eq hd (l := a.tauArr.n - 1) (by change a.tauArr.n - 1 < a.tauArr.n; omega)
        (Or.inl (e ▸ hd.mono (a.tauArr.n - 1) (by change a.tauArr.n - 1 < a.tauArr.n; omega))) e.ge
    unfold Solved.modeX
    rw [hI', AsmIn.scaledTau_eq hd, el]
    have h2 := hd.step (a.tauArr.n - 1) (by change a.tauArr.n - 1 < a.tauArr.n; omega)
    rw [e] at h2
    rw [← h2, show a.tauArr.n - 1 + 1 = a.tauArr.n by omega, show (a.asm E O r).tau0 a.tauArr.n = bdryStar a a.tauArr.n from hs.tau0 a.tauArr.n le_rfl]
    rfl
  refine ⟨?_, ?_, ?_⟩
  · intro haz m hm i hi
    obtain ⟨Rf, X, bneg, bpos, hR, hX, hbn, hbp, hb⟩ := hbc m (hm' m hm)
    rw [etop]
    have h2 := hb.top i hi
    change (a.asm E O r).layerX ex R.S m 0 0 (nHalf a + i) = bneg i at h2
    rw [h2]
    refine bcMode_spec (b := a.bneg) (b' := a.bneg') (d := a.rescaleDiv r) ?_ haz ?_ ?_ ?_ hbn hi
    · rcases rescale_cases hacc hs hr hres with h2 | h2
      · exact Or.inl h2
      · exact Or.inr ⟨h2.1, h2.2.2.2.2.2⟩
    · unfold Args.bneg'
      by_cases hz : a.bneg.AllZero
      · exact Or.inl ⟨hz, by rw [if_pos hz]⟩
      · exact Or.inr ⟨hz, by rw [if_neg hz]⟩
    · simp [Args.asmIn]
    · rw [show (a.asm E O r).bnegVector = decide (¬ a.bneg'.len = 1 ∧ (a.bneg'.len : ℤ) = a.halfN) from by
        simp [Args.asmIn], decide_eq_true_eq, hn]
      simp
  · intro m hm l hl i hi
    obtain ⟨Rf, X, bneg, bpos, hR, hX, hbn, hbp, hb⟩ := hbc m (hm' m hm)
    have h2 := hb.mid l (by change l < a.tauArr.n - 1; omega) i hi
    rw [show ((a.asm E O r).coefIn out).tau0 (l + 1) = bdryStar a (l + 1) from hs.tau0 (l + 1) (by change l + 1 ≤ a.tauArr.n; omega)] at h2
    rw [hI']
    exact h2
  · intro haz rho hrho m hm i hi
    obtain ⟨Rf, X, bneg, bpos, hR, hX, hbn, hbp, hb⟩ := hbc m (hm' m hm)
    have h2 := hb.bot i hi
    rw [show ((a.asm E O r).coefIn out).tau0 ((a.asm E O r).coefIn out).NLayers = bdryStar a a.tauArr.n from hs.tau0 a.tauArr.n le_rfl] at h2
    change (a.asm E O r).layerX ex R.S m (a.tauArr.n - 1) _ i = _ at h2
    simp only [ebot]
    rw [h2, mul_add]
    congr 1
    · refine bcMode_spec (b := a.bpos) (b' := a.bpos') (d := a.rescaleDiv r) ?_ haz ?_ ?_ ?_ hbp hi
      · rcases rescale_cases hacc hs hr hres with h2 | h2
        · exact Or.inl h2
        · exact Or.inr ⟨h2.1, h2.2.2.2.2.1⟩
      · unfold Args.bpos'
        by_cases hz : a.bpos.AllZero
        · exact Or.inl ⟨hz, by rw [if_pos hz]⟩
        · exact Or.inr ⟨hz, by rw [if_neg hz]⟩
      · simp [Args.asmIn]
      · rw [show (a.asm E O r).bposVector = decide (¬ a.bpos'.len = 1 ∧ (a.bpos'.len : ℤ) = a.halfN) from by
          simp [Args.asmIn], decide_eq_true_eq, hn]
        simp
    · by_cases hlen : m < a.bdrf.length
      · have hM : a.bdrf[m]? = some a.bdrf[m] := List.getElem?_eq_getElem hlen
        obtain ⟨R', rfl⟩ := coefR_some (c := (a.asm E O r).coefIn out) hM hR
        have hrep := hrho m hm _ hM
        rw [if_pos hlen]
        simp only
        unfold reflectedX
        rw [mul_add, mul_sum, mul_sum]
        congr 1
        · refine sum_congr rfl fun j hj => ?_
          have hj' : j < nHalf a := mem_range.mp hj
          rw [coefR_spec (c := (a.asm E O r).coefIn out) hM hrep hR hi hj']
          change r * ((_ * rho m (node E a i) (node E a j) * (node E a j * weight E a j))
            * (a.asm E O r).layerX ex R.S m (a.tauArr.n - 1) _ (nHalf a + j)) = _
          ring
        · have hI0 := rescale_I0 hacc hs hr hres
          by_cases hb : ((a.asm E O r).coefIn out).beam = true
          · rw [if_pos hb, coefX_spec (c := (a.asm E O r).coefIn out) hM hrep hb hX hi]
            change r * ((a.mu0 * (a.I0 / a.rescaleDiv r / (4 * Real.pi)) * 4) * rho m (node E a i) a.mu0
              * ex (-bdryStar a a.tauArr.n / a.mu0)) = _
            conv_rhs => rw [← hI0]
            have := Real.pi_ne_zero
            field_simp
          · rw [if_neg hb]
            have : a.I0 = 0 := by
              have : ¬ a.I0 > 0 := by simpa [Args.asmIn, AsmIn.coefIn, Args.Beam] using hb
              exact le_antisymm (not_lt.mp this) hacc.beam
            rw [this]; ring
      · have hM : a.bdrf[m]? = none := List.getElem?_eq_none (by omega)
        have := coefR_none (c := (a.asm E O r).coefIn out) hM hR
        subst this
        rw [if_neg hlen]; simp

/-- With the exact exponential function the modelled `u0` is the one of `Model/Assemble.lean`. -/
theorem C132_u0_exact (R : Solved) (tau : A1 ℝ) :
    (∀ e, R.u0X Real.exp tau = .error e → R.u0 tau false = .error e) ∧
    ∀ z, R.u0X Real.exp tau = .ok z → Returns2 (R.u0 tau false) z.r z.c z.get := by
  unfold Solved.u0X
  rcases hc : R.I.checkTau tau with e | u
  · refine ⟨fun e' h => ?_, fun z h => by cases h⟩
    cases h
    unfold Solved.u0 AsmIn.u0
    rw [hc]; rfl
  · refine ⟨fun e' h => (by cases h), fun z h => ?_⟩
    cases h
    obtain ⟨z, e1, e2, e3, e4⟩ := R.I.u0_plain R.S (tau := tau) hc
    refine ⟨z, e1, e2, e3, fun i hi t ht => ?_⟩
    rw [e4 i hi t ht]
    rfl

/-- The exponential function itself. -/
example : Damping Real.exp := fun _ h => ⟨(Real.exp_pos _).le, Real.exp_le_one_iff.2 h.le⟩

/-- With underflow to zero. -/
example : Damping (fun x => if x < -745 then 0 else Real.exp x) := by
  intro x h
  dsimp only
  split_ifs
  · exact ⟨le_rfl, zero_le_one⟩
  · exact ⟨(Real.exp_pos _).le, Real.exp_le_one_iff.2 h.le⟩

/-- Rounded in any monotone way that keeps 0 and 1. -/
example (fl : ℝ → ℝ) (hmono : Monotone fl) (h0 : fl 0 = 0) (h1 : fl 1 = 1) : Damping (fun x => fl (Real.exp x)) := fun x h =>
  ⟨h0 ▸ hmono (Real.exp_pos x).le, h1 ▸ hmono (Real.exp_le_one_iff.2 h.le)⟩

/-- With the exact exponential function the reflected light is that of the specification. -/
example : reflectedX Real.exp = reflected := rfl

/-- A case with scattering, a beam, an internal source and a reflecting surface: the hypotheses of all theorems hold. -/
example {n : ℕ} (hn : 0 < n) (J : Junk) : ∃ x, Rescalable (demoFull n x) ∧ ∃ ex : ℝ → ℝ, ex ≠ Real.exp ∧ ex 0 = 1 ∧ Damping ex
    ∧ ∃ R, pydisortX ex refExt J (demoFull n x) = .ok R := by
  obtain ⟨x, _, _, hw⟩ := demoFull_wellPosed hn
  have hd : Damping (fun y => if y < -745 then 0 else Real.exp y) := by
    intro y h
    dsimp only
    split_ifs
    · exact ⟨le_rfl, zero_le_one⟩
    · exact ⟨(Real.exp_pos _).le, Real.exp_le_one_iff.2 h.le⟩
  refine ⟨x, Or.inl (Or.inl one_pos), _, fun h => ?_, ?_, hd, C132_solvable hw hd J⟩
  · have := congrFun h (-746)
    norm_num at this
    exact (Real.exp_pos _).ne this
  · norm_num

end Pydisort

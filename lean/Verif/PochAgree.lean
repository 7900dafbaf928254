import Verif.PochDark
import Verif.SameEval

/-! Helper lemmas for C136: Fourier modes with the same factorial quotients come out the same. -/

namespace Pydisort
open Finset Spec

variable {E : Ext} {po po' : ℕ → ℕ → ℝ}

section gen
variable {I : GenIn} {m : ℕ}

theorem alphaP_congr (h : ∀ k < I.NLeg - m, po m k = po' m k) (l : ℕ) : I.alphaP po m l = I.alphaP po' m l := by
  funext i j
  unfold GenIn.alphaP GenIn.DposP GenIn.DtempP
  rw [sum_congr rfl fun k hk => by rw [h k (mem_range.1 hk)]]

theorem betaP_congr (h : ∀ k < I.NLeg - m, po m k = po' m k) (l : ℕ) : I.betaP po m l = I.betaP po' m l := by
  funext i j
  unfold GenIn.betaP GenIn.DnegP GenIn.DtempP
  rw [sum_congr rfl fun k hk => by rw [h k (mem_range.1 hk)]]

theorem XrowP_congr (h : ∀ k < I.NLeg - m, po m k = po' m k) (l : ℕ) : I.XrowP po m l = I.XrowP po' m l := by
  have e : ∀ k ∈ range (I.NLeg - m), I.XtempP po m l k = I.XtempP po' m l k := fun k hk => by
    unfold GenIn.XtempP GenIn.scalarFacP
    rw [h k (mem_range.1 hk)]
  funext i
  unfold GenIn.XrowP GenIn.XposP GenIn.XnegP
  rw [sum_congr rfl fun k hk => congrArg (· * I.alpP m k i) (e k hk), sum_congr rfl fun k hk => congrArg (· * I.alpN m k (i - I.N)) (e k hk)]

/-- Two results of the solver agree on mode `m`. -/
structure SameMode (I : GenIn) (m : ℕ) (out out' : GenOut) : Prop where
  K : ∀ l < I.NLayers, out.K m l = out'.K m l
  G : ∀ l < I.NLayers, ∀ i < 2 * I.N, ∀ j < 2 * I.N, out.G m l i j = out'.G m l i j
  inv : m = 0 → I.iso = true → ∀ l < I.NLayers, ∀ i < 2 * I.N, ∀ j < 2 * I.N, out.Ginv0 l i j = out'.Ginv0 l i j
  B : I.beam = true → ∀ l < I.NLayers, ∀ i < 2 * I.N, out.B m l i = out'.B m l i

theorem sameMode {out out' : GenOut} (h : GenSpecP po E I out) (h' : GenSpecP po' E I out') (hm : m < I.NFourier)
    (hq : ∀ k < I.NLeg - m, po m k = po' m k) : SameMode I m out out' := by
  have ev : ∀ l, I.evP po E m l = I.evP po' E m l := fun l => by
    unfold GenIn.evP GenIn.apbP GenIn.ambP; rw [alphaP_congr hq, betaP_congr hq]
  have gs : ∀ l, I.gScatP po E m l = I.gScatP po' E m l := fun l => by
    unfold GenIn.gScatP GenIn.apbP; rw [ev, alphaP_congr hq, betaP_congr hq]
  have hK : ∀ l < I.NLayers, out.K m l = out'.K m l := by
    intro l hl
    by_cases hs : I.scatters m l
    · rw [(h.scatG m hm l hl hs).2, (h'.scatG m hm l hl hs).2, ev]
    · rw [(h.trivG m hm l hl hs).2.1, (h'.trivG m hm l hl hs).2.1]
  have hG : ∀ l < I.NLayers, ∀ i < 2 * I.N, ∀ j < 2 * I.N, out.G m l i j = out'.G m l i j := by
    intro l hl i hi j hj
    by_cases hs : I.scatters m l
    · rw [(h.scatG m hm l hl hs).1 i hi j hj, (h'.scatG m hm l hl hs).1 i hi j hj, gs]
    · rw [(h.trivG m hm l hl hs).1, (h'.trivG m hm l hl hs).1]
  have hV : m = 0 → I.iso = true → ∀ l < I.NLayers, ∀ i < 2 * I.N, ∀ j < 2 * I.N, out.Ginv0 l i j = out'.Ginv0 l i j := by
    rintro rfl hi0 l hl i hi j hj
    obtain ⟨x1, x2⟩ := h.ginv hi0 l hl
    obtain ⟨y1, y2⟩ := h'.ginv hi0 l hl
    by_cases hs : I.scatters 0 l
    · have e : toM (2 * I.N) (out.G 0 l) = toM (2 * I.N) (out'.G 0 l) := by
        ext a b; exact hG l hl a a.2 b b.2
      have := (x2 hs).2
      rw [e, ← (y2 hs).2] at this
      exact congrFun (congrFun this ⟨i, hi⟩) ⟨j, hj⟩
    · rw [x1 hs, y1 hs]
  refine ⟨hK, hG, hV, fun hb l hl i hi => ?_⟩
  by_cases hs : I.scatters m l
  · by_cases hc : m = 0 ∧ I.iso = true
    · obtain ⟨rfl, hi0⟩ := hc
      rw [h.beamIso hb hi0 l hl hs, h'.beamIso hb hi0 l hl hs]
      refine sum_congr rfl fun j hj => sum_congr rfl fun q hq' => ?_
      rw [hG l hl i hi j (mem_range.1 hj), hK l hl, hV rfl hi0 l hl j (mem_range.1 hj) q (mem_range.1 hq'), XrowP_congr hq]
    · obtain ⟨A, a1, a2, a3⟩ := h.beamSolve hb m hm l hl hs hc
      obtain ⟨A', b1, b2, b3⟩ := h'.beamSolve hb m hm l hl hs hc
      have e : ∀ i < 2 * I.N, ∀ j < 2 * I.N, fullA I.N I.mu0 A i j = fullA I.N I.mu0 A' i j := fun i hi j hj => by
        rw [fullA_eqP a1 hi hj, fullA_eqP b1 hi hj]
        unfold GenIn.coefAP
        rw [alphaP_congr hq, betaP_congr hq]
      have key := mulVec_eq_zero a2 (x := fun j => out.B m l j - out'.B m l j) fun i hi => by
        have e1 := a3 i hi
        have e2 := b3 i hi
        rw [XrowP_congr hq, ← e2] at e1
        unfold mulVec at e1 ⊢
        simp only [mul_sub, sum_sub_distrib]
        rw [e1, sub_eq_zero]
        exact sum_congr rfl fun j hj => by rw [e i hi j (mem_range.1 hj)]
      exact sub_eq_zero.1 (key i hi)
  · rw [(h.trivG m hm l hl hs).2.2, (h'.trivG m hm l hl hs).2.2]

end gen

theorem mathscrV_agree {n Nc : ℕ} {s : Vec} {G G' : Mat} {K g g' : Vec} {q : ℕ} (hG : ∀ k < n, G q k = G' q k) (hg : ∀ k < n, g k = g' k) (tau : ℝ) :
    mathscrV n Nc s G K g tau q = mathscrV n Nc s G' K g' tau q := by
  have e : ∀ f : ℕ → ℝ, ∑ k ∈ range n, G q k * (f k * g k) = ∑ k ∈ range n, G' q k * (f k * g' k) := fun f =>
    sum_congr rfl fun k hk => by rw [hG k (mem_range.1 hk), hg k (mem_range.1 hk)]
  unfold mathscrV
  simp only [e]

section coef
variable {I : AsmIn} {out out' : GenOut} {m : ℕ}

theorem gim_agree (h : SameMode I.genIn 0 out out') (hi : I.iso = true) {l : ℕ} (hl : l < I.NLayers) {k : ℕ} (hk : k < 2 * I.N) :
    I.gim out.Ginv0 l k = I.gim out'.Ginv0 l k := by
  unfold AsmIn.gim
  exact sum_congr rfl fun q hq => by rw [h.inv rfl hi l hl k hk q (mem_range.1 hq)]

theorem part_agree (h : SameMode I.genIn m out out') {l : ℕ} (hl : l < I.NLayers) (tau : ℝ) {q : ℕ} (hq : q < 2 * I.N) :
    (I.coefIn out).part m l tau q = (I.coefIn out').part m l tau q := by
  unfold CoefIn.part
  congr 1
  · change (if m = 0 ∧ I.iso = true then _ else _) = if m = 0 ∧ I.iso = true then _ else _
    split_ifs with hc
    · obtain ⟨rfl, hi⟩ := hc
      unfold CoefIn.vIso
      rw [show (I.coefIn out).K 0 l = (I.coefIn out').K 0 l from h.K l hl]
      exact mathscrV_agree (fun k hk => h.G l hl q hq k hk) (fun k hk => gim_agree h hi hl hk) tau
    · rfl
  · change (if I.beam = true then _ else _) = if I.beam = true then _ else _
    split_ifs with hb
    · rw [show (I.coefIn out).B m l q = (I.coefIn out').B m l q from h.B hb l hl q hq]; rfl
    · rfl

theorem lhs_agree (hN : 0 < I.N) (hL : 0 < I.NLayers) (h : SameMode I.genIn m out out') (R : Option Mat) :
    toM (I.coefIn out).dim ((I.coefIn out).lhs m R) = toM (I.coefIn out).dim ((I.coefIn out').lhs m R) := by
  have x := CoefIn.lhs_isLhs (I := I.coefIn out) hN hL m R
  have y := CoefIn.lhs_isLhs (I := I.coefIn out') hN hL m R
  have hG : ∀ l < I.NLayers, ∀ i < 2 * I.N, ∀ j < 2 * I.N, (I.coefIn out).G m l i j = (I.coefIn out').G m l i j := h.G
  have hK : ∀ l < I.NLayers, (I.coefIn out).K m l = (I.coefIn out').K m l := h.K
  have n1 : (I.coefIn out).N = I.N := rfl
  have n2 : (I.coefIn out').N = I.N := rfl
  have n3 : (I.coefIn out).NLayers = I.NLayers := rfl
  have n4 : (I.coefIn out').NLayers = I.NLayers := rfl
  have d1 : (I.coefIn out).dim = I.NLayers * (2 * I.N) := rfl
  have d2 : (I.coefIn out').dim = I.NLayers * (2 * I.N) := rfl
  have hd : 2 * I.N ≤ I.NLayers * (2 * I.N) := Nat.le_mul_of_pos_left _ hL
  ext ⟨i, hi⟩ ⟨j, hj⟩
  change (I.coefIn out).lhs m R i j = (I.coefIn out').lhs m R i j
  rcases CoefIn.row_cases (I := I.coefIn out) hN hL hi with h' | ⟨k, hk, q, hq, rfl⟩ | ⟨t, ht, rfl⟩
  · rw [x.top i h' j hj, y.top i h' j hj]
    unfold CoefIn.topRow
    rw [n1] at h'
    rw [n1, n2]
    split_ifs with c1 c2
    · exact hG 0 hL _ (by omega) _ (by omega)
    · rw [hG 0 hL _ (by omega) _ (by omega)]
      unfold CoefIn.E01; rw [hK 0 hL]; rfl
    · rfl
  · rw [x.mid k hk q hq j hj]
    refine Eq.trans ?_ (y.mid k hk q hq j hj).symm
    unfold CoefIn.midRow CoefIn.midBlock
    rw [n3] at hk; rw [n1] at hq
    rw [n1, n2]
    split_ifs with c1 c2 c3 c4 c5
    · rfl
    · rw [hG k (by omega) q hq _ (by omega)]
      unfold CoefIn.Elm1l; rw [hK k (by omega)]; rfl
    · exact hG k (by omega) q hq _ (by omega)
    · rw [hG (k + 1) (by omega) q hq _ (by omega)]
    · rw [hG (k + 1) (by omega) q hq _ (by omega)]
      unfold CoefIn.Ellp1; rw [hK (k + 1) (by omega)]; rfl
    · rfl
  · rw [x.bot t ht j hj]
    refine Eq.trans ?_ (y.bot t ht j hj).symm
    rw [n1] at ht
    have hl : I.NLayers - 1 < I.NLayers := by omega
    have hE : (I.coefIn out).ELm1L m = (I.coefIn out').ELm1L m := by
      unfold CoefIn.ELm1L; rw [n3, n4, hK _ hl]; rfl
    rw [d1] at hj
    unfold CoefIn.botRow CoefIn.botL CoefIn.botR
    rw [n1, n2, n3, n4, d1, d2, hE]
    split_ifs with c1 c2
    · rfl
    · rcases R with _ | R'
      · simp only [hG _ hl t (by omega) (j - (I.NLayers * (2 * I.N) - 2 * I.N)) (by omega)]
      · simp only [hG _ hl t (by omega) (j - (I.NLayers * (2 * I.N) - 2 * I.N)) (by omega)]
        rw [sum_congr rfl fun q hq => by rw [hG _ hl (I.N + q) (by have := mem_range.1 hq; omega) (j - (I.NLayers * (2 * I.N) - 2 * I.N)) (by omega)]]
    · rcases R with _ | R'
      · simp only [hG _ hl t (by omega) (I.N + (j - (I.NLayers * (2 * I.N) - I.N))) (by omega)]
      · simp only [hG _ hl t (by omega) (I.N + (j - (I.NLayers * (2 * I.N) - I.N))) (by omega)]
        rw [sum_congr rfl fun q hq => by rw [hG _ hl (I.N + q) (by have := mem_range.1 hq; omega) (I.N + (j - (I.NLayers * (2 * I.N) - I.N))) (by omega)]]

theorem rhs_agree (hN : 0 < I.N) (hL : 0 < I.NLayers) (h : SameMode I.genIn m out out') (R : Option Mat) (bneg bpos X : Vec) :
    toV (I.coefIn out).dim ((I.coefIn out).rhs m bneg bpos R X fun _ => 0) = toV (I.coefIn out).dim ((I.coefIn out').rhs m bneg bpos R X fun _ => 0) := by
  funext ⟨i, hi⟩
  change (I.coefIn out).rhs m bneg bpos R X (fun _ => 0) i = (I.coefIn out').rhs m bneg bpos R X (fun _ => 0) i
  have n1 : (I.coefIn out).N = I.N := rfl
  have n3 : (I.coefIn out).NLayers = I.NLayers := rfl
  rcases CoefIn.row_cases (I := I.coefIn out) hN hL hi with h' | ⟨k, hk, q, hq, rfl⟩ | ⟨t, ht, rfl⟩
  · rw [CoefIn.rhs_top _ hN hL m _ _ _ _ _ h']
    refine Eq.trans ?_ (CoefIn.rhs_top (I.coefIn out') hN hL m _ _ _ _ _ h').symm
    rw [part_agree h hL _ (by rw [n1] at h' ⊢; omega)]; rfl
  · rw [CoefIn.rhs_mid _ m _ _ _ _ _ hk hq]
    refine Eq.trans ?_ (CoefIn.rhs_mid (I.coefIn out') m _ _ _ _ _ hk hq).symm
    rw [n3] at hk
    rw [part_agree h (by omega) _ hq, part_agree h (by omega) _ hq]; rfl
  · rw [CoefIn.rhs_bot _ hN hL m _ _ _ _ _ ht]
    refine Eq.trans ?_ (CoefIn.rhs_bot (I.coefIn out') hN hL m _ _ _ _ _ ht).symm
    rw [n1] at ht
    have hl : I.NLayers - 1 < I.NLayers := by omega
    rw [n3, n1, part_agree h hl _ (by omega)]
    congr 1
    rcases R with _ | R'
    · rfl
    · exact congrArg (· + _) (sum_congr rfl fun q hq => congrArg (R' t q * ·) (part_agree h hl _ (by have : q < I.N := mem_range.1 hq; omega)))

theorem bind_agree {α β : Type} {x y : Py α} {f g : α → Py β} (h : x = y) (hf : ∀ v, f v = g v) : (x >>= f) = (y >>= g) := by
  rw [h, show f = g from funext hf]

theorem coefMode_agree (hN : 0 < I.N) (hL : 0 < I.NLayers) (h : SameMode I.genIn m out out') : coefMode (I.coefIn out) m = coefMode (I.coefIn out') m := by
  have hd : (I.coefIn out).dim = (I.coefIn out').dim := rfl
  unfold coefMode
  refine bind_agree (by rfl) fun R => bind_agree (by rfl) fun X => bind_agree (by rfl) fun bpos => bind_agree (by rfl) fun bneg => ?_
  unfold npSolve
  rw [lhs_agree hN hL h, rhs_agree hN hL h, hd]

end coef

variable {a : Args}

/-- Modes with the same quotients come out the same. -/
theorem val_agree {J J' : Junk} {R R' : Solved} (h : pydisortP po E J a = .ok R) (h' : pydisortP po' E J' a = .ok R') {m : ℕ} (hm : m < nFourier a)
    (hq : ∀ k < nLeg a - m, po m k = po' m k) (t : ℝ) : ∀ i < 2 * nHalf a, R.I.val R.S m t i = R'.I.val R'.S m t i := by
  obtain ⟨hacc, O, r, hO, hr, hI, hsol, _⟩ := pydisortP_ok h
  obtain ⟨_, O', r', hO', hr', hI', hsol', _⟩ := pydisortP_ok h'
  rw [hO] at hO'; cases hO'
  rw [hr] at hr'; cases hr'
  have hs := Args.optics_spec hacc hO
  rw [hI] at hsol
  rw [hI'] at hsol'
  obtain ⟨out, GC, hout, hGC, hS⟩ := solveAllP_ok hsol
  obtain ⟨out', GC', hout', hGC', hS'⟩ := solveAllP_ok hsol'
  have hd := asm_depthOK (E := E) (r := r) hacc hs
  have hNh : 0 < (a.asm E O r).N := by
    have := hacc.streams.1
    change 0 < (a.NQuad / 2).toNat
    omega
  have hm' : m < (a.asm E O r).NFourier := by rw [← nFourier_eq] at hm; exact hm
  have hF : 0 < (a.asm E O r).genIn.NFourier := by change 0 < (a.asm E O r).NFourier; omega
  have hsm := sameMode (genSolP_spec hF hout) (genSolP_spec hF hout') hm' hq
  rw [hI, hI', hS, hS']
  set I := a.asm E O r with hIdef
  obtain ⟨C, hGCe, hC⟩ := solveCoeffs_ok (I := I.coefIn out) hNh hd.L hGC
  obtain ⟨C', hGCe', hC'⟩ := solveCoeffs_ok (I := I.coefIn out') hNh hd.L hGC'
  have hCC : C m = C' m := by
    have e1 := hC m hm'
    rw [coefMode_agree hNh hd.L hsm, hC' m hm'] at e1
    exact (Except.ok.inj e1).symm
  have hlay : I.layer t < I.NLayers := AsmIn.layer_lt hd t
  intro i hi
  have hi' : i < 2 * I.N := hi
  unfold AsmIn.val
  congr 1
  · unfold AsmIn.umPlain
    congr 1
    · refine sum_congr rfl fun j hj => ?_
      have hj' := mem_range.1 hj
      have e1 : GC m (I.layer t) i j = GC' m (I.layer t) i j := by
        rw [hGCe, hGCe']
        change out.G m (I.layer t) i j * C m _ = out'.G m (I.layer t) i j * C' m _
        rw [hsm.G _ hlay i hi' j hj', hCC]; rfl
      have e2 : I.exponent ⟨out.G, out.K, out.B, I.gim out.Ginv0, GC⟩ m t j = I.exponent ⟨out'.G, out'.K, out'.B, I.gim out'.Ginv0, GC'⟩ m t j := by
        unfold AsmIn.exponent
        change (if j < I.N then out.K m (I.layer t) j * _ else out.K m (I.layer t) j * _) = if j < I.N then out'.K m (I.layer t) j * _ else out'.K m (I.layer t) j * _
        rw [hsm.K _ hlay]
      rw [e2]
      change GC m (I.layer t) i j * _ = GC' m (I.layer t) i j * _
      rw [e1]
    · split_ifs with hb
      · change out.B m (I.layer t) i * _ = out'.B m (I.layer t) i * _
        rw [hsm.B hb _ hlay i hi']
      · rfl
  · split_ifs with hc
    · obtain ⟨rfl, hi0⟩ := hc
      change mathscrV (2 * I.N) I.Nscoeffs (I.s (I.layer t)) (out.G 0 (I.layer t)) (out.K 0 (I.layer t)) (I.gim out.Ginv0 (I.layer t)) (I.scaledTau t) i
        = mathscrV (2 * I.N) I.Nscoeffs (I.s (I.layer t)) (out'.G 0 (I.layer t)) (out'.K 0 (I.layer t)) (I.gim out'.Ginv0 (I.layer t)) (I.scaledTau t) i
      rw [hsm.K _ hlay]
      exact mathscrV_agree (fun k hk => hsm.G _ hlay i hi' k hk) (fun k hk => gim_agree hsm hi0 hlay hk) _
    · rfl

/-- Two runs whose first `F` modes have the same quotients. -/
theorem sols_agree {J J' : Junk} {R R' : Solved} (h : pydisortP po E J a = .ok R) (h' : pydisortP po' E J' a = .ok R') {F : ℕ} (hF0 : 0 < F) (hFn : F ≤ nFourier a)
    (hq : ∀ m < F, ∀ k < nLeg a - m, po m k = po' m k) : R'.I = R.I ∧ 0 < R.I.N ∧ 0 < R.I.NLayers ∧ SolsAgree R.I F R.S R'.S := by
  obtain ⟨hacc, O, r, hO, hr, hI, hsol, _⟩ := pydisortP_ok h
  obtain ⟨_, O', r', hO', hr', hI', hsol', _⟩ := pydisortP_ok h'
  rw [hO] at hO'; cases hO'
  rw [hr] at hr'; cases hr'
  have hs := Args.optics_spec hacc hO
  rw [hI] at hsol
  rw [hI'] at hsol'
  obtain ⟨out, GC, hout, hGC, hS⟩ := solveAllP_ok hsol
  obtain ⟨out', GC', hout', hGC', hS'⟩ := solveAllP_ok hsol'
  have hd := asm_depthOK (E := E) (r := r) hacc hs
  have hNh : 0 < (a.asm E O r).N := by
    have := hacc.streams.1
    change 0 < (a.NQuad / 2).toNat
    omega
  have hm' : ∀ m < F, m < (a.asm E O r).NFourier := fun m hm => by
    have : m < nFourier a := by omega
    rw [← nFourier_eq] at this; exact this
  have hF : 0 < (a.asm E O r).genIn.NFourier := hm' 0 hF0
  have hsm : ∀ m < F, SameMode (a.asm E O r).genIn m out out' := fun m hm => sameMode (genSolP_spec hF hout) (genSolP_spec hF hout') (hm' m hm) (hq m hm)
  rw [hI, hI', hS, hS']
  set I := a.asm E O r with hIdef
  obtain ⟨C, hGCe, hC⟩ := solveCoeffs_ok (I := I.coefIn out) hNh hd.L hGC
  obtain ⟨C', hGCe', hC'⟩ := solveCoeffs_ok (I := I.coefIn out') hNh hd.L hGC'
  refine ⟨rfl, hNh, hd.L, ⟨fun m hm l hl i hi k hk => ?_, fun m hm l hl i hi k hk => ((hsm m hm).G l hl i hi k hk).symm, fun m hm l hl => ((hsm m hm).K l hl).symm,
    fun hb m hm l hl i hi => ((hsm m hm).B hb l hl i hi).symm, fun hi l hl k hk => (gim_agree (hsm 0 hF0) hi hl hk).symm⟩⟩
  have hCC : C m = C' m := by
    have e1 := hC m (hm' m hm)
    rw [coefMode_agree hNh hd.L (hsm m hm), hC' m (hm' m hm)] at e1
    exact (Except.ok.inj e1).symm
  rw [hGCe, hGCe']
  change out'.G m l i k * C' m _ = out.G m l i k * C m _
  rw [(hsm m hm).G l hl i hi k hk, hCC]; rfl

end Pydisort

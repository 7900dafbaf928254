import Verif.EndlessUnique
import Verif.EvalLemmas
import Verif.Props.NonFinite

/-!
# A call whose last boundary lies at infinity: the field and the returned numbers
-/

namespace Pydisort
open Finset Spec Filter
open Spec (bdry)

section
variable {I : AsmIn} {out : GenOut} {C : ℕ → Vec}

/-- The solution in layer `l`, in scaled depth. -/
noncomputable def endSol (I : AsmIn) (out : GenOut) (C : ℕ → Vec) (m l : ℕ) (tau : ℝ) (i : ℕ) : ℝ :=
  (I.coefIn out).hom ((I.coefIn out).decaying (C m)) m l tau i + (I.coefIn out).part m l tau i

theorem part_eq (hiso : I.iso = false) (m l : ℕ) (tau : ℝ) (i : ℕ) :
    (I.coefIn out).part m l tau i = if I.beam = true then out.B m l i * Real.exp (-tau / I.mu0) else 0 := by
  have : ¬ (m = 0 ∧ (I.coefIn out).iso = true) := fun h => by
    have h2 : I.iso = true := h.2
    rw [hiso] at h2; cases h2
  unfold CoefIn.part
  rw [if_neg this, zero_add]
  rfl

theorem endSol_deriv (hslot : SlotOK I.genIn out) (hiso : I.iso = false) {m l : ℕ} (hm : m < I.NFourier) (hl : l < I.NLayers) (tau : ℝ) {i : ℕ} (hi : i < 2 * I.N) :
    HasDerivAt (fun x => endSol I out C m l x i) (I.odeRHS m l tau (endSol I out C m l tau) i) tau := by
  have d1 := CoefIn.hom_hasDerivAt (c := I.coefIn out) (m := m) (A := fun l => I.genIn.effA m l) (hslot.eig m hm) ((I.coefIn out).decaying (C m)) l hl tau i hi
  have d2 : HasDerivAt (fun t => if I.beam = true then out.B m l i * Real.exp (-t / I.mu0) else 0)
      (if I.beam = true then -(out.B m l i / I.mu0) * Real.exp (-tau / I.mu0) else 0) tau := by
    split_ifs
    · have : HasDerivAt (fun t : ℝ => Real.exp (-t / I.mu0)) (Real.exp (-tau / I.mu0) * (-1 / I.mu0)) tau :=
        ((hasDerivAt_id tau).neg.div_const I.mu0).exp
      refine (this.const_mul (out.B m l i)).congr_deriv ?_
      ring
    · exact hasDerivAt_const _ _
  have hfun : (fun x => endSol I out C m l x i) = fun x => (I.coefIn out).hom ((I.coefIn out).decaying (C m)) m l x i
      + (if I.beam = true then out.B m l i * Real.exp (-x / I.mu0) else 0) := by
    funext x
    unfold endSol
    rw [part_eq hiso]
  rw [hfun]
  refine (d1.add d2).congr_deriv ?_
  unfold AsmIn.odeRHS
  have hc : ¬ (m = 0 ∧ I.iso = true) := fun h => by rw [hiso] at h; cases h.2
  rw [if_neg hc, sub_zero]
  have hA : mulVec (2 * I.N) (I.genIn.effA m l) (endSol I out C m l tau) i
      = mulVec (2 * I.N) (I.genIn.effA m l) ((I.coefIn out).hom ((I.coefIn out).decaying (C m)) m l tau) i
        + (if I.beam = true then mulVec (2 * I.N) (I.genIn.effA m l) (out.B m l) i * Real.exp (-tau / I.mu0) else 0) := by
    unfold mulVec endSol
    simp only [part_eq hiso, mul_add, sum_add_distrib]
    congr 1
    split_ifs
    · rw [sum_mul]
      exact sum_congr rfl fun j _ => by ring
    · simp
  rw [hA]
  change mulVec (2 * I.N) (I.genIn.effA m l) _ i + _ = _
  by_cases hb : I.beam = true
  · rw [if_pos hb, if_pos hb, if_pos hb]
    have := hslot.beam hb m hm l hl i hi
    change mulVec (2 * I.N) (I.genIn.effA m l) (out.B m l) i + out.B m l i / I.mu0 = _ at this
    rw [← this]; ring
  · rw [if_neg hb, if_neg hb, if_neg hb]; ring

end

section
variable {E : Ext} {a : Args}

/-- The call succeeds; what is computed. -/
theorem endless_call (hw : WellPosed E a) (hns : NoSource a) (J : Junk) :
    ∃ (O : Optics) (r : ℝ) (out : GenOut) (C : ℕ → Vec) (GC : ℕ → ℕ → ℕ → ℕ → Fl), a.optics = .ok O ∧ a.rescaleFactor O = .ok r ∧ GenSpec E (a.asm E O r).genIn out ∧
      pydisortLast E J a .pinf = .ok ((a.asm E O r).lastF (a.tauF .pinf) (a.tau0F .pinf) out GC) ∧
      (∀ m < nFourier a, ∀ l i k, GC m l i k = .fin (out.G m l i k * C m (l * (2 * nHalf a) + k))) ∧
      ∀ m < nFourier a, ∃ (R : Option Mat) (X bneg bpos : Vec),
        bcMode (a.asm E O r).N m (a.asm E O r).bnegScalar (a.asm E O r).bnegVector (a.asm E O r).bneg = .ok bneg ∧
        ∀ i < ((a.asm E O r).coefIn out).dim, mulVec ((a.asm E O r).coefIn out).dim
          (fun i j => ((a.asm E O r).coefIn out).lhs m R i j * ((a.asm E O r).coefIn out).mask i j) (C m) i = ((a.asm E O r).coefIn out).rhsEnd m bneg bpos R X i := by
  have hacc := hw.accepted
  obtain ⟨O, hO⟩ := optics_isOk hacc hw.sourceShape
  have hs := Args.optics_spec hacc hO
  obtain ⟨r, hr⟩ := rescaleFactor_isOk a O
  obtain ⟨q, hq, q1, q2⟩ := quad_isOk hacc hw.angles
  obtain ⟨out, hout, hsp, hG⟩ := gen_isOk (r := r) hw hs J
  have hmode := fun m (hm : m < nFourier a) => coefModeF_isOk hw hns hO hsp hG hm J.coef.RHS
  choose C hC using hmode
  have hmode' : ∀ m < ((a.asm E O r).coefIn out).NFourier, ((a.asm E O r).coefIn out).coefModeF (a.tau0F .pinf) (fun k => .fin (J.coef.RHS k)) m
      = .ok (fun k => .fin ((fun m k => if h : m < nFourier a then C m h k else 0) m k)) := by
    intro m hm
    have hm' : m < nFourier a := by rw [← nFourier_eq]; exact hm
    obtain ⟨R, X, bneg, bpos, h1, _⟩ := hC m hm'
    rw [h1]
    simp only [dif_pos hm']
  obtain ⟨GC, hGC, hGC'⟩ := solveCoeffsF_isOk (C0 := fun m k => .fin (J.coef.C m k)) hmode'
  refine ⟨O, r, out, fun m k => if h : m < nFourier a then C m h k else 0, GC, hO, hr, hsp, ?_, fun m hm l i k => ?_, fun m hm => ?_⟩
  · have hv : (a.withLast .pinf).validate = .ok () := (C124_false hacc).2.2.2.2.2.1
    unfold pydisortLast
    rw [hv, hq, hO]
    simp only [Bind.bind, Except.bind]
    rw [hr]
    simp only
    rw [q1, q2]
    rw [show a.asmIn (node E a) (weight E a) O r = a.asm E O r from rfl, hout]
    simp only
    rw [hGC]
    rfl
  · rw [← nFourier_eq] at hm
    exact hGC' m hm l i k
  · obtain ⟨R, X, bneg, bpos, _, h2, h3⟩ := hC m hm
    exact ⟨R, X, bneg, bpos, h2, by simp only [dif_pos hm]; exact h3⟩

/-! ### Layers -/

variable (a) in
/-- The layer of a depth. -/
noncomputable def endLayer (t : ℝ) : ℕ := argmaxTrue a.tauArr.n fun k => Fl.le (.fin t) (a.tauF .pinf k)

theorem le_tauF {t : ℝ} {k : ℕ} (hk : k < a.tauArr.n) : Fl.le (.fin t) (a.tauF .pinf k) ↔ (k + 1 < a.tauArr.n → t ≤ bdry a.tauArr.get (k + 1)) := by
  unfold Args.tauF
  by_cases h : k + 1 = a.tauArr.n
  · rw [if_pos h]
    exact ⟨fun _ h2 => by omega, fun _ => Or.inl trivial⟩
  · rw [if_neg h, Fl.fin_le, Spec.bdry_succ]
    exact ⟨fun h2 _ => h2, fun h2 => h2 (by omega)⟩

theorem endLayer_eq (hacc : Accepted a) {l : ℕ} (hl : l < a.tauArr.n) {t : ℝ} (h1 : bdry a.tauArr.get l < t ∨ l = 0)
    (h2 : l + 1 < a.tauArr.n → t ≤ bdry a.tauArr.get (l + 1)) : endLayer a t = l := by
  refine argmaxTrue_eq hl ((le_tauF hl).2 h2) fun j hj h => ?_
  have h3 := (le_tauF (by omega)).1 h (by omega)
  rcases h1 with h1 | h1
  · have := bdry_le hacc (show j + 1 ≤ l by omega) hl.le
    linarith
  · omega

theorem exists_endLayer (hacc : Accepted a) {t : ℝ} (h0 : 0 ≤ t) :
    ∃ l < a.tauArr.n, (bdry a.tauArr.get l < t ∨ l = 0) ∧ InLayerDeep a l t ∧ endLayer a t = l := by
  have hn := hacc.layers
  have key : ∀ k < a.tauArr.n, (k + 1 < a.tauArr.n → t ≤ bdry a.tauArr.get (k + 1)) →
      ∃ l < a.tauArr.n, (bdry a.tauArr.get l < t ∨ l = 0) ∧ (l + 1 < a.tauArr.n → t ≤ bdry a.tauArr.get (l + 1)) := by
    intro k
    induction k with
    | zero => intro hk h; exact ⟨0, hk, Or.inr rfl, h⟩
    | succ k ih =>
      intro hk h
      by_cases hg : bdry a.tauArr.get (k + 1) < t
      · exact ⟨k + 1, hk, Or.inl hg, h⟩
      · exact ih (by omega) fun _ => not_lt.1 hg
  obtain ⟨l, hl, h1, h2⟩ := key (a.tauArr.n - 1) (by omega) (by intro h; omega)
  refine ⟨l, hl, h1, ⟨?_, h2⟩, endLayer_eq hacc hl h1 h2⟩
  rcases h1 with h1 | h1
  · exact h1.le
  · subst h1; rw [bdry_zero]; exact h0

theorem bdryStar_unscaled (hu : Unscaled a) {l : ℕ} (hl : l ≤ a.tauArr.n) : bdryStar a l = bdry a.tauArr.get l := by
  induction l with
  | zero => rw [bdry_zero]; simp [bdryStar]
  | succ l ih =>
    have := ih (by omega)
    unfold bdryStar at this ⊢
    rw [sum_range_succ, this, hu l (by omega)]; ring

theorem tauStar_unscaled (hu : Unscaled a) {l : ℕ} (hl : l < a.tauArr.n) (t : ℝ) : tauStar a l t = t := by
  unfold tauStar
  rw [bdryStar_unscaled hu hl.le, hu l hl]; ring

/-! ### The modes -/

variable {O : Optics} {r : ℝ} {out : GenOut} {C : ℕ → Vec}

/-- The solution in layer `l`, in the caller's depth. -/
noncomputable def endU (a : Args) (I : AsmIn) (out : GenOut) (C : ℕ → Vec) (m l : ℕ) (t : ℝ) (i : ℕ) : ℝ := I.rescale * endSol I out C m l (tauStar a l t) i

/-- Mode `m`. -/
noncomputable def endV (a : Args) (I : AsmIn) (out : GenOut) (C : ℕ → Vec) (m : ℕ) (t : ℝ) (i : ℕ) : ℝ := endU a I out C m (endLayer a t) t i

theorem endU_deriv (hw : WellPosed E a) (hns : NoSource a) (hres : Rescalable a) (hO : a.optics = .ok O) (hr : a.rescaleFactor O = .ok r)
    (hsp : GenSpec E (a.asm E O r).genIn out) {m l : ℕ} (hm : m < nFourier a) (hl : l < a.tauArr.n) (t : ℝ) {i : ℕ} (hi : i < 2 * nHalf a) :
    HasDerivAt (fun x => endU a (a.asm E O r) out C m l x i)
      (rteUser a (node E a) (weight E a) m l t (endU a (a.asm E O r) out C m l t) i / stream (nHalf a) (node E a) i) t := by
  have hacc := hw.accepted
  have hs := Args.optics_spec hacc hO
  have hg := asm_good_of (r := r) hacc hs hw.gauss hw.eig (regular_of_dissipates hw.gauss hw.dissipates)
  have hiso : (a.asm E O r).iso = false := by
    have : ¬ a.Iso := fun hi => Args.iso_iff.1 hi hns
    simpa [Args.asmIn] using this
  have hslot : SlotOK (a.asm E O r).genIn out := slotOK_of_spec hg.F hsp hg.eig fun _ h => by
    change (a.asm E O r).iso = true at h
    rw [hiso] at h; cases h
  have hm' : m < (a.asm E O r).NFourier := by rw [← nFourier_eq] at hm; exact hm
  have h1 := endSol_deriv (C := C) hslot hiso hm' hl (tauStar a l t) hi
  have h2 : HasDerivAt (fun x => tauStar a l x) (scale a l) t := by
    unfold tauStar
    have := (((hasDerivAt_id t).sub_const (bdry a.tauArr.get l)).const_mul (scale a l)).const_add (bdryStar a l)
    simpa using this
  have h3 := (HasDerivAt.comp t h1 h2).const_mul r
  refine h3.congr_deriv ?_
  have := odeRHS_spec hacc hs hr hres hw.gauss hl m t (endSol (a.asm E O r) out C m l (tauStar a l t)) hi
  rw [show endU a (a.asm E O r) out C m l t = fun j => r * endSol (a.asm E O r) out C m l (tauStar a l t) j from rfl, ← this,
    mul_div_cancel_left₀ _ (stream_ne hw.gauss hi)]
  ring

/-- The condition at the top and the continuity at the boundaries between layers. -/
theorem endU_conditions (hw : WellPosed E a) (hres : Rescalable a) (hO : a.optics = .ok O) (hr : a.rescaleFactor O = .ok r)
    (hsp : GenSpec E (a.asm E O r).genIn out) {m : ℕ} (hm : m < nFourier a) {R : Option Mat} {X bneg bpos : Vec}
    (hbn : bcMode (a.asm E O r).N m (a.asm E O r).bnegScalar (a.asm E O r).bnegVector (a.asm E O r).bneg = .ok bneg)
    (hC : ∀ i < ((a.asm E O r).coefIn out).dim, mulVec ((a.asm E O r).coefIn out).dim
          (fun i j => ((a.asm E O r).coefIn out).lhs m R i j * ((a.asm E O r).coefIn out).mask i j) (C m) i = ((a.asm E O r).coefIn out).rhsEnd m bneg bpos R X i) :
    (∀ i < nHalf a, endU a (a.asm E O r) out C m 0 0 (nHalf a + i) = bcVal a.bneg m i) ∧
    ∀ l, l + 1 < a.tauArr.n → ∀ i < 2 * nHalf a, endU a (a.asm E O r) out C m l (a.tauArr.get l) i = endU a (a.asm E O r) out C m (l + 1) (a.tauArr.get l) i := by
  have hacc := hw.accepted
  have hs := Args.optics_spec hacc hO
  have hg := asm_good_of (r := r) hacc hs hw.gauss hw.eig (regular_of_dissipates hw.gauss hw.dissipates)
  have hm' : m < (a.asm E O r).NFourier := by rw [← nFourier_eq] at hm; exact hm
  obtain ⟨h1, h2⟩ := CoefIn.end_conditions (c := (a.asm E O r).coefIn out) hg.N hg.L (fun m hm l hl j hj => AsmIn.K_sym hsp hm hl hj) hg.tau00 hm' hC
  constructor
  · intro i hi
    have ht : tauStar a 0 0 = 0 := by simp [tauStar, bdryStar, bdry]
    have h3 := h1 i hi
    change r * endSol (a.asm E O r) out C m 0 (tauStar a 0 0) (nHalf a + i) = _
    rw [ht]
    change endSol (a.asm E O r) out C m 0 0 (nHalf a + i) = bneg i at h3
    rw [h3]
    refine bcMode_spec (b := a.bneg) (b' := a.bneg') (d := a.rescaleDiv r) ?_ hw.topBC ?_ ?_ ?_ hbn hi
    · rcases rescale_cases hacc hs hr hres with h2 | h2
      · exact Or.inl h2
      · exact Or.inr ⟨h2.1, h2.2.2.2.2.2⟩
    · unfold Args.bneg'
      by_cases hz : a.bneg.AllZero
      · exact Or.inl ⟨hz, by rw [if_pos hz]⟩
      · exact Or.inr ⟨hz, by rw [if_neg hz]⟩
    · simp [Args.asmIn]
    · have hn : a.halfN = ((a.asm E O r).N : ℤ) := by
        change a.NQuad / 2 = ((a.NQuad / 2).toNat : ℤ)
        have := hacc.streams.1; omega
      rw [show (a.asm E O r).bnegVector = decide (¬ a.bneg'.len = 1 ∧ (a.bneg'.len : ℤ) = a.halfN) from by
        simp [Args.asmIn], decide_eq_true_eq, hn]
      simp
  · intro l hl i hi
    have h3 := h2 l (by change l < a.tauArr.n - 1; omega) i hi
    have ht0 : ((a.asm E O r).coefIn out).tau0 (l + 1) = bdryStar a (l + 1) := hs.tau0 (l + 1) (by change l + 1 ≤ a.tauArr.n; omega)
    have e1 : tauStar a l (a.tauArr.get l) = bdryStar a (l + 1) := by
      rw [bdryStar_eq, Spec.bdry_succ]
    have e2 : tauStar a (l + 1) (a.tauArr.get l) = bdryStar a (l + 1) := by
      simp [tauStar, Spec.bdry_succ]
    rw [ht0] at h3
    change endSol (a.asm E O r) out C m l _ i = endSol (a.asm E O r) out C m (l + 1) _ i at h3
    unfold endU
    rw [e1, e2, h3]

theorem endU_tendsto (hw : WellPosed E a) (hns : NoSource a) (hO : a.optics = .ok O) (hsp : GenSpec E (a.asm E O r).genIn out) {m : ℕ} (hm : m < nFourier a) (i : ℕ) :
    Tendsto (fun t => endU a (a.asm E O r) out C m (a.tauArr.n - 1) t i) atTop (nhds 0) := by
  have hacc := hw.accepted
  have hn := hacc.layers
  have hs := Args.optics_spec hacc hO
  have hiso : (a.asm E O r).iso = false := by
    have : ¬ a.Iso := fun hi => Args.iso_iff.1 hi hns
    simpa [Args.asmIn] using this
  have h0 : Tendsto (fun t => tauStar a (a.tauArr.n - 1) t) atTop atTop := by
    unfold tauStar
    refine tendsto_atTop_add_const_left _ _ ?_
    refine Tendsto.const_mul_atTop (Args.scale_pos hacc (by change _ < a.tauArr.n; omega)) ?_
    exact tendsto_atTop_add_const_right _ _ tendsto_id
  obtain ⟨hneg, _⟩ := gen_K_neg hw hs hsp hm (l := a.tauArr.n - 1) (by omega)
  have h1 := (CoefIn.hom_decays (c := (a.asm E O r).coefIn out) hn hneg (C m) i)
  rw [show ((a.asm E O r).coefIn out).NLayers = a.tauArr.n from rfl] at h1
  have h2 : Tendsto (fun t => (a.asm E O r).rescale * endSol (a.asm E O r) out C m (a.tauArr.n - 1) t i) atTop (nhds 0) := by
    unfold endSol
    have h3 : Tendsto (fun t => ((a.asm E O r).coefIn out).part m (a.tauArr.n - 1) t i) atTop (nhds 0) := by
      simp only [part_eq hiso]
      by_cases hb : (a.asm E O r).beam = true
      · simp only [if_pos hb]
        have hb' : 0 < a.I0 := by simpa [Args.asmIn, Args.Beam] using hb
        have hmu : 0 < (a.asm E O r).mu0 := ((hacc.beamDir hb').1).1
        have h4 : Tendsto (fun t : ℝ => -t / (a.asm E O r).mu0) atTop atBot := tendsto_neg_atTop_atBot.atBot_div_const hmu
        simpa using (Real.tendsto_exp_atBot.comp h4).const_mul (out.B m (a.tauArr.n - 1) i)
      · simp only [if_neg hb]; exact tendsto_const_nhds
    have := (h1.add h3).const_mul (a.asm E O r).rescale
    simpa using this
  exact h2.comp h0

/-- At every depth of a closed layer, the mode is the solution of that layer. -/
theorem endV_eq (hacc : Accepted a) {I : AsmIn} {m : ℕ} (hmid : ∀ l, l + 1 < a.tauArr.n → ∀ i < 2 * nHalf a, endU a I out C m l (a.tauArr.get l) i = endU a I out C m (l + 1) (a.tauArr.get l) i)
    {l : ℕ} (hl : l < a.tauArr.n) {t : ℝ} (ht : InLayerDeep a l t) {i : ℕ} (hi : i < 2 * nHalf a) : endV a I out C m t i = endU a I out C m l t i := by
  unfold endV
  by_cases hlt : bdry a.tauArr.get l < t ∨ l = 0
  · rw [endLayer_eq hacc hl hlt ht.2]
  · push Not at hlt
    obtain ⟨hle, hl0⟩ := hlt
    have he : t = bdry a.tauArr.get l := le_antisymm hle ht.1
    obtain ⟨k, rfl⟩ := Nat.exists_eq_succ_of_ne_zero hl0
    have hlay : endLayer a t = k := by
      refine endLayer_eq hacc (by omega) (Or.inl ?_) fun _ => he.le
      rw [he]; exact bdry_lt hacc (by omega)
    rw [hlay]
    have := hmid k hl i hi
    rw [Nat.succ_eq_add_one, Spec.bdry_succ] at he
    rw [he]; exact this

theorem endV_isDeepMode (hw : WellPosed E a) (hns : NoSource a) (hres : Rescalable a) (hO : a.optics = .ok O) (hr : a.rescaleFactor O = .ok r)
    (hsp : GenSpec E (a.asm E O r).genIn out) {m : ℕ} (hm : m < nFourier a)
    (htop : ∀ i < nHalf a, endU a (a.asm E O r) out C m 0 0 (nHalf a + i) = bcVal a.bneg m i)
    (hmid : ∀ l, l + 1 < a.tauArr.n → ∀ i < 2 * nHalf a, endU a (a.asm E O r) out C m l (a.tauArr.get l) i = endU a (a.asm E O r) out C m (l + 1) (a.tauArr.get l) i) :
    IsDeepMode a (node E a) (weight E a) m (endV a (a.asm E O r) out C m) := by
  have hacc := hw.accepted
  have hn := hacc.layers
  have heq := fun l (hl : l < a.tauArr.n) t (ht : InLayerDeep a l t) i (hi : i < 2 * nHalf a) => endV_eq (I := a.asm E O r) hacc hmid hl ht hi
  have hcontU : ∀ l < a.tauArr.n, ∀ i < 2 * nHalf a, Continuous fun t => endU a (a.asm E O r) out C m l t i := fun l hl i hi =>
    continuous_iff_continuousAt.2 fun t => (endU_deriv hw hns hres hO hr hsp hm hl t hi).continuousAt
  have hcont : ∀ i < 2 * nHalf a, ContinuousOn (fun t => endV a (a.asm E O r) out C m t i) (Set.Ici 0) := by
    intro i hi
    have main : ∀ k < a.tauArr.n, ContinuousOn (fun t => endV a (a.asm E O r) out C m t i) (Set.Icc 0 (bdry a.tauArr.get k)) := by
      intro k
      induction k with
      | zero =>
        intro _
        rw [bdry_zero, Set.Icc_self]
        exact continuousOn_singleton _ _
      | succ k ih =>
        intro hk
        have h1 := ih (by omega)
        have h2 : ContinuousOn (fun t => endV a (a.asm E O r) out C m t i) (Set.Icc (bdry a.tauArr.get k) (bdry a.tauArr.get (k + 1))) :=
          (hcontU k (by omega) i hi).continuousOn.congr fun t ht => heq k (by omega) t ⟨ht.1, fun _ => ht.2⟩ i hi
        have h3 := Set.Icc_union_Icc_eq_Icc (a := (0 : ℝ)) (by rw [← bdry_zero a.tauArr.get]; exact bdry_le hacc (Nat.zero_le k) (by omega)) (bdry_lt hacc (show k < a.tauArr.n by omega)).le
        rw [← h3]
        exact h1.union_of_isClosed h2 isClosed_Icc isClosed_Icc
    have h1 := main (a.tauArr.n - 1) (by omega)
    have h2 : ContinuousOn (fun t => endV a (a.asm E O r) out C m t i) (Set.Ici (bdry a.tauArr.get (a.tauArr.n - 1))) :=
      (hcontU (a.tauArr.n - 1) (by omega) i hi).continuousOn.congr fun t ht => heq _ (by omega) t ⟨ht, fun h => by omega⟩ i hi
    have h3 := Set.Icc_union_Ici_eq_Ici (a := (0 : ℝ)) (b := bdry a.tauArr.get (a.tauArr.n - 1)) (by rw [← bdry_zero a.tauArr.get]; exact bdry_le hacc (Nat.zero_le _) (by omega))
    rw [← h3]
    exact h1.union_of_isClosed h2 isClosed_Icc isClosed_Ici
  refine ⟨hcont, fun l hl t ht i hi => ?_, fun i hi => ?_, ?_⟩
  · have hcl : InLayerDeep a l t := ⟨ht.1.le, fun h => (ht.2 h).le⟩
    have hV : endV a (a.asm E O r) out C m t = endU a (a.asm E O r) out C m l t := by
      funext j
      unfold endV
      rw [endLayer_eq hacc hl (Or.inl ht.1) hcl.2]
    have hev : (fun x => endV a (a.asm E O r) out C m x i) =ᶠ[nhds t] fun x => endU a (a.asm E O r) out C m l x i := by
      by_cases h : l + 1 < a.tauArr.n
      · filter_upwards [Ioo_mem_nhds ht.1 (ht.2 h)] with x hx
        exact heq l hl x ⟨hx.1.le, fun _ => hx.2.le⟩ i hi
      · filter_upwards [Ioi_mem_nhds ht.1] with x hx
        exact heq l hl x ⟨le_of_lt hx, fun h' => absurd h' h⟩ i hi
    refine ⟨_, (endU_deriv hw hns hres hO hr hsp hm hl t hi).congr_of_eventuallyEq hev, ?_⟩
    rw [hV, mul_div_cancel₀ _ (stream_ne hw.gauss hi)]
  · rw [heq 0 hn 0 ⟨by rw [bdry_zero], fun _ => by rw [← bdry_zero a.tauArr.get]; exact (bdry_lt hacc hn).le⟩ _ (by omega)]
    exact htop i hi
  · have hb : ∀ i < 2 * nHalf a, ∃ B, ∀ t, 0 ≤ t → |endV a (a.asm E O r) out C m t i| ≤ B := by
      intro i hi
      have h1 := endU_tendsto (C := C) hw hns hO hsp hm i
      have h2 : ∀ᶠ t in atTop, |endU a (a.asm E O r) out C m (a.tauArr.n - 1) t i| ≤ 1 := by
        filter_upwards [h1.eventually (Metric.ball_mem_nhds (0 : ℝ) one_pos)] with t ht
        have : dist (endU a (a.asm E O r) out C m (a.tauArr.n - 1) t i) 0 < 1 := ht
        rw [Real.dist_eq, sub_zero] at this
        exact this.le
      obtain ⟨X, hX⟩ := eventually_atTop.1 h2
      set Y := max X (bdry a.tauArr.get (a.tauArr.n - 1)) with hY
      obtain ⟨B, hB⟩ := (isCompact_Icc (a := (0 : ℝ)) (b := Y)).exists_bound_of_continuousOn ((hcont i hi).mono fun t ht => ht.1)
      refine ⟨max B 1, fun t h0 => ?_⟩
      by_cases h : t ≤ Y
      · exact (hB t ⟨h0, h⟩).trans (le_max_left _ _)
      · push Not at h
        rw [heq (a.tauArr.n - 1) (by omega) t ⟨(le_max_right _ _).trans h.le, fun h' => by omega⟩ i hi]
        exact (hX t ((le_max_left _ _).trans h.le)).trans (le_max_right _ _)
    choose B hB using hb
    refine ⟨∑ i ∈ (range (2 * nHalf a)).attach, |B i.1 (mem_range.1 i.2)|, fun t h0 i hi => ?_⟩
    refine (hB i hi t h0).trans ((le_abs_self _).trans ?_)
    exact single_le_sum (f := fun i : {x // x ∈ range (2 * nHalf a)} => |B i.1 (mem_range.1 i.2)|) (fun _ _ => abs_nonneg _) (mem_attach _ ⟨i, mem_range.2 hi⟩)

end
end Pydisort

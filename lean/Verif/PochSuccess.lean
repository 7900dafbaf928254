import Verif.PochDark
import Verif.EndlessField

/-! Helper lemmas for C136: calls return although the factorial quotients of some Fourier modes are all computed as zero. -/

namespace Pydisort
open Finset Spec

variable {E : Ext} {a : Args} {O : Optics} {r : ℝ} {po : ℕ → ℕ → ℝ}

/-- The quotients of mode `m` are computed exactly, or all as zero. -/
def ModeOK (po : ℕ → ℕ → ℝ) (n m : ℕ) : Prop := (∀ k < n - m, po m k = GenIn.poch m k) ∨ ∀ k, po m k = 0

/-- The input of the solver without scattering. -/
noncomputable def GenIn.bare (I : GenIn) : GenIn := { I with wLeg := fun _ _ => 0 }

section
variable {I : GenIn} {m l : ℕ}

theorem alphaP_live (h : ∀ k < I.NLeg - m, po m k = GenIn.poch m k) : I.alphaP po m l = I.alpha m l := by
  funext i j
  unfold GenIn.alphaP GenIn.alpha GenIn.DposP GenIn.Dpos GenIn.DtempP GenIn.Dtemp
  rw [sum_congr rfl fun k hk => by rw [h k (mem_range.1 hk)]]

theorem betaP_live (h : ∀ k < I.NLeg - m, po m k = GenIn.poch m k) : I.betaP po m l = I.beta m l := by
  funext i j
  unfold GenIn.betaP GenIn.beta GenIn.DnegP GenIn.Dneg GenIn.DtempP GenIn.Dtemp
  rw [sum_congr rfl fun k hk => by rw [h k (mem_range.1 hk)]]

theorem alphaP_dead (h : ∀ k, po m k = 0) : I.alphaP po m l = I.bare.alpha m l := by
  funext i j
  simp [GenIn.alphaP, GenIn.alpha, GenIn.DposP, GenIn.Dpos, GenIn.DtempP, GenIn.Dtemp, GenIn.bare, GenIn.omLeg, h]

theorem betaP_dead (h : ∀ k, po m k = 0) : I.betaP po m l = I.bare.beta m l := by
  funext i j
  simp [GenIn.betaP, GenIn.beta, GenIn.DnegP, GenIn.Dneg, GenIn.DtempP, GenIn.Dtemp, GenIn.bare, GenIn.omLeg, h]

theorem bare_alpha (i j : ℕ) : I.bare.alpha m l i j = -(if i = j then I.M_inv i else 0) := by
  simp [GenIn.alpha, GenIn.Dpos, GenIn.Dtemp, GenIn.bare, GenIn.omLeg]

theorem bare_beta (i j : ℕ) : I.bare.beta m l i j = 0 := by
  simp [GenIn.beta, GenIn.Dneg, GenIn.Dtemp, GenIn.bare, GenIn.omLeg]

theorem bare_reduced {i j : ℕ} (hi : i < I.N) : matMul I.N (I.bare.amb m l) (I.bare.apb m l) i j = if i = j then I.M_inv i ^ 2 else 0 := by
  unfold matMul GenIn.amb GenIn.apb
  simp only [bare_alpha, bare_beta, sub_zero, add_zero]
  rw [sum_eq_single i]
  · split_ifs <;> simp_all [pow_two]
  · intro k _ hk; simp [Ne.symm hk]
  · intro h; exact absurd (mem_range.2 hi) h

/-- The eigenvalue problem of a mode whose quotients are all zero. -/
theorem bare_eig (hE : EigContract E) (hM : ∀ i < I.N, 0 < I.M_inv i) :
    I.bare.EigOK E m l ∧ (toM I.N (I.bare.ev E m l).2).det ≠ 0 ∧ IsEigenBasis I.N (fun i j => if i = j then I.M_inv i ^ 2 else 0) (I.bare.ev E m l).1 (I.bare.ev E m l).2 := by
  have h0 : IsEigenBasis I.N (fun i j => if i = j then I.M_inv i ^ 2 else 0) (fun j => I.M_inv j ^ 2) (fun i j => if i = j then 1 else 0) := by
    constructor
    · have : toM I.N (fun i j => if i = j then (1 : ℝ) else 0) = 1 := by
        ext i j; simp [toM, Matrix.one_apply, Fin.ext_iff]
      rw [this]; simp
    · intro i hi j hj
      rw [sum_eq_single i]
      · by_cases h : i = j
        · subst h; simp
        · simp [h]
      · intro k _ hk; simp [Ne.symm hk]
      · intro h; exact absurd (mem_range.2 hi) h
  have hb := hE _ _ ⟨_, _, h0⟩
  have hev : I.bare.ev E m l = E.eig I.N (toM I.N (fun i j => if i = j then I.M_inv i ^ 2 else 0)) := by
    unfold GenIn.ev
    change E.eig I.N _ = _
    congr 1
    ext i j
    exact bare_reduced i.2
  rw [← hev] at hb
  refine ⟨⟨?_, ?_⟩, hb.1, hb⟩
  · intro i hi j hj
    have := hb.2 i hi j hj
    rw [← this]
    exact sum_congr rfl fun k _ => congrArg (· * _) (bare_reduced (I := I) (m := m) (l := l) (j := k) hi)
  · intro j hj
    obtain ⟨k, hk, he⟩ := eigenvalue_mem h0 hb hj
    rw [he]; exact pow_pos (hM k hk) 2

open Classical in
/-- Matrix actually solved for. -/
noncomputable def GenIn.effAP (I : GenIn) (po : ℕ → ℕ → ℝ) (m l : ℕ) : Mat := if I.scatters m l then I.coefAP po m l else diagA I.N I.M_inv

theorem effAP_live (h : ∀ k < I.NLeg - m, po m k = GenIn.poch m k) : I.effAP po m l = I.effA m l := by
  unfold GenIn.effAP GenIn.effA GenIn.coefAP GenIn.coefA
  rw [alphaP_live h, betaP_live h]

theorem effAP_dead (h : ∀ k, po m k = 0) {i j : ℕ} (hi : i < 2 * I.N) (hj : j < 2 * I.N) : I.effAP po m l i j = diagA I.N I.M_inv i j := by
  unfold GenIn.effAP
  split_ifs
  · unfold GenIn.coefAP diagA
    rw [alphaP_dead h, betaP_dead h]
    simp only [bare_alpha, bare_beta, neg_neg, neg_zero]
    by_cases h1 : i < I.N
    · by_cases h2 : j < I.N
      · simp [h1, h2]
      · rw [if_pos h1, if_neg h2, if_neg (by omega)]
    · by_cases h2 : j < I.N
      · rw [if_neg h1, if_pos h2, if_neg (by omega)]
      · rw [if_neg h1, if_neg h2]
        by_cases e : i = j
        · subst e; simp [h1]
        · rw [if_neg (by omega), if_neg e, neg_zero]
  · rfl

/-- The eigenvectors of a mode are those of an exact input. -/
theorem slotP (h : ModeOK po I.NLeg m) : ∃ I' : GenIn, (I' = I ∨ I' = I.bare) ∧ ((∀ k < I.NLeg - m, po m k = GenIn.poch m k) ∧ I' = I ∨ (∀ k, po m k = 0) ∧ I' = I.bare)
    ∧ I.coefAP po m l = I'.coefA m l ∧ I.gScatP po E m l = I'.gScat E m l ∧ I.evP po E m l = I'.ev E m l := by
  rcases h with h | h
  · refine ⟨I, Or.inl rfl, Or.inl ⟨h, rfl⟩, ?_, ?_, ?_⟩
    · unfold GenIn.coefAP GenIn.coefA; rw [alphaP_live h, betaP_live h]
    · unfold GenIn.gScatP GenIn.gScat GenIn.evP GenIn.ev GenIn.apbP GenIn.ambP GenIn.apb GenIn.amb; rw [alphaP_live h, betaP_live h]
    · unfold GenIn.evP GenIn.ev GenIn.apbP GenIn.ambP GenIn.apb GenIn.amb; rw [alphaP_live h, betaP_live h]
  · refine ⟨I.bare, Or.inr rfl, Or.inr ⟨h, rfl⟩, ?_, ?_, ?_⟩
    · unfold GenIn.coefAP GenIn.coefA; rw [alphaP_dead h, betaP_dead h]; rfl
    · unfold GenIn.gScatP GenIn.gScat GenIn.evP GenIn.ev GenIn.apbP GenIn.ambP GenIn.apb GenIn.amb; rw [alphaP_dead h, betaP_dead h]; rfl
    · unfold GenIn.evP GenIn.ev GenIn.apbP GenIn.ambP GenIn.apb GenIn.amb; rw [alphaP_dead h, betaP_dead h]; rfl

theorem K_symP {out : GenOut} (h : GenSpecP po E I out) {j : ℕ} (hm : m < I.NFourier)
    (hl : l < I.NLayers) (hj : j < I.N) : out.K m l (I.N + j) = -out.K m l j := by
  by_cases hs : I.scatters m l
  · rw [(h.scatG m hm l hl hs).2]; simp [eigK, hj]
  · rw [(h.trivG m hm l hl hs).2.1]; simp [kTrivial, hj]

end

theorem dissipativeP (hw : WellPosed E a) (hs : Args.OpticsSpec a O) {m : ℕ} (hm : m < nFourier a ∧ ModeOK po (nLeg a) m) :
    Dissipative (nHalf a) a.tauArr.n (fun i => weight E a i * node E a i) (fun l => (a.asm E O r).genIn.effAP po m l) := by
  rcases hm.2 with h | h
  · have := asm_dissipative (r := r) hw hs hm.1
    have e : (fun l => (a.asm E O r).genIn.effAP po m l) = fun l => (a.asm E O r).genIn.effA m l := by
      funext l; exact effAP_live h
    rw [e]; exact this
  · refine ⟨fun i hi => mul_pos (weight_pos hw.gauss hi) (node_pos hw.gauss hi).1, fun l _ x ⟨i, hi, hx⟩ => ?_⟩
    have e : ∀ i ∈ range (2 * nHalf a), (if i < nHalf a then weight E a i * node E a i else -(weight E a (i - nHalf a) * node E a (i - nHalf a))) * x i
        * mulVec (2 * nHalf a) ((a.asm E O r).genIn.effAP po m l) x i = weight E a (if i < nHalf a then i else i - nHalf a) * x i ^ 2 := by
      intro i hi
      have hi' := mem_range.1 hi
      have e1 : mulVec (2 * nHalf a) ((a.asm E O r).genIn.effAP po m l) x i
          = mulVec (2 * nHalf a) (diagA (nHalf a) (a.asm E O r).genIn.M_inv) x i := by
        unfold mulVec
        exact sum_congr rfl fun j hj => by rw [effAP_dead (I := (a.asm E O r).genIn) h hi' (mem_range.1 hj)]; rfl
      rw [e1, mulVec_diagA _ _ hi']
      split_ifs with hc
      · have h0 := (node_pos hw.gauss hc).1.ne'
        change _ * (1 / node E a i * x i) = _
        field_simp
      · have h0 := (node_pos (i := i - nHalf a) hw.gauss (by omega)).1.ne'
        change _ * (-(1 / node E a (i - nHalf a)) * x i) = _
        field_simp
    rw [sum_congr rfl e]
    have hp : ∀ i < 2 * nHalf a, 0 < weight E a (if i < nHalf a then i else i - nHalf a) := fun i hi =>
      weight_pos hw.gauss (by split_ifs <;> omega)
    refine sum_pos' (fun i hi => mul_nonneg (hp i (mem_range.1 hi)).le (sq_nonneg _)) ⟨i, mem_range.2 hi, mul_pos (hp i hi) ?_⟩
    positivity

/-- The linear systems of a call are solvable also if the quotients of some modes are all computed as zero. -/
theorem solveAllP_isOk (hw : WellPosed E a) (hmu : 0 < a.I0 → ∀ i < nHalf a, node E a i ≠ a.mu0) (hpo' : ∀ m < nFourier a, ModeOK po (nLeg a) m)
    (hs : Args.OpticsSpec a O) (J : Junk) : ∃ S, solveAllP po E J (a.asm E O r) = .ok S := by
  have hacc := hw.accepted
  have hpo : ∀ m < nFourier a, m < nFourier a ∧ ModeOK po (nLeg a) m := fun m hm => ⟨hm, hpo' m hm⟩
  have hreg := regular_of_dissipates hw.gauss hw.dissipates
  have hg := asm_good_of (r := r) hacc hs hw.gauss hw.eig hreg
  set I := a.asm E O r with hI
  have hM : ∀ i < I.genIn.N, 0 < I.genIn.M_inv i := fun i hi => by
    have := (node_pos hw.gauss hi).1
    change 0 < 1 / node E a i
    positivity
  have heig : ∀ m < I.NFourier, ∀ l < I.NLayers, I.genIn.scatters m l → ∃ I' : GenIn, (I' = I.genIn ∨ I' = I.genIn.bare) ∧
      I.genIn.coefAP po m l = I'.coefA m l ∧ I.genIn.gScatP po E m l = I'.gScat E m l ∧ I.genIn.evP po E m l = I'.ev E m l ∧
      I'.EigOK E m l ∧ (toM I'.N (I'.ev E m l).2).det ≠ 0 ∧
      (I.beam = true → ∀ j < 2 * I'.N, 1 / I'.mu0 + eigK I'.N (I'.ev E m l).1 j ≠ 0) := by
    intro m hm l hl hsc
    have hsig := (asm_scatters hs hl m).1 hsc
    have hm' : m < nFourier a := by rw [← nFourier_eq]; exact hm
    obtain ⟨I', hI', hc, x1, x2, x3⟩ := slotP (E := E) (I := I.genIn) (l := l) (hpo' m hm')
    refine ⟨I', hI', x1, x2, x3, ?_⟩
    rcases hc with ⟨_, rfl⟩ | ⟨_, rfl⟩
    · obtain ⟨hb, he⟩ := eigOK_of (r := r) hs hw.eig hl hsig (hreg m hm' l hl hsig)
      refine ⟨he, hb.1, fun hbt j hj => ?_⟩
      have hb' : 0 < a.I0 := by simpa [hI, Args.asmIn, Args.Beam] using hbt
      exact eigK_nonres ((hacc.beamDir hb').1).1 hb he.2 (hw.beam hb' m hm' l hl hsig) hj
    · obtain ⟨y1, y2, y3⟩ := bare_eig (E := E) (I := I.genIn) (m := m) (l := l) hw.eig hM
      refine ⟨y1, y2, fun hbt j hj => ?_⟩
      have hb' : 0 < a.I0 := by simpa [hI, Args.asmIn, Args.Beam] using hbt
      have hmu0 := ((hacc.beamDir hb').1).1
      refine eigK_nonres hmu0 y3 y1.2 ?_ hj
      have : toM I.genIn.N (fun i j => (if i = j then I.genIn.M_inv i ^ 2 else 0) - if i = j then 1 / a.mu0 ^ 2 else 0)
          = Matrix.diagonal fun i : Fin I.genIn.N => I.genIn.M_inv i ^ 2 - 1 / a.mu0 ^ 2 := by
        ext i j
        simp only [toM, Matrix.diagonal_apply, Fin.ext_iff]
        split_ifs <;> simp
      rw [this, Matrix.det_diagonal]
      refine prod_ne_zero_iff.2 fun i _ h0 => hmu hb' i i.2 ?_
      have hn := (node_pos hw.gauss i.2).1
      have h1 : (1 / node E a i) ^ 2 = (1 / a.mu0) ^ 2 := by
        have : I.genIn.M_inv i = 1 / node E a i := rfl
        rw [this] at h0
        rw [sub_eq_zero.1 h0]; ring
      have h2 := (pow_left_inj₀ (by positivity) (by positivity) two_ne_zero).1 h1
      rw [one_div, one_div] at h2
      exact inv_inj.1 h2
  have hG' : ∀ m < I.NFourier, ∀ l < I.NLayers, I.genIn.scatters m l → (toM (2 * I.genIn.N) (I.genIn.gScatP po E m l)).det ≠ 0 := by
    intro m hm l hl hsc
    obtain ⟨I', hI', x1, x2, x3, x4, x5, x6⟩ := heig m hm l hl hsc
    have hN : I'.N = I.genIn.N := by rcases hI' with rfl | rfl <;> rfl
    rw [x2, ← hN]; exact gScat_det x4 x5
  obtain ⟨out, hout⟩ := genSolP_isOk (po := po) (E := E) (junk := J.gen) (I := I.genIn) hg.F
    (fun _ l hl hsc => hG' 0 hg.F l hl hsc)
    (fun hb m hm l hl hsc _ => by
      obtain ⟨I', hI', x1, x2, x3, x4, x5, x6⟩ := heig m hm l hl hsc
      have hN : I'.N = I.genIn.N := by rcases hI' with rfl | rfl <;> rfl
      have hmu : I'.mu0 = I.genIn.mu0 := by rcases hI' with rfl | rfl <;> rfl
      rw [x1, ← hN, ← hmu]; exact beam_det x4 x5 (x6 hb))
  have hsp := genSolP_spec hg.F hout
  have hdep := asm_depthOK (E := E) (r := r) hacc hs
  have hAG : ∀ m < I.NFourier, ∀ l < I.NLayers, ∀ i < 2 * I.N, ∀ j < 2 * I.N,
      mulVec (2 * I.N) (I.genIn.effAP po m l) (fun q => out.G m l q j) i = out.K m l j * out.G m l i j := by
    intro m hm l hl i hi j hj
    unfold GenIn.effAP
    by_cases hsc : I.genIn.scatters m l
    · rw [if_pos hsc]
      obtain ⟨h1, h2⟩ := hsp.scatG m hm l hl hsc
      obtain ⟨I', hI', x1, x2, x3, x4, x5, x6⟩ := heig m hm l hl hsc
      have hN : I'.N = I.N := by rcases hI' with rfl | rfl <;> rfl
      have key := scat_eigen x4 (i := i) (j := j) (by rw [hN]; exact hi) (by rw [hN]; exact hj)
      rw [hN, ← x1, ← x2, ← x3] at key
      rw [h2, h1 i hi j hj]
      refine Eq.trans ?_ key
      unfold mulVec
      exact sum_congr rfl fun q hq => by simp only [h1 q (mem_range.mp hq) j hj]
    · rw [if_neg hsc]
      obtain ⟨h1, h2, _⟩ := hsp.trivG m hm l hl hsc
      rw [h1, h2]; exact triv_eigen _ hi hj
  have hGdet : ∀ m < I.NFourier, ∀ l < I.NLayers, (toM (2 * I.N) (out.G m l)).det ≠ 0 := by
    intro m hm l hl
    by_cases hsc : I.genIn.scatters m l
    · have := hG' m hm l hl hsc
      have hEq : toM (2 * I.N) (out.G m l) = toM (2 * I.genIn.N) (I.genIn.gScatP po E m l) := by
        ext i j
        exact (hsp.scatG m hm l hl hsc).1 i i.2 j j.2
      rw [hEq]; exact this
    · rw [(hsp.trivG m hm l hl hsc).1]
      exact gTrivial_det I.N
  have hcoef : ∀ m < I.NFourier, ∃ x, coefMode (I.coefIn out) m = .ok x := by
    intro m hm
    have hm' : m < nFourier a := by rw [← nFourier_eq]; exact hm
    have hsurf := hw.surface m hm'
    obtain ⟨R, hR⟩ := coefR_isOk (c := I.coefIn out) (m := m)
      (fun M hM => by obtain ⟨rho, h1, _⟩ := hsurf M hM; exact ⟨rho, h1⟩)
    obtain ⟨X, hX⟩ := coefX_isOk (c := I.coefIn out) (m := m)
      (fun M hM => by obtain ⟨rho, h1, _⟩ := hsurf M hM; exact ⟨rho, h1⟩)
    have hhalf : a.halfN = (nHalf a : ℤ) := by
      have := hacc.streams.1
      unfold nHalf Args.halfN; omega
    obtain ⟨bp, hbp⟩ := bcMode_isOk (n := nHalf a) (m := m) (d := a.rescaleDiv r) hw.bottomBC hacc.bottom
    obtain ⟨bn, hbn⟩ := bcMode_isOk (n := nHalf a) (m := m) (d := a.rescaleDiv r) hw.topBC hacc.topBC
    have hbp' : bcMode I.N m I.bposScalar I.bposVector I.bpos = .ok bp := by
      rw [← hbp, ← hhalf]; rfl
    have hbn' : bcMode I.N m I.bnegScalar I.bnegVector I.bneg = .ok bn := by
      rw [← hbn, ← hhalf]; rfl
    have hdet : (toM (I.coefIn out).dim ((I.coefIn out).lhs m R)).det ≠ 0 := by
      refine CoefIn.lhs_det (s := fun i => weight E a i * node E a i) (A := fun l => I.genIn.effAP po m l)
        hg.N hg.L (fun m hm l hl j hj => K_symP hsp hm hl hj) hg.tau00 ?_ hm R ?_ (fun l hl i hi j hj => hAG m hm l hl i hi j hj) (hGdet m hm) ?_
      · intro l hl
        have h1 := hdep.step l hl
        have h2 := hdep.mono l hl
        have h3 : 0 < I.scale l := by
          change 0 < O.scale l
          rw [hs.scale l hl]; exact Args.scale_pos hacc hl
        change I.tau0 l < I.tau0 (l + 1)
        have h1' : I.tau0 (l + 1) = I.tau0 l + I.scale l * (bdry I.tauArr (l + 1) - bdry I.tauArr l) := h1
        have h2' : bdry I.tauArr l < bdry I.tauArr (l + 1) := h2
        nlinarith
      · exact dissipativeP hw hs (hpo m hm')
      · intro R' hR' d
        rcases hM : a.bdrf[m]? with _ | M
        · have := coefR_none (c := I.coefIn out) hM hR
          rw [this] at hR'; cases hR'
        · obtain ⟨rho, hrep, hpas⟩ := hsurf M hM
          rw [hR'] at hR
          refine le_trans (le_of_eq ?_) (hpas d)
          refine sum_congr rfl fun i hi => ?_
          congr 2
          rw [mul_sum]
          refine sum_congr rfl fun j hj => ?_
          rw [coefR_spec (c := I.coefIn out) hM hrep hR (mem_range.mp hi) (mem_range.mp hj)]
          change _ * rho (node E a i) (node E a j) * (node E a j * weight E a j) * d j = _
          ring
    refine ⟨ofV (I.coefIn out).dim ((toM (I.coefIn out).dim ((I.coefIn out).lhs m R))⁻¹.mulVec
      (toV (I.coefIn out).dim ((I.coefIn out).rhs m bn bp R X (fun _ => 0)))), ?_⟩
    · unfold coefMode
      rw [hR, hX]
      simp only [bind, Except.bind]
      rw [show bcMode (I.coefIn out).N m (I.coefIn out).bposScalar (I.coefIn out).bposVector (I.coefIn out).bpos
        = .ok bp from hbp', show bcMode (I.coefIn out).N m (I.coefIn out).bnegScalar (I.coefIn out).bnegVector
        (I.coefIn out).bneg = .ok bn from hbn']
      simp only
      unfold npSolve
      rw [if_neg hdet]
  obtain ⟨GC, hGC⟩ := solveCoeffs_isOk (I := I.coefIn out) hg.N hg.L J.coef J.rhs hcoef
  refine ⟨⟨out.G, out.K, out.B, I.gim out.Ginv0, GC⟩, ?_⟩
  · unfold solveAllP
    rw [hout]
    simp only [bind, Except.bind]
    rw [hGC]
    rfl

theorem pydisortP_isOk (hw : WellPosed E a) (hmu : 0 < a.I0 → ∀ i < nHalf a, node E a i ≠ a.mu0) (hpo : ∀ m < nFourier a, ModeOK po (nLeg a) m) (J : Junk) :
    ∃ R, pydisortP po E J a = .ok R := by
  obtain ⟨O, r, p, hs, hp⟩ := prepare_isOk (E := E) hw.accepted hw.sourceShape hw.angles
  obtain ⟨S, hS⟩ := solveAllP_isOk hw hmu hpo hs (r := r) J
  unfold pydisortP
  rw [hp]
  simp only [bind, Except.bind]
  rw [hS]
  exact ⟨_, rfl⟩

end Pydisort

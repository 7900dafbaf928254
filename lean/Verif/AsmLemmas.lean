import Verif.SlotLemmas
import Verif.MathscrLemmas
import Verif.CoefBC
import Verif.Model.Assemble

/-! Helper lemmas: what the evaluation functions of `_assemble_intensity_and_fluxes` evaluate. -/

namespace Pydisort
open Finset

namespace AsmIn
variable {I : AsmIn} {S : Sols} {E : Ext} {J : Junk}

/-- Requirements on the arguments and on `eig` under which the solution is meaningful. -/
structure Good (I : AsmIn) (E : Ext) : Prop where
  N : 0 < I.N
  L : 0 < I.NLayers
  F : 0 < I.NFourier
  nsc : I.iso = true → 0 < I.Nscoeffs
  quad : I.genIn.QuadOK
  tau00 : I.tau0 0 = 0
  eig : ∀ m < I.NFourier, ∀ l < I.NLayers, I.genIn.scatters m l → I.genIn.EigOK E m l

/-- No eigenvalue of mode zero is resonant with the beam; needed only when both sources are present. -/
def NonRes (I : AsmIn) (S : Sols) : Prop :=
  I.beam = true → I.iso = true → ∀ l < I.NLayers, I.genIn.scatters 0 l →
    ∀ j < 2 * I.N, 1 / I.mu0 + S.K 0 l j ≠ 0

theorem solveAll_ok (h : solveAll E J I = .ok S) :
    ∃ out GC, genSol E J.gen I.genIn = .ok out ∧ solveCoeffs (I.coefIn out) J.coef J.rhs = .ok GC ∧
      S = ⟨out.G, out.K, out.B, I.gim out.Ginv0, GC⟩ := by
  unfold solveAll at h
  rcases h1 : genSol E J.gen I.genIn with e | out
  · rw [h1] at h; cases h
  rcases h2 : solveCoeffs (I.coefIn out) J.coef J.rhs with e | GC
  · rw [h1] at h; simp only [bind, Except.bind] at h; rw [h2] at h; cases h
  · rw [h1] at h; simp only [bind, Except.bind] at h; rw [h2] at h; cases h
    exact ⟨out, GC, rfl, h2, rfl⟩

theorem K_ne_zero {I : GenIn} {out : GenOut} (h : GenSpec E I out) (hq : I.QuadOK)
    (hE : ∀ m < I.NFourier, ∀ l < I.NLayers, I.scatters m l → I.EigOK E m l) {m l j : ℕ} (hm : m < I.NFourier)
    (hl : l < I.NLayers) (hj : j < 2 * I.N) : out.K m l j ≠ 0 := by
  by_cases hs : I.scatters m l
  · rw [(h.scatG m hm l hl hs).2]
    have hp := (hE m hm l hl hs).2
    unfold eigK
    split_ifs with h1
    · exact neg_ne_zero.mpr (Real.sqrt_pos.mpr (hp j h1)).ne'
    · exact (Real.sqrt_pos.mpr (hp (j - I.N) (by omega))).ne'
  · rw [(h.trivG m hm l hl hs).2.1]
    unfold kTrivial
    split_ifs with h1
    · obtain ⟨a, b⟩ := hq j h1
      rw [b]; exact neg_ne_zero.mpr (one_div_ne_zero a)
    · obtain ⟨a, b⟩ := hq (j - I.N) (by omega)
      rw [b]; exact one_div_ne_zero a

theorem K_sym {I : GenIn} {out : GenOut} (h : GenSpec E I out) {m l j : ℕ} (hm : m < I.NFourier)
    (hl : l < I.NLayers) (hj : j < I.N) : out.K m l (I.N + j) = -out.K m l j := by
  by_cases hs : I.scatters m l
  · rw [(h.scatG m hm l hl hs).2]
    simp [eigK, hj]
  · rw [(h.trivG m hm l hl hs).2.1]
    simp [kTrivial, hj]

/-- Reciprocal of the signed direction cosine. -/
noncomputable def muInv (I : AsmIn) (q : ℕ) : ℝ := if q < I.N then I.M_inv q else -I.M_inv (q - I.N)

/-- Right-hand side of the ODE system of mode `m` in layer `l`. -/
noncomputable def odeRHS (I : AsmIn) (m l : ℕ) (tau : ℝ) (u : Vec) (i : ℕ) : ℝ :=
  mulVec (2 * I.N) (I.genIn.effA m l) u i
    - (if I.beam = true then I.genIn.effX m l i * Real.exp (-tau / I.mu0) else 0)
    - (if m = 0 ∧ I.iso = true then (∑ r ∈ range I.Nscoeffs, I.s l r * tau ^ r) * I.muInv i else 0)

theorem hasDerivAt_hom {c : CoefIn} (C : Vec) (m l : ℕ) (tau : ℝ) (q : ℕ) :
    HasDerivAt (fun t => c.hom C m l t q)
      (∑ j ∈ range (2 * c.N), c.K m l j * (c.G m l q j * C (l * (2 * c.N) + j) * c.expo m l tau j)) tau := by
  unfold CoefIn.hom
  refine HasDerivAt.fun_sum fun j _ => ?_
  have hk : ∀ a : ℝ, HasDerivAt (fun t => Real.exp (c.K m l j * (t - a)))
      (Real.exp (c.K m l j * (tau - a)) * c.K m l j) tau := by
    intro a
    have := (((hasDerivAt_id tau).sub_const a).const_mul (c.K m l j)).exp
    simpa using this
  unfold CoefIn.expo
  split_ifs with h
  · refine ((hk _).const_mul (c.G m l q j * C (l * (2 * c.N) + j))).congr_deriv ?_
    ring
  · refine ((hk _).const_mul (c.G m l q j * C (l * (2 * c.N) + j))).congr_deriv ?_
    ring

/-- The solution functions, layer by layer, in scaled depth. -/
structure ModeSol (I : AsmIn) (S : Sols) (w : ℕ → ℕ → ℝ → ℕ → ℝ) : Prop where
  eval : ∀ m t i, I.umPlain S m i t + (if m = 0 ∧ I.iso = true then
      mathscrV (2 * I.N) I.Nscoeffs (I.s (I.layer t)) (S.G 0 (I.layer t)) (S.K 0 (I.layer t))
        (S.Gim (I.layer t)) (I.scaledTau t) i else 0) = w m (I.layer t) (I.scaledTau t) i
  deriv : ∀ m < I.NFourier, ∀ l < I.NLayers, ∀ tau, ∀ i < 2 * I.N,
    HasDerivAt (fun x => w m l x i) (I.odeRHS m l tau (w m l tau) i + if m = 0 ∧ I.iso = true then
      ∑ k ∈ range (2 * I.N), S.G 0 l i k * (resid I.Nscoeffs (I.s l) (S.K 0 l k) tau * S.Gim l k) else 0) tau

theorem modeSol (h : solveAll E J I = .ok S) (hg : I.Good E) (hr : I.NonRes S) :
    ∃ (out : GenOut) (C : ℕ → Vec), GenSpec E I.genIn out ∧ S.G = out.G ∧ S.K = out.K ∧ S.B = out.B ∧
      S.Gim = I.gim out.Ginv0 ∧ (∀ m < I.NFourier, coefMode (I.coefIn out) m = .ok (C m)) ∧
      (S.GC = fun m l i k => S.G m l i k * C m (l * (2 * I.N) + k)) ∧
      I.ModeSol S ((I.coefIn out).sol C) ∧
      ∀ m < I.NFourier, ∃ R X bneg bpos, coefR (I.coefIn out) m = .ok R ∧ coefX (I.coefIn out) m = .ok X ∧
        bcMode I.N m I.bnegScalar I.bnegVector I.bneg = .ok bneg ∧
        bcMode I.N m I.bposScalar I.bposVector I.bpos = .ok bpos ∧
        (I.coefIn out).BCs m R X bneg bpos ((I.coefIn out).sol C m) := by
  obtain ⟨out, GC, h1, h2, rfl⟩ := solveAll_ok h
  have hsp := genSol_spec hg.F h1
  obtain ⟨C, hGC, hC⟩ := solveCoeffs_ok (I := I.coefIn out) hg.N hg.L h2
  have hslot := slotOK_of_spec hg.F hsp hg.eig hr
  refine ⟨out, C, hsp, rfl, rfl, rfl, rfl, hC, hGC, ⟨?_, ?_⟩, ?_⟩
  · intro m t i
    have hh : ∑ j ∈ range (2 * I.N), GC m (I.layer t) i j
          * Real.exp (I.exponent ⟨out.G, out.K, out.B, I.gim out.Ginv0, GC⟩ m t j)
        = (I.coefIn out).hom (C m) m (I.layer t) (I.scaledTau t) i := by
      unfold CoefIn.hom
      refine sum_congr rfl fun j _ => ?_
      have : Real.exp (I.exponent ⟨out.G, out.K, out.B, I.gim out.Ginv0, GC⟩ m t j)
          = (I.coefIn out).expo m (I.layer t) (I.scaledTau t) j := by
        unfold exponent CoefIn.expo
        by_cases hj : j < I.N <;> simp [coefIn, hj]
      rw [this, hGC]
    have hs : (I.coefIn out).sol C m (I.layer t) (I.scaledTau t) i
        = (I.coefIn out).hom (C m) m (I.layer t) (I.scaledTau t) i
          + ((if m = 0 ∧ I.iso = true then mathscrV (2 * I.N) I.Nscoeffs (I.s (I.layer t)) (out.G 0 (I.layer t))
              (out.K 0 (I.layer t)) (I.gim out.Ginv0 (I.layer t)) (I.scaledTau t) i else 0)
            + if I.beam = true then out.B m (I.layer t) i * Real.exp (-I.scaledTau t / I.mu0) else 0) := rfl
    rw [hs, ← hh]
    unfold umPlain
    ring
  · intro m hm l hl tau i hi
    have d1 := hasDerivAt_hom (c := I.coefIn out) (C m) m l tau i
    -- beam part
    have d2 : HasDerivAt (fun t => if I.beam = true then out.B m l i * Real.exp (-t / I.mu0) else 0)
        (if I.beam = true then -(out.B m l i / I.mu0) * Real.exp (-tau / I.mu0) else 0) tau := by
      split_ifs
      · have : HasDerivAt (fun t : ℝ => Real.exp (-t / I.mu0)) (Real.exp (-tau / I.mu0) * (-1 / I.mu0)) tau :=
          ((hasDerivAt_id tau).neg.div_const I.mu0).exp
        refine (this.const_mul (out.B m l i)).congr_deriv ?_
        ring
      · exact hasDerivAt_const _ _
    -- isotropic part
    set g := I.gim out.Ginv0 l with hgdef
    have d3 : HasDerivAt (fun t => if m = 0 ∧ I.iso = true then
          mathscrV (2 * I.N) I.Nscoeffs (I.s l) (out.G 0 l) (out.K 0 l) g t i else 0)
        (if m = 0 ∧ I.iso = true then
          (∑ k ∈ range (2 * I.N), out.K 0 l k * out.G 0 l i k * (sigma I.Nscoeffs (I.s l) (out.K 0 l k) tau * g k))
          - (∑ r ∈ range I.Nscoeffs, I.s l r * tau ^ r) * (∑ k ∈ range (2 * I.N), out.G 0 l i k * g k)
          + ∑ k ∈ range (2 * I.N), out.G 0 l i k * (resid I.Nscoeffs (I.s l) (out.K 0 l k) tau * g k) else 0) tau := by
      split_ifs with hc
      · exact hasDerivAt_mathscrV (hg.nsc hc.2) (I.s l) (out.G 0 l) (out.K 0 l) g tau i
      · exact hasDerivAt_const _ _
    have hd := d1.add (d3.add d2)
    refine hd.congr_deriv ?_
    unfold odeRHS
    -- linearity of `A`
    have hA : mulVec (2 * I.N) (I.genIn.effA m l) ((I.coefIn out).sol C m l tau) i
        = (∑ j ∈ range (2 * I.N), out.K m l j * (out.G m l i j * C m (l * (2 * I.N) + j)
            * (I.coefIn out).expo m l tau j))
          + ((if m = 0 ∧ I.iso = true then ∑ k ∈ range (2 * I.N),
              out.K 0 l k * out.G 0 l i k * (sigma I.Nscoeffs (I.s l) (out.K 0 l k) tau * g k) else 0)
          + (if I.beam = true then mulVec (2 * I.N) (I.genIn.effA m l) (out.B m l) i
              * Real.exp (-tau / I.mu0) else 0)) := by
      have e1 : mulVec (2 * I.N) (I.genIn.effA m l) ((I.coefIn out).sol C m l tau) i
          = mulVec (2 * I.N) (I.genIn.effA m l) ((I.coefIn out).hom (C m) m l tau) i
          + (mulVec (2 * I.N) (I.genIn.effA m l) (fun q => if m = 0 ∧ I.iso = true then
              (I.coefIn out).vIso l tau q else 0) i
            + mulVec (2 * I.N) (I.genIn.effA m l) (fun q => if I.beam = true then
              out.B m l q * Real.exp (-tau / I.mu0) else 0) i) := by
        unfold mulVec
        rw [← sum_add_distrib, ← sum_add_distrib]
        refine sum_congr rfl fun q _ => ?_
        rw [show (I.coefIn out).sol C m l tau q = (I.coefIn out).hom (C m) m l tau q
          + ((if m = 0 ∧ I.iso = true then (I.coefIn out).vIso l tau q else 0)
            + if I.beam = true then out.B m l q * Real.exp (-tau / I.mu0) else 0) from rfl]
        ring
      have lin : ∀ (K : Vec) (G : Mat) (y : Vec),
          (∀ j < 2 * I.N, mulVec (2 * I.N) (I.genIn.effA m l) (fun q => G q j) i = K j * G i j) →
          mulVec (2 * I.N) (I.genIn.effA m l) (fun q => ∑ j ∈ range (2 * I.N), G q j * y j) i
            = ∑ j ∈ range (2 * I.N), K j * (G i j * y j) := by
        intro K G y hKG
        unfold mulVec at *
        simp_rw [mul_sum]
        rw [sum_comm]
        refine sum_congr rfl fun j hj => ?_
        rw [← mul_assoc, ← hKG j (mem_range.mp hj), sum_mul]
        exact sum_congr rfl fun q _ => by ring
      rw [e1]
      congr 1
      · have : (I.coefIn out).hom (C m) m l tau = fun q => ∑ j ∈ range (2 * I.N), out.G m l q j *
            (C m (l * (2 * I.N) + j) * (I.coefIn out).expo m l tau j) := by
          funext q
          rw [show (I.coefIn out).hom (C m) m l tau q = ∑ j ∈ range (2 * I.N), out.G m l q j *
            C m (l * (2 * I.N) + j) * (I.coefIn out).expo m l tau j from rfl]
          exact sum_congr rfl fun j _ => by ring
        rw [this, lin (out.K m l) (out.G m l) _ (fun j hj => hslot.eig m hm l hl i hi j hj)]
        exact sum_congr rfl fun j _ => by ring
      · congr 1
        · split_ifs with hc
          · obtain ⟨rfl, _⟩ := hc
            have : (fun q => (I.coefIn out).vIso l tau q) = fun q => ∑ k ∈ range (2 * I.N), out.G 0 l q k *
                (sigma I.Nscoeffs (I.s l) (out.K 0 l k) tau * g k) := by
              funext q; unfold CoefIn.vIso; simp only [coefIn]
              exact mathscrV_eq (hg.nsc (by tauto)) _ _ _ _ _ _
            rw [this, lin (out.K 0 l) (out.G 0 l) _ (fun j hj => hslot.eig 0 hm l hl i hi j hj)]
            exact sum_congr rfl fun j _ => by ring
          · simp [mulVec]
        · split_ifs
          · unfold mulVec
            rw [sum_mul]
            exact sum_congr rfl fun q _ => by ring
          · simp [mulVec]
    rw [hA]
    have hB : I.beam = true → -(out.B m l i / I.mu0)
        = mulVec (2 * I.N) (I.genIn.effA m l) (out.B m l) i - I.genIn.effX m l i := by
      intro hb
      have : mulVec (2 * I.N) (I.genIn.effA m l) (out.B m l) i + out.B m l i / I.mu0 = I.genIn.effX m l i :=
        hslot.beam hb m hm l hl i hi
      linarith
    have hG : (m = 0 ∧ I.iso = true) → ∑ k ∈ range (2 * I.N), out.G 0 l i k * g k = I.muInv i := by
      intro hc
      have hinv : ∀ b < 2 * I.N, ∑ q ∈ range (2 * I.N), out.G 0 l i q * out.Ginv0 l q b
          = if i = b then 1 else 0 := hslot.inv hc.2 l hl i hi
      rw [hgdef]
      unfold gim
      simp_rw [mul_sum, ← mul_assoc]
      rw [sum_comm]
      simp_rw [← sum_mul]
      rw [sum_eq_single i]
      · rw [hinv i hi]; simp [muInv]
      · intro b hb hne
        rw [hinv b (mem_range.mp hb)]; simp [Ne.symm hne]
      · intro hn; exact absurd (mem_range.mpr hi) hn
    change (∑ j ∈ range (2 * I.N), out.K m l j * (out.G m l i j * C m (l * (2 * I.N) + j)
            * (I.coefIn out).expo m l tau j)) + _ = _
    by_cases hb : I.beam = true <;> by_cases hc : m = 0 ∧ I.iso = true
    · simp only [hb, hc, if_true, and_self]
      rw [hG hc]
      have := hB hb
      obtain ⟨rfl, _⟩ := hc
      rw [this]; ring
    · simp only [hb, hc, if_true, if_false]; rw [hB hb]; ring
    · simp only [hb, hc, if_true, if_false, and_self]; rw [hG hc]
      simp
      ring
    · simp only [hb, hc, if_false]; simp
  · intro m hm
    have hc := hC m hm
    unfold coefMode at hc
    rcases hR : coefR (I.coefIn out) m with e | R
    · rw [hR] at hc; cases hc
    rcases hX : coefX (I.coefIn out) m with e | X
    · rw [hR, hX] at hc; cases hc
    rcases hp : bcMode (I.coefIn out).N m (I.coefIn out).bposScalar (I.coefIn out).bposVector (I.coefIn out).bpos with e | bpos
    · rw [hR, hX, hp] at hc; cases hc
    rcases hn : bcMode (I.coefIn out).N m (I.coefIn out).bnegScalar (I.coefIn out).bnegVector (I.coefIn out).bneg with e | bneg
    · rw [hR, hX, hp, hn] at hc; cases hc
    rw [hR, hX, hp, hn] at hc
    simp only [bind, Except.bind] at hc
    have hsol := (npSolve_ok hc).2
    have hsym : (I.coefIn out).KSym := fun m hm l hl j hj => K_sym hsp hm hl hj
    refine ⟨R, X, bneg, bpos, rfl, rfl, hn, hp, ?_⟩
    exact (CoefIn.system_iff (I := I.coefIn out) hg.N hg.L hsym hg.tau00 hm R X bneg bpos (fun _ => 0) (C m)).1 hsol

end AsmIn
end Pydisort

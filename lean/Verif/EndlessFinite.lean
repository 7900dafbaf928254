import Verif.EndlessEval
import Verif.ReturnedLemmas

/-!
# The model of calls with a floating-point last boundary, for finite boundaries
-/

namespace Pydisort
open Finset Pydisort.Spec

namespace CoefIn
variable {c : CoefIn} {tau : ℕ → Fl}

theorem dense_fin (hL : 0 < c.NLayers) (ht : ∀ k ≤ c.NLayers, tau k = .fin (c.tau0 k)) (m : ℕ) (R : Option Mat) :
    ∀ i j, c.denseF tau m R i j = .fin (c.lhs m R i j) := by
  unfold denseF lhs dense
  have h0 : ∀ i j : ℕ, (fun _ _ => Fl.fin 0 : ℕ → ℕ → Fl) i j = .fin ((fun _ _ => 0 : Mat) i j * (fun _ _ => 1 : Mat) i j) := fun i j => by simp
  have h1 := setBlockF_rel (i0 := 0) (i1 := c.N) (j0 := 0) (j1 := c.N) (P := fun i j => .fin (c.G m 0 (c.N + i) j)) (Q := fun i j => c.G m 0 (c.N + i) j) h0
    (fun i j _ hi _ hj => by rw [mul_one])
  have h2 := setBlockF_rel (i0 := 0) (i1 := c.N) (j0 := c.N) (j1 := 2 * c.N) (P := fun i j => Fl.mul (.fin (c.G m 0 (c.N + i) (c.N + j))) (c.E01F tau m j))
    (Q := fun i j => c.G m 0 (c.N + i) (c.N + j) * c.E01 m j) h1 (fun i j _ hi hj1 hj => by
      rw [mul_one]
      beta_reduce
      unfold E01F E01
      rw [ht 1 hL]; rfl)
  have h3 := setBlockF_rel (i0 := c.dim - c.N) (i1 := c.dim) (j0 := c.dim - 2 * c.N) (j1 := c.dim - c.N) (P := c.botLF tau m R) (Q := c.botL m R) h2
    (fun i j hi1 hi hj1 hj => by
      rw [mul_one]
      unfold botLF botL ELm1LF ELm1L
      rw [ht _ le_rfl, ht _ (Nat.sub_le _ _)]
      cases R <;> simp)
  have h4 := setBlockF_rel (i0 := c.dim - c.N) (i1 := c.dim) (j0 := c.dim - c.N) (j1 := c.dim) (P := fun i j => .fin (c.botR m R i j)) (Q := c.botR m R) h3
    (fun i j hi1 hi hj1 hj => by rw [mul_one])
  have inv : ∀ n ≤ c.NLayers - 1, ∀ (A : ℕ → ℕ → Fl) (B : Mat), (∀ i j, A i j = .fin (B i j * (fun _ _ => 1 : Mat) i j)) →
      ∀ i j, forRange n (fun l A => c.denseInterF tau m l A) A i j = .fin (forRange n (fun l A => c.denseInter m l A) B i j * (fun _ _ => 1 : Mat) i j) := by
    intro n
    induction n with
    | zero => intro _ A B h; exact h
    | succ n ih =>
      intro hn A B h
      have hh := ih (by omega) A B h
      show ∀ i j, c.denseInterF tau m n _ i j = .fin (c.denseInter m n _ i j * _)
      unfold denseInterF denseInter
      have hE : ∀ j, c.Elm1lF tau m n j = .fin (c.Elm1l m n j) := fun j => by
        unfold Elm1lF Elm1l
        rw [ht n (by omega), ht (n + 1) (by omega)]; rfl
      have hF : ∀ j, c.Ellp1F tau m n j = .fin (c.Ellp1 m n j) := fun j => by
        unfold Ellp1F Ellp1
        rw [ht (n + 1) (by omega), ht (n + 2) (by omega)]; rfl
      refine setBlockF_rel (setBlockF_rel (setBlockF_rel (setBlockF_rel (setBlockF_rel (setBlockF_rel hh ?_) ?_) ?_) ?_) ?_) ?_
      · intro i j _ _ _ _
        rw [mul_one, hE]; rfl
      · intro i j _ _ _ _
        rw [mul_one, hE]; rfl
      · intro i j _ _ _ _
        rw [mul_one]
      · intro i j _ _ _ _
        rw [mul_one]
      · intro i j _ _ _ _
        rw [mul_one, hF]; rfl
      · intro i j _ _ _ _
        rw [mul_one, hF]; rfl
  intro i j
  rw [inv _ le_rfl _ _ h4, mul_one]

theorem rhs_fin (hN : 0 < c.N) (hL : 0 < c.NLayers) (ht : ∀ k ≤ c.NLayers, tau k = .fin (c.tau0 k)) (hiso : c.iso = false) (hmu : c.beam = true → c.mu0 ≠ 0) (m : ℕ)
    (bneg bpos : Vec) (R : Option Mat) (X r : Vec) : ∀ i < c.dim, c.rhsF tau m bneg bpos R X (fun k => .fin (r k)) i = .fin (c.rhs m bneg bpos R X (fun _ => 0) i) := by
  have hd := c.dim_pred hL
  intro i hi
  rw [CoefIn.rhs_indep hN hL m bneg bpos R X (fun _ => 0) r i hi]
  unfold rhsF rhs rhsBC
  have hno : ¬ (m = 0 ∧ c.iso = true) := by rw [hiso]; simp
  have h1 : ∀ i, i < c.dim → (setSliceF (setSliceF (setSliceF (fun k => Fl.fin (r k)) 0 c.N fun i => .fin (bneg i)) (c.dim - c.N) c.dim fun i => .fin (bpos i))
      c.N (c.dim - c.N) fun _ => .fin 0) i = .fin (setSlice (setSlice (setSlice r 0 c.N bneg) (c.dim - c.N) c.dim bpos) c.N (c.dim - c.N) (fun _ => 0) i) :=
    setSliceF_rel (setSliceF_rel (setSliceF_rel (fun _ _ => rfl) (fun _ _ _ _ => rfl)) (fun _ _ _ _ => rfl)) (fun _ _ _ _ => rfl)
  simp only [if_neg hno]
  by_cases hb : c.beam = true
  · have hE : ∀ k ≤ c.NLayers, c.beamF (tau k) = .fin (Real.exp (-c.tau0 k / c.mu0)) := fun k hk => by
      unfold beamF
      rw [ht k hk, Fl.fin_neg, Fl.fin_div (hmu hb), Fl.fin_exp]
    rw [if_pos hb, if_pos hb]
    unfold rhsBeamF rhsBeam
    have h2 := addSliceF_rel (a := 0) (b := c.N) (w := fun i => .fin (-c.B m 0 (c.N + i))) (x := fun i => -c.B m 0 (c.N + i)) h1 (fun _ _ _ _ => rfl)
    by_cases hL1 : c.NLayers > 1
    · rw [if_pos hL1, if_pos hL1]
      have h3 := addSliceF_rel (a := c.N) (b := c.dim - c.N) (w := fun i => Fl.mul (.fin (c.B m (i / (2 * c.N) + 1) (i % (2 * c.N)) - c.B m (i / (2 * c.N) + 1 - 1) (i % (2 * c.N))))
        (c.beamF (tau (i / (2 * c.N) + 1)))) (x := fun i => (c.B m (i / (2 * c.N) + 1) (i % (2 * c.N)) - c.B m (i / (2 * c.N) + 1 - 1) (i % (2 * c.N)))
        * Real.exp (-c.tau0 (i / (2 * c.N) + 1) / c.mu0)) h2 (fun i _ h1 h2 => by
          have hq : (i - c.N) / (2 * c.N) < c.NLayers - 1 := by
            rw [Nat.div_lt_iff_lt_mul (by omega)]; omega
          beta_reduce
          rw [hE _ (by omega), Fl.fin_mul])
      rcases R with _ | R
      · exact addSliceF_rel h3 (fun i _ _ _ => by beta_reduce; rw [hE _ le_rfl, Fl.fin_mul, Fl.fin_neg]) i hi
      · exact addSliceF_rel h3 (fun i _ _ _ => by beta_reduce; rw [hE _ le_rfl, Fl.fin_mul]) i hi
    · rw [if_neg hL1, if_neg hL1]
      rcases R with _ | R
      · exact addSliceF_rel h2 (fun i _ _ _ => by beta_reduce; rw [hE _ le_rfl, Fl.fin_mul, Fl.fin_neg]) i hi
      · exact addSliceF_rel h2 (fun i _ _ _ => by beta_reduce; rw [hE _ le_rfl, Fl.fin_mul]) i hi
  · rw [if_neg hb, if_neg hb]
    exact h1 i hi

theorem coefModeF_fin (hN : 0 < c.N) (hL : 0 < c.NLayers) (ht : ∀ k ≤ c.NLayers, tau k = .fin (c.tau0 k)) (hiso : c.iso = false) (hmu : c.beam = true → c.mu0 ≠ 0) (r : Vec) {m : ℕ}
    {x : Vec} (h : coefMode c m = .ok x) : c.coefModeF tau (fun k => .fin (r k)) m = .ok fun k => .fin (x k) := by
  unfold coefMode at h
  unfold coefModeF
  rcases h1 : coefR c m with e | R
  · rw [h1] at h; cases h
  rw [h1] at h; simp only [bind, Except.bind] at h ⊢
  rcases h2 : coefX c m with e | X
  · rw [h2] at h; cases h
  rw [h2] at h; simp only at h ⊢
  rcases h3 : bcMode c.N m c.bposScalar c.bposVector c.bpos with e | bp
  · rw [h3] at h; cases h
  rw [h3] at h; simp only at h ⊢
  rcases h4 : bcMode c.N m c.bnegScalar c.bnegVector c.bneg with e | bn
  · rw [h4] at h; cases h
  rw [h4] at h; simp only at h ⊢
  have hA := dense_fin (c := c) hL ht m R
  have hb := rhs_fin (c := c) hN hL ht hiso hmu m bn bp R X r
  unfold npSolveF
  rw [if_pos ⟨fun i _ j _ => by rw [hA]; trivial, fun i hi => by rw [hb i hi]; trivial⟩]
  rw [npSolve_congr (A' := c.lhs m R) (b' := c.rhs m bn bp R X fun _ => 0) (fun i _ j _ => by rw [hA]; rfl) (fun i hi => by rw [hb i hi]; rfl), h]
  rfl

end CoefIn

section
variable {E : Ext} {a : Args} {O : Optics} {r : ℝ}

theorem tauF_fin (hacc : Accepted a) : a.tauF (.fin (a.tauArr.get (a.tauArr.n - 1))) = fun k => .fin (a.tauArr.get k) := by
  funext k
  unfold Args.tauF
  by_cases h : k + 1 = a.tauArr.n
  · rw [if_pos h, ← h]; rfl
  · rw [if_neg h]

theorem withLast_fin (hacc : Accepted a) : a.withLast (.fin (a.tauArr.get (a.tauArr.n - 1))) = a.toF := by
  unfold Args.withLast
  rw [tauF_fin hacc]; rfl

theorem tau0F_fin (hacc : Accepted a) (hO : a.optics = .ok O) {k : ℕ} (hk : k ≤ a.tauArr.n) : a.tau0F (.fin (a.tauArr.get (a.tauArr.n - 1))) k = .fin (O.tau0 k) := by
  obtain ⟨h1, h2⟩ := optics_tau0 hO
  unfold Args.tau0F
  rw [withLast_fin hacc, tauF_fin hacc]
  by_cases hf : ∃ k < a.fArr.n, 0 < a.fArr.get k
  · rw [if_pos hf, (h1 hf).1]
    unfold Args.tau0
    have : (Fl.sum k fun j => Fl.mul (.fin (a.scale j)) (a.toF.thick j)) = .fin (∑ j ∈ range k, a.scale j * a.thick j) := by
      rw [← Fl.sum_fin]
      exact Fl.sum_congr fun j hj => by rw [Args.toF_thick, Fl.fin_mul]
    rw [this]
    by_cases hk0 : k = 0
    · subst hk0; simp
    · rw [if_neg hk0]
      unfold cumsum
      rw [show k - 1 + 1 = k by omega]
  · rw [if_neg hf, (h2 hf).1]
    beta_reduce
    by_cases hk0 : k = 0
    · rw [if_pos hk0, if_pos hk0]
    · rw [if_neg hk0, if_neg hk0]

theorem quad_ok_of {J : Junk} {R : Solved} (h : pydisort E J a = .ok R) : ∃ q, a.quad E = .ok q ∧ q.1.get = node E a ∧ q.2.get = weight E a := by
  unfold pydisort prepare at h
  rcases h1 : a.validate with e | _
  · rw [h1] at h; cases h
  rw [h1] at h; simp only [bind, Except.bind] at h
  rcases h2 : a.quad E with e | q
  · rw [h2] at h; cases h
  refine ⟨q, rfl, ?_⟩
  have hn : a.N = Spec.nHalf a := rfl
  unfold Args.quad gaussLegendreQuad at h2
  split_ifs at h2 with h5
  · cases h2
  · simp only [bind, Except.bind] at h2
    split_ifs at h2
    cases h2
    simp only [transformInterval, transformWeights, A1.map, hn]
    constructor
    · funext i; unfold Spec.node; ring
    · funext i; unfold Spec.weight; ring

theorem AsmF.same {I I' : AsmF} (hF : 0 < I.NFourier) (hum : ∀ m < I.NFourier, ∀ i t, I.um m i t = I'.um m i t) (e1 : I.N = I'.N) (e2 : I.NFourier = I'.NFourier)
    (e3 : ∀ tau, I.checkTau tau = I'.checkTau tau) (e4 : I.rescale = I'.rescale) (e5 : I.phi0 = I'.phi0) (e6 : I.corr = none) (e6' : I'.corr = none) (e7 : ∀ i, I.mu i = I'.mu i)
    (e8 : ∀ i, I.W i = I'.W i) (e9 : I.beam = I'.beam) (e10 : ∀ t, I.direct t = I'.direct t) (e11 : ∀ t, I.directScaled t = I'.directScaled t) :
    (∀ tau, I.u0 tau = I'.u0 tau) ∧ (∀ tau phi, I.u tau phi = I'.u tau phi) ∧ (∀ tau, I.fluxUp tau = I'.fluxUp tau) ∧ ∀ tau, I.fluxDown tau = I'.fluxDown tau := by
  have hq : ∀ row t, I.fluxQuad row t = I'.fluxQuad row t := fun row t => by
    unfold AsmF.fluxQuad
    rw [← e1]
    exact Fl.sum_congr fun i _ => by rw [hum 0 hF, e7, e8]
  refine ⟨fun tau => ?_, fun tau phi => ?_, fun tau => ?_, fun tau => ?_⟩
  · unfold AsmF.u0 AsmF.u0Entry
    simp only [hum 0 hF, e1, e3, e4]
  · unfold AsmF.u
    have : ∀ i t ph, I.uEntry i t ph = I'.uEntry i t ph := fun i t ph => by
      unfold AsmF.uEntry
      rw [e6, e6', e4, ← e2, ← e5]
      simp only
      rw [Fl.sum_congr fun m hm => by rw [hum m hm]]
    simp only [this, e1, e3]
  · unfold AsmF.fluxUp
    have : I.fluxUpEntry = I'.fluxUpEntry := by
      funext t
      unfold AsmF.fluxUpEntry
      rw [hq, e4]
    rw [this, e3]
  · unfold AsmF.fluxDown
    have h1 : I.fluxDownEntry = I'.fluxDownEntry := by
      funext t
      unfold AsmF.fluxDownEntry
      rw [hq, e4, e1, e10, e11]
    have h2 : I.directEntry = I'.directEntry := by
      funext t
      unfold AsmF.directEntry
      rw [e4, e10]
    rw [h1, h2, e3, e4, e9]

/-- The call succeeds if the call of the exact model does, and the returned functions are the same. -/
theorem last_fin {J : Junk} {R : Solved} (h : pydisort E J a = .ok R) (hns : NoSource a) :
    ∃ I, pydisortLast E J a (.fin (a.tauArr.get (a.tauArr.n - 1))) = .ok I ∧
      (∀ tau, I.u0 tau = (R.I.toF R.S).u0 tau) ∧ (∀ tau phi, I.u tau phi = (R.I.toF R.S).u tau phi) ∧
      (∀ tau, I.fluxUp tau = (R.I.toF R.S).fluxUp tau) ∧ ∀ tau, I.fluxDown tau = (R.I.toF R.S).fluxDown tau := by
  obtain ⟨hacc, O, r, hO, hr, hI, hsol, _⟩ := pydisort_ok h
  obtain ⟨q, hq, q1, q2⟩ := quad_ok_of h
  have hs := Args.optics_spec hacc hO
  have hdep := asm_depthOK (E := E) (r := r) hacc hs
  rw [hI] at hsol
  obtain ⟨out, GC, hout, hGC, hS⟩ := AsmIn.solveAll_ok hsol
  have hN : 0 < (a.asm E O r).N := by
    change 0 < (a.NQuad / 2).toNat
    have := hacc.streams; omega
  have hL : 0 < (a.asm E O r).NLayers := hacc.layers
  obtain ⟨C, hC1, hC2⟩ := solveCoeffs_ok (I := (a.asm E O r).coefIn out) hN hL hGC
  have hiso : (a.asm E O r).iso = false := by
    have : ¬ a.Iso := fun hi => Args.iso_iff.1 hi hns
    simpa [Args.asmIn] using this
  have hmu : (a.asm E O r).beam = true → (a.asm E O r).mu0 ≠ 0 := by
    intro hb
    have hb' : 0 < a.I0 := by simpa [Args.asmIn, Args.Beam] using hb
    exact ((hacc.beamDir hb').1).1.ne'
  have ht : ∀ k ≤ a.tauArr.n, a.tau0F (.fin (a.tauArr.get (a.tauArr.n - 1))) k = .fin (O.tau0 k) := fun k hk => tau0F_fin hacc hO hk
  have hmode : ∀ m < ((a.asm E O r).coefIn out).NFourier, ((a.asm E O r).coefIn out).coefModeF (a.tau0F (.fin (a.tauArr.get (a.tauArr.n - 1)))) (fun k => .fin (J.coef.RHS k)) m
      = .ok fun k => .fin (C m k) := fun m hm => CoefIn.coefModeF_fin (c := (a.asm E O r).coefIn out) hN hL ht hiso hmu _ (hC2 m hm)
  obtain ⟨GC', hGC', hGC''⟩ := solveCoeffsF_isOk (C0 := fun m k => .fin (J.coef.C m k)) hmode
  refine ⟨(a.asm E O r).lastF (a.tauF (.fin (a.tauArr.get (a.tauArr.n - 1)))) (a.tau0F (.fin (a.tauArr.get (a.tauArr.n - 1)))) out GC', ?_, ?_⟩
  · have hv : (a.withLast (.fin (a.tauArr.get (a.tauArr.n - 1)))).validate = .ok () := by
      rw [withLast_fin hacc, Args.toF_validate]; exact Args.validate_iff.2 hacc
    unfold pydisortLast
    rw [hv, hq, hO]
    simp only [bind, Except.bind]
    rw [hr]
    simp only
    rw [q1, q2]
    rw [show a.asmIn (node E a) (weight E a) O r = a.asm E O r from rfl, hout]
    simp only
    rw [hGC']
    rfl
  · rw [hI, hS, tauF_fin hacc]
    set I := (a.asm E O r).lastF (fun k => Fl.fin (a.tauArr.get k)) (a.tau0F (Fl.fin (a.tauArr.get (a.tauArr.n - 1)))) out GC' with hI1
    set I' := (a.asm E O r).toF ⟨out.G, out.K, out.B, (a.asm E O r).gim out.Ginv0, GC⟩ with hI2
    have hlay : ∀ t, I.layer t = I'.layer t := fun t => rfl
    have hlt : ∀ t, I'.layer t < a.tauArr.n := fun t => argmaxTrue_lt hacc.layers _
    have htau : ∀ k ≤ a.tauArr.n, I.tau0 k = I'.tau0 k := fun k hk => ht k hk
    have hst : ∀ t, I.scaledTau t = I'.scaledTau t := fun t => by
      unfold AsmF.scaledTau
      rw [hlay, htau _ (hlt t)]
      rfl
    have hex : ∀ m t j, I.exponent m t j = I'.exponent m t j := fun m t j => by
      unfold AsmF.exponent
      rw [hlay, hst, htau _ (hlt t), htau _ (hlt t).le]
      rfl
    have hum : ∀ m < I.NFourier, ∀ i t, I.um m i t = I'.um m i t := fun m hm i t => by
      have h1 : (Fl.sum (2 * I.N) fun j => Fl.mul (I.GC m (I.layer t) i j) (Fl.exp (I.exponent m t j)))
          = Fl.sum (2 * I'.N) fun j => Fl.mul (I'.GC m (I'.layer t) i j) (Fl.exp (I'.exponent m t j)) := by
        refine Fl.sum_congr fun j _ => ?_
        rw [hex, hlay]
        congr 1
        change GC' m _ i j = .fin (GC m _ i j)
        rw [hGC'' m hm, hC1]
      unfold AsmF.um
      rw [h1, hst]
      have n1 : ¬ (m = 0 ∧ I.iso = true) := fun h => by cases h.2
      have n2 : ¬ (m = 0 ∧ I'.iso = true) := fun h => by
        have : (a.asm E O r).iso = true := h.2
        rw [hiso] at this; cases this
      simp only [if_neg n1, if_neg n2]
      rfl
    have hF : 0 < I.NFourier := by
      change 0 < a.nFourier.toNat
      have := hacc.modes
      unfold Args.nFourier
      split_ifs with h1
      · simp
      · have := (this (by simpa using h1)).1
        omega
    exact AsmF.same hF hum rfl rfl (fun _ => rfl) rfl rfl rfl rfl (fun _ => rfl) (fun _ => rfl) rfl (fun _ => rfl) fun t => by
      unfold AsmF.directScaled
      rw [hst]; rfl

end
end Pydisort

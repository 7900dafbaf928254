import Verif.OpticsLemmas
import Verif.AsmLemmas

/-! Helper lemmas: from the arguments of `pydisort` to the solution of the transfer equation. -/

namespace Pydisort
open Finset
open Spec (bdry)

theorem prepare_ok {E : Ext} {a : Args} {p : AsmIn × NTIn} (h : prepare E a = .ok p) :
    Spec.Accepted a ∧ ∃ O r, a.optics = .ok O ∧ a.rescaleFactor O = .ok r ∧
      p = (a.asmIn (Spec.node E a) (Spec.weight E a) O r, a.ntIn (Spec.node E a) O r) := by
  unfold prepare at h
  rcases h1 : a.validate with e | _
  · rw [h1] at h; cases h
  have hacc := Args.validate_iff.1 h1
  rw [h1] at h; simp only [bind, Except.bind] at h
  rcases h2 : a.quad E with e | q
  · rw [h2] at h; cases h
  rw [h2] at h; simp only at h
  rcases h3 : a.optics with e | O
  · rw [h3] at h; cases h
  rw [h3] at h; simp only at h
  rcases h4 : a.rescaleFactor O with e | r
  · rw [h4] at h; cases h
  rw [h4] at h; cases h
  refine ⟨hacc, O, r, rfl, h4, ?_⟩
  have hn : a.N = Spec.nHalf a := rfl
  have hq : q.1.get = Spec.node E a ∧ q.2.get = Spec.weight E a := by
    unfold Args.quad gaussLegendreQuad at h2
    split_ifs at h2 with h5
    · cases h2
    · simp only [bind, Except.bind] at h2
      split_ifs at h2
      cases h2
      simp only [transformInterval, transformWeights, A1.map, hn]
      constructor
      · funext i; unfold Spec.node; ring
      · funext i; unfold Spec.weight; ring
  rw [hq.1, hq.2]

theorem pydisort_ok {E : Ext} {J : Junk} {a : Args} {R : Solved} (h : pydisort E J a = .ok R) :
    Spec.Accepted a ∧ ∃ O r, a.optics = .ok O ∧ a.rescaleFactor O = .ok r ∧
      R.I = a.asmIn (Spec.node E a) (Spec.weight E a) O r ∧ solveAll E J R.I = .ok R.S ∧
      R.onlyFlux = a.onlyFlux ∧
      (a.NTGate → R.nt = some (a.ntIn (Spec.node E a) O r)) ∧ (¬ a.NTGate → R.nt = none) := by
  unfold pydisort at h
  rcases h1 : prepare E a with e | p
  · rw [h1] at h; cases h
  rw [h1] at h; simp only [bind, Except.bind] at h
  rcases h2 : solveAll E J p.1 with e | S
  · rw [h2] at h; cases h
  rw [h2] at h; cases h
  obtain ⟨hacc, O, r, hO, hr, rfl⟩ := prepare_ok h1
  exact ⟨hacc, O, r, hO, hr, rfl, h2, rfl, fun hg => by simp [hg], fun hg => by simp [hg]⟩

theorem toM_mul (n : ℕ) (A B : Mat) : toM n A * toM n B = toM n (matMul n A B) := by
  ext i j
  simp only [Matrix.mul_apply, toM, matMul]
  rw [Finset.sum_range]

theorem isEigenBasis_iff {n : ℕ} {A V : Mat} {d : Vec} :
    Spec.IsEigenBasis n A d V ↔ (toM n V).det ≠ 0 ∧
      toM n A * toM n V = toM n V * Matrix.diagonal (fun i : Fin n => d i) := by
  unfold Spec.IsEigenBasis
  refine and_congr_right fun _ => ?_
  rw [← Matrix.ext_iff]
  simp only [Matrix.mul_diagonal]
  rw [toM_mul]
  constructor
  · intro h i j
    have := h i i.2 j j.2
    simp only [toM, matMul]; rw [this, mul_comm]
  · intro h i hi j hj
    have := h ⟨i, hi⟩ ⟨j, hj⟩
    simp only [toM, matMul] at this; rw [this, mul_comm]

/-- Two eigenvector bases of the same matrix have the same set of eigenvalues. -/
theorem eigenvalue_mem {n : ℕ} {A V V' : Mat} {d d' : Vec} (h : Spec.IsEigenBasis n A d V)
    (h' : Spec.IsEigenBasis n A d' V') {j : ℕ} (hj : j < n) : ∃ k < n, d' j = d k := by
  rw [isEigenBasis_iff] at h h'
  obtain ⟨hd, he⟩ := h
  obtain ⟨hd', he'⟩ := h'
  set M := toM n A
  set P := toM n V
  set Q := toM n V'
  have hu : IsUnit P.det := isUnit_iff_ne_zero.mpr hd
  set C := P⁻¹ * Q with hC
  have hQ : Q = P * C := by rw [hC, ← Matrix.mul_assoc, Matrix.mul_nonsing_inv _ hu, Matrix.one_mul]
  have hCdet : C.det ≠ 0 := by
    intro h0
    apply hd'
    rw [hQ, Matrix.det_mul, h0, mul_zero]
  have hDC : Matrix.diagonal (fun i : Fin n => d i) * C = C * Matrix.diagonal (fun i : Fin n => d' i) := by
    have : P * (Matrix.diagonal (fun i : Fin n => d i) * C) = P * (C * Matrix.diagonal (fun i : Fin n => d' i)) := by
      rw [← Matrix.mul_assoc, ← he, Matrix.mul_assoc, ← hQ, he', hQ, Matrix.mul_assoc]
    have h2 := congrArg (fun X => P⁻¹ * X) this
    simpa [← Matrix.mul_assoc, Matrix.nonsing_inv_mul _ hu] using h2
  by_contra hne
  push Not at hne
  apply hCdet
  refine Matrix.det_eq_zero_of_column_eq_zero ⟨j, hj⟩ fun k => ?_
  have := congrFun (congrFun hDC k) ⟨j, hj⟩
  rw [Matrix.diagonal_mul, Matrix.mul_diagonal] at this
  have hk := hne k k.2
  have : (d k - d' j) * C k ⟨j, hj⟩ = 0 := by linarith
  rcases mul_eq_zero.mp this with h3 | h3
  · exact absurd (by linarith) hk
  · exact h3

section
variable {E : Ext} {a : Args} {O : Optics} {r : ℝ}

/-- Abbreviation for the arguments passed on by `pydisort`. -/
noncomputable abbrev Args.asm (a : Args) (E : Ext) (O : Optics) (r : ℝ) : AsmIn :=
  a.asmIn (Spec.node E a) (Spec.weight E a) O r

theorem nFourier_eq : a.nFourier.toNat = Spec.nFourier a := by
  unfold Args.nFourier Spec.nFourier; split_ifs <;> rfl

theorem node_pos (hg : Spec.GaussContract E (Spec.nHalf a)) {i : ℕ} (hi : i < Spec.nHalf a) :
    0 < Spec.node E a i ∧ Spec.node E a i < 1 := by
  have := hg.node i hi
  unfold Spec.node
  constructor <;> linarith [this.1, this.2]

theorem asm_quadOK (hg : Spec.GaussContract E (Spec.nHalf a)) : (a.asm E O r).genIn.QuadOK :=
  fun _ hi => ⟨(node_pos hg hi).1.ne', rfl⟩

/-- The Legendre coefficients the solver effectively uses. -/
noncomputable def gEff (O : Optics) : Mat := fun l k => O.wLeg l k / (2 * (k : ℝ) + 1)

theorem asm_wLegOK : (a.asm E O r).genIn.WLegOK (gEff O) := by
  intro l _ k _
  have : (2 * (k : ℝ) + 1) ≠ 0 := by positivity
  unfold gEff
  change O.wLeg l k = _
  field_simp

theorem asm_zero_or (hs : Args.OpticsSpec a O) {l : ℕ} (hl : l < a.NLayers) :
    (O.omega l = 0 ∧ Spec.omegaStar a l = 0) ∨
      (O.omega l = Spec.omegaStar a l ∧ gEff O l = Spec.legStar a l ∧
        ∀ k, O.wLeg l k = (2 * (k : ℝ) + 1) * Spec.legStar a l k) := by
  by_cases h0 : a.omega.get l = 0
  · left
    have : Spec.omegaStar a l = 0 := by simp [Spec.omegaStar, h0]
    exact ⟨by rw [hs.omega l hl, this], this⟩
  · right
    refine ⟨hs.omega l hl, ?_, fun k => hs.wLeg l hl k h0⟩
    funext k
    have : (2 * (k : ℝ) + 1) ≠ 0 := by positivity
    unfold gEff
    rw [hs.wLeg l hl k h0]; field_simp

theorem asm_scatD (hs : Args.OpticsSpec a O) {l : ℕ} (hl : l < a.NLayers) (n m : ℕ) (x y : ℝ) :
    Spec.scatD (O.omega l) n (gEff O l) m x y = Spec.scatD (Spec.omegaStar a l) n (Spec.legStar a l) m x y := by
  rcases asm_zero_or hs hl with ⟨h1, h2⟩ | ⟨h1, h2, _⟩
  · simp [Spec.scatD, h1, h2]
  · rw [h1, h2]

theorem asm_beamX (hs : Args.OpticsSpec a O) {l : ℕ} (hl : l < a.NLayers) (n m : ℕ) (I0 mu0 x : ℝ) :
    Spec.beamX (O.omega l) n (gEff O l) I0 mu0 m x
      = Spec.beamX (Spec.omegaStar a l) n (Spec.legStar a l) I0 mu0 m x := by
  rcases asm_zero_or hs hl with ⟨h1, h2⟩ | ⟨h1, h2, _⟩
  · simp [Spec.beamX, h1, h2]
  · rw [h1, h2]

theorem asm_scatters (hs : Args.OpticsSpec a O) {l : ℕ} (hl : l < a.NLayers) (m : ℕ) :
    (a.asm E O r).genIn.scatters m l
      ↔ Spec.Significant (Spec.omegaStar a l) (Spec.nLeg a) (Spec.legStar a l) m := by
  have key : ∀ k, |(a.asm E O r).genIn.omLeg m l k|
      = |Spec.omegaStar a l / 2 * ((2 * ((m + k : ℕ) : ℝ) + 1) * Spec.legStar a l (m + k))| := by
    intro k
    unfold GenIn.omLeg
    change |O.omega l / 2 * O.wLeg l (m + k)| = _
    rcases asm_zero_or hs hl with ⟨h1, h2⟩ | ⟨h1, _, h3⟩
    · simp [h1, h2]
    · rw [h1, h3]
  unfold GenIn.scatters Spec.Significant
  constructor
  · rintro ⟨k, hk, h⟩
    rw [key] at h
    change k < Spec.nLeg a - m at hk
    exact ⟨m + k, by omega, by omega, h⟩
  · rintro ⟨k, h1, h2, h⟩
    refine ⟨k - m, ?_, ?_⟩
    · change k - m < Spec.nLeg a - m; omega
    · rw [key, show m + (k - m) = k by omega]; exact h

theorem asm_kernel (hs : Args.OpticsSpec a O) {l : ℕ} (hl : l < a.NLayers) {m : ℕ}
    (hsig : Spec.Significant (Spec.omegaStar a l) (Spec.nLeg a) (Spec.legStar a l) m) (x y : ℝ) :
    Spec.kernel a m l x y = Spec.scatD (O.omega l) (Spec.nLeg a) (gEff O l) m x y := by
  unfold Spec.kernel; rw [if_pos hsig, asm_scatD hs hl]

theorem asm_reduced (hs : Args.OpticsSpec a O) {l : ℕ} (hl : l < a.NLayers) {m : ℕ}
    (hsig : Spec.Significant (Spec.omegaStar a l) (Spec.nLeg a) (Spec.legStar a l) m) (i j : ℕ) :
    matMul (Spec.nHalf a) ((a.asm E O r).genIn.amb m l) ((a.asm E O r).genIn.apb m l) i j
      = Spec.reduced (Spec.nHalf a) (Spec.node E a) (Spec.weight E a) (Spec.kernel a m l) i j := by
  have hal : ∀ i j, (a.asm E O r).genIn.alpha m l i j
      = Spec.alpha (Spec.node E a) (Spec.weight E a) (Spec.kernel a m l) i j := by
    intro i j
    unfold GenIn.alpha Spec.alpha
    rw [GenIn.Dpos_eq (asm_wLegOK (a := a) (r := r)) hl, asm_kernel hs hl hsig]
    change 1 / Spec.node E a i * (Spec.scatD (O.omega l) (Spec.nLeg a) (gEff O l) m (Spec.node E a i)
      (Spec.node E a j) * Spec.weight E a j - _) = _
    ring
  have hbe : ∀ i j, (a.asm E O r).genIn.beta m l i j
      = Spec.beta (Spec.node E a) (Spec.weight E a) (Spec.kernel a m l) i j := by
    intro i j
    unfold GenIn.beta Spec.beta
    rw [GenIn.Dneg_eq (asm_wLegOK (a := a) (r := r)) hl, asm_kernel hs hl hsig]
    change 1 / Spec.node E a i * Spec.scatD (O.omega l) (Spec.nLeg a) (gEff O l) m (Spec.node E a i)
      (-Spec.node E a j) * Spec.weight E a j = _
    ring
  unfold matMul Spec.reduced GenIn.amb GenIn.apb
  simp only [hal, hbe]

theorem eigOK_of (hs : Args.OpticsSpec a O) (hE : Spec.EigContract E) {l : ℕ} (hl : l < a.NLayers) {m : ℕ}
    (hsig : Spec.Significant (Spec.omegaStar a l) (Spec.nLeg a) (Spec.legStar a l) m)
    (hp : Spec.PosDiag (Spec.nHalf a)
      (Spec.reduced (Spec.nHalf a) (Spec.node E a) (Spec.weight E a) (Spec.kernel a m l))) :
    Spec.IsEigenBasis (Spec.nHalf a)
      (Spec.reduced (Spec.nHalf a) (Spec.node E a) (Spec.weight E a) (Spec.kernel a m l))
      ((a.asm E O r).genIn.ev E m l).1 ((a.asm E O r).genIn.ev E m l).2 ∧
    (a.asm E O r).genIn.EigOK E m l := by
  obtain ⟨d, V, hV, hd⟩ := hp
  have hb := hE _ _ ⟨d, V, hV⟩
  have hev : (a.asm E O r).genIn.ev E m l = E.eig (Spec.nHalf a) (toM (Spec.nHalf a)
      (Spec.reduced (Spec.nHalf a) (Spec.node E a) (Spec.weight E a) (Spec.kernel a m l))) := by
    unfold GenIn.ev
    congr 1
    ext i j
    exact asm_reduced hs hl hsig i j
  rw [← hev] at hb
  refine ⟨hb, ?_, ?_⟩
  · intro i hi j hj
    have := hb.2 i hi j hj
    rw [← this]
    exact sum_congr rfl fun k _ => by rw [← asm_reduced (O := O) (r := r) hs hl hsig i k]; rfl
  · intro j hj
    obtain ⟨k, hk, he⟩ := eigenvalue_mem hV hb hj
    rw [he]; exact hd k hk

theorem asm_good_of (h : Spec.Accepted a) (hs : Args.OpticsSpec a O) (hg : Spec.GaussContract E (Spec.nHalf a)) (he : Spec.EigContract E)
    (hreg : Spec.Regular a (Spec.node E a) (Spec.weight E a)) : (a.asm E O r).Good E where
  N := by
    have := h.streams.1
    change 0 < (a.NQuad / 2).toNat
    omega
  L := h.layers
  F := by
    change 0 < a.nFourier.toNat
    have h1 := h.modes
    unfold Args.nFourier
    split_ifs with hf
    · simp
    · have := (h1 (by simpa using hf)).1; omega
  nsc := fun hi => by
    classical
    have : a.Iso := by simpa [Args.asmIn] using hi
    exact this
  quad := asm_quadOK hg
  tau00 := by
    change O.tau0 0 = 0
    rw [hs.tau0 0 (Nat.zero_le _)]; simp [Spec.bdryStar]
  eig := by
    intro m hm l hl hsc
    have hsig := (asm_scatters hs hl m).1 hsc
    have hm' : m < Spec.nFourier a := by rw [← nFourier_eq]; exact hm
    exact (eigOK_of hs he hl hsig (hreg m hm' l hl hsig)).2

theorem asm_good (h : Spec.Accepted a) (hs : Args.OpticsSpec a O) (hS : Spec.Numerics E a) :
    (a.asm E O r).Good E := asm_good_of h hs hS.gauss hS.eig hS.regular

theorem asm_depthOK (h : Spec.Accepted a) (hs : Args.OpticsSpec a O) : (a.asm E O r).DepthOK where
  L := h.layers
  mono := by
    intro k hk
    change bdry a.tauArr.get k < bdry a.tauArr.get (k + 1)
    unfold bdry
    by_cases hk0 : k = 0
    · subst hk0; simpa using h.top
    · have := h.increasing (k - 1) (by change k < a.tauArr.n at hk; omega)
      rw [show k - 1 + 1 = k by omega] at this
      simpa [hk0] using this
  tau00 := by
    change O.tau0 0 = 0
    rw [hs.tau0 0 (Nat.zero_le _)]; simp [Spec.bdryStar]
  step := by
    intro k hk
    change O.tau0 (k + 1) = O.tau0 k + O.scale k * (bdry a.tauArr.get (k + 1) - bdry a.tauArr.get k)
    rw [hs.tau0 (k + 1) hk, hs.tau0 k (le_of_lt hk), hs.scale k hk]
    simp [Spec.bdryStar, sum_range_succ]

theorem asm_nonRes {J : Junk} {S : Sols} (h : Spec.Accepted a) (hs : Args.OpticsSpec a O) (hS : Spec.Numerics E a)
    (hsol : solveAll E J (a.asm E O r) = .ok S) : (a.asm E O r).NonRes S := by
  intro hb hi l hl hsc j hj hres
  have hb' : 0 < a.I0 := by simpa [Args.asmIn, Args.Beam] using hb
  have hi' : a.Iso := by simpa [Args.asmIn] using hi
  have hiso : ∃ i < a.s.r, ∃ j < a.s.c, a.s.get i j ≠ 0 := by
    have := Args.iso_iff.1 hi'
    unfold Spec.NoSource at this
    push Not at this
    exact this
  have hF : 0 < (a.asm E O r).NFourier := (asm_good_of h hs hS.gauss hS.eig hS.regular).F
  obtain ⟨out, GC, h1, h2, rfl⟩ := AsmIn.solveAll_ok hsol
  have hsp := genSol_spec hF h1
  have hsig := (asm_scatters hs hl 0).1 hsc
  have hreg := hS.regular 0 (by rw [← nFourier_eq]; exact hF) l hl hsig
  obtain ⟨hbas, hev⟩ := eigOK_of (r := r) hs hS.eig hl hsig hreg
  change 1 / a.mu0 + out.K 0 l j = 0 at hres
  rw [(hsp.scatG 0 hF l hl hsc).2] at hres
  -- some reduced eigenvalue equals `1 / mu0 ^ 2`
  have hmu : 0 < a.mu0 := ((h.beamDir hb').1).1
  obtain ⟨k, hk, hlam⟩ : ∃ k < Spec.nHalf a, ((a.asm E O r).genIn.ev E 0 l).1 k = 1 / a.mu0 ^ 2 := by
    unfold eigK at hres
    change 1 / a.mu0 + _ = 0 at hres
    have hpos : 0 < 1 / a.mu0 := by positivity
    split_ifs at hres with hjN
    · refine ⟨j, hjN, ?_⟩
      have hsq : Real.sqrt (((a.asm E O r).genIn.ev E 0 l).1 j) = 1 / a.mu0 := by linarith
      have := Real.mul_self_sqrt (hev.2 j hjN).le
      rw [hsq] at this
      rw [← this]; field_simp
    · have := Real.sqrt_nonneg (((a.asm E O r).genIn.ev E 0 l).1 (j - (a.asm E O r).genIn.N))
      linarith
  have hdet := hS.nonres hb' hiso l hl hsig
  -- its eigenvector is in the kernel
  apply hbas.1
  refine Matrix.det_eq_zero_of_column_eq_zero ⟨k, hk⟩ fun i => ?_
  have hker := solve_unique hdet (x := fun q => ((a.asm E O r).genIn.ev E 0 l).2 q k) (y := fun _ => 0) (by
    intro i hi
    unfold mulVec
    have e := hbas.2 i hi k hk
    rw [hlam] at e
    simp only [sub_mul, sum_sub_distrib, e, mul_zero, sum_const_zero]
    simp [hi])
  exact hker i i.2

end
end Pydisort

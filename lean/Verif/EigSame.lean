import Verif.SameEval
import Verif.Props.WellPosed
import Verif.Props.Eigen
import Verif.Props.Estimate

/-! Helper lemmas: two bases of eigenvectors give the same results. -/

namespace Pydisort
open Finset Spec

theorem toM_mulVec_range {n : ℕ} (G : Mat) (x : Vec) (i : Fin n) : (toM n G).mulVec (fun j : Fin n => x j) i = ∑ j ∈ range n, G i j * x j := by
  rw [← Fin.sum_univ_eq_sum_range (fun j => G i j * x j) n]
  rfl

/-- A vector expanded in two bases of eigenvectors: any function of the eigenvalues acts alike. -/
theorem eig_transfer {n : ℕ} {A G G' : Mat} {K K' x x' : Vec} (hG : ∀ i < n, ∀ j < n, ∑ q ∈ range n, A i q * G q j = K j * G i j)
    (hG' : ∀ i < n, ∀ j < n, ∑ q ∈ range n, A i q * G' q j = K' j * G' i j) (hdet : (toM n G).det ≠ 0) {f₀ : ℝ → ℝ} (hf : ∀ j < n, f₀ (K j) ≠ 0)
    (h0 : ∀ i < n, ∑ j ∈ range n, G' i j * (f₀ (K' j) * x' j) = ∑ j ∈ range n, G i j * (f₀ (K j) * x j)) (f : ℝ → ℝ) {i : ℕ} (hi : i < n) :
    ∑ j ∈ range n, G' i j * (f (K' j) * x' j) = ∑ j ∈ range n, G i j * (f (K j) * x j) := by
  have hu : IsUnit (toM n G).det := isUnit_iff_ne_zero.2 hdet
  have key : ∀ {G : Mat} {K : Vec}, (∀ i < n, ∀ j < n, ∑ q ∈ range n, A i q * G q j = K j * G i j) →
      toM n A * toM n G = toM n G * Matrix.diagonal (fun j : Fin n => K j) := by
    intro G K h
    ext i j
    rw [Matrix.mul_diagonal, Matrix.mul_apply]
    have := h i i.2 j j.2
    rw [← Fin.sum_univ_eq_sum_range (fun q => A i q * G q j) n] at this
    exact this.trans (mul_comm _ _)
  have e1 := key hG
  have e2 := key hG'
  set M := toM n G
  set M' := toM n G'
  set T := M⁻¹ * M' with hT
  have hMT : M' = M * T := by rw [hT, ← Matrix.mul_assoc, Matrix.mul_nonsing_inv _ hu, Matrix.one_mul]
  have e3 : Matrix.diagonal (fun j : Fin n => K j) * T = T * Matrix.diagonal (fun j : Fin n => K' j) := by
    have : M * (Matrix.diagonal (fun j : Fin n => K j) * T) = M * (T * Matrix.diagonal (fun j : Fin n => K' j)) := by
      rw [← Matrix.mul_assoc, ← e1, Matrix.mul_assoc, ← hMT, e2, ← Matrix.mul_assoc, ← hMT]
    have h := congrArg (M⁻¹ * ·) this
    simpa [← Matrix.mul_assoc, Matrix.nonsing_inv_mul _ hu] using h
  have e4 : ∀ (f : ℝ → ℝ) (i j : Fin n), f (K i) * T i j = T i j * f (K' j) := by
    intro f i j
    have h := congrFun (congrFun e3 i) j
    rw [Matrix.diagonal_mul, Matrix.mul_diagonal] at h
    by_cases hz : T i j = 0
    · rw [hz, mul_zero, zero_mul]
    · have : K i = K' j := mul_left_cancel₀ hz (by rw [← h]; ring)
      rw [this, mul_comm]
  have e5 : ∀ f : ℝ → ℝ, M'.mulVec (fun j => f (K' j) * x' j) = M.mulVec (fun j => f (K j) * T.mulVec (fun j => x' j) j) := by
    intro f
    rw [hMT, ← Matrix.mulVec_mulVec]
    congr 1
    funext k
    simp only [Matrix.mulVec, dotProduct]
    rw [mul_sum]
    exact sum_congr rfl fun j _ => by rw [← mul_assoc, ← mul_assoc, e4]
  have e6 : M'.mulVec (fun j => f₀ (K' j) * x' j) = M.mulVec (fun j => f₀ (K j) * x j) := by
    funext k
    exact (toM_mulVec_range G' (fun j => f₀ (K' j) * x' j) k).trans ((h0 k k.2).trans (toM_mulVec_range G (fun j => f₀ (K j) * x j) k).symm)
  have e7 : ∀ k : Fin n, T.mulVec (fun j => x' j) k = x k := by
    rw [e5] at e6
    have h := congrArg (M⁻¹.mulVec ·) e6
    simp only [Matrix.mulVec_mulVec, Matrix.nonsing_inv_mul _ hu, Matrix.one_mulVec] at h
    intro k
    exact mul_left_cancel₀ (hf k k.2) (congrFun h k)
  have e8 := congrFun (e5 f) ⟨i, hi⟩
  have e9 : (fun j : Fin n => f (K j) * T.mulVec (fun j => x' j) j) = fun j : Fin n => f (K j) * x j := funext fun j => by rw [e7 j]
  rw [e9] at e8
  exact (toM_mulVec_range G' (fun j => f (K' j) * x' j) ⟨i, hi⟩).symm.trans (e8.trans (toM_mulVec_range G (fun j => f (K j) * x j) ⟨i, hi⟩))

open Classical in
theorem pydisort_data {E : Ext} {J : Junk} {a : Args} {R : Solved} (h : pydisort E J a = .ok R) :
    ∃ p, prepare E a = .ok p ∧ R.I = p.1 ∧ R.nt = (if a.NTGate then some p.2 else none) ∧ R.onlyFlux = a.onlyFlux := by
  unfold pydisort at h
  rcases h1 : prepare E a with e | p
  · rw [h1] at h; cases h
  rw [h1] at h; simp only [bind, Except.bind] at h
  rcases h2 : solveAll E J p.1 with e | S
  · rw [h2] at h; cases h
  rw [h2] at h
  cases h
  exact ⟨p, rfl, rfl, rfl, rfl⟩

theorem prepare_gauss {E E' : Ext} {a : Args} (hg : E'.leggauss (nHalf a) = E.leggauss (nHalf a)) : prepare E' a = prepare E a := by
  unfold prepare Args.quad gaussLegendreQuad
  rw [show a.N = nHalf a from rfl, hg]

theorem solved_facts {E : Ext} {J : Junk} {a : Args} {R : Solved} (h : pydisort E J a = .ok R) (hS : Numerics E a) :
    R.I.N = nHalf a ∧ R.I.NLayers = a.tauArr.n ∧ R.I.NFourier = nFourier a ∧ R.I.DepthOK ∧ R.I.tauArr = a.tauArr.get ∧ (R.I.beam = true → 0 < a.I0) ∧
    (∃ C : ℕ → Vec, R.S.GC = fun m l i k => R.S.G m l i k * C m (l * (2 * R.I.N) + k)) ∧
    (R.I.iso = true → ∀ l < a.tauArr.n, ∀ i < 2 * nHalf a, ∑ k ∈ range (2 * nHalf a), R.S.G 0 l i k * R.S.Gim l k
      = if i < nHalf a then R.I.M_inv i else -R.I.M_inv (i - nHalf a)) ∧
    (∀ m < nFourier a, ∀ l < a.tauArr.n, ¬ Significant (omegaStar a l) (nLeg a) (legStar a l) m → ∀ i, R.S.B m l i = 0) := by
  obtain ⟨hacc, O, r, hO, hr, hI, hsol, _⟩ := pydisort_ok h
  have hs := Args.optics_spec hacc hO
  have hI' : R.I = a.asm E O r := hI
  rw [hI'] at hsol
  have hg := asm_good (r := r) hacc hs hS
  have hnr := asm_nonRes hacc hs hS hsol
  obtain ⟨out, C, hsp, hG, hK, hB, hGim, hC, hGC, _⟩ := AsmIn.modeSol hsol hg hnr
  have hslot := slotOK_of_spec hg.F hsp hg.eig (fun hb hi l hl hsc j hj => by
    have := hnr hb hi l hl hsc j hj
    rw [hK] at this
    exact this)
  rw [hI']
  refine ⟨rfl, rfl, nFourier_eq, asm_depthOK hacc hs, rfl, fun hb => by simpa [Args.asmIn, Args.Beam] using hb, ⟨C, hGC⟩, fun hi l hl i hi' => ?_,
    fun m hm l hl hsig i => ?_⟩
  · rw [hG, hGim]
    have e : ∀ k ∈ range (2 * nHalf a), out.G 0 l i k * (a.asm E O r).gim out.Ginv0 l k
        = ∑ q ∈ range (2 * nHalf a), out.G 0 l i k * out.Ginv0 l k q * (if q < nHalf a then (a.asm E O r).M_inv q else -(a.asm E O r).M_inv (q - nHalf a)) := by
      intro k _
      unfold AsmIn.gim
      rw [mul_sum]
      exact sum_congr rfl fun q _ => by rw [mul_assoc]; rfl
    rw [sum_congr rfl e, sum_comm]
    have e2 : ∀ q ∈ range (2 * nHalf a), ∑ k ∈ range (2 * nHalf a), out.G 0 l i k * out.Ginv0 l k q
          * (if q < nHalf a then (a.asm E O r).M_inv q else -(a.asm E O r).M_inv (q - nHalf a))
        = if i = q then (if q < nHalf a then (a.asm E O r).M_inv q else -(a.asm E O r).M_inv (q - nHalf a)) else 0 := by
      intro q hq
      rw [← sum_mul]
      have := hslot.inv hi l hl i hi' q (mem_range.1 hq)
      change ∑ k ∈ range (2 * nHalf a), _ = _ at this
      rw [this]
      split_ifs <;> ring
    rw [sum_congr rfl e2, sum_ite_eq, if_pos (mem_range.2 hi')]
  · have hm' : m < (a.asm E O r).NFourier := by rw [← nFourier_eq] at hm; exact hm
    rw [hB, (hsp.trivG m hm' l hl fun hsc => hsig ((asm_scatters hs hl m).1 hsc)).2.2]

/-- The coefficients of a mode without sources and boundary values. -/
theorem coefMode_dark {c : CoefIn} (hN : 0 < c.N) (hL : 0 < c.NLayers) {m : ℕ} {x : Vec} (h : coefMode c m = .ok x) (hb : c.beam = false) (hi : c.iso = false)
    (hbn : ∀ v, bcMode c.N m c.bnegScalar c.bnegVector c.bneg = .ok v → ∀ i, v i = 0)
    (hbp : ∀ v, bcMode c.N m c.bposScalar c.bposVector c.bpos = .ok v → ∀ i, v i = 0) : ∀ i < c.dim, x i = 0 := by
  have hp : ∀ l t q, c.part m l t q = 0 := fun l t q => by simp [CoefIn.part, hb, hi]
  unfold coefMode at h
  rcases hR : coefR c m with e | M
  · rw [hR] at h; cases h
  rcases hX : coefX c m with e | X
  · rw [hR, hX] at h; cases h
  rcases h1 : bcMode c.N m c.bposScalar c.bposVector c.bpos with e | bpos
  · rw [hR, hX, h1] at h; cases h
  rcases h2 : bcMode c.N m c.bnegScalar c.bnegVector c.bneg with e | bneg
  · rw [hR, hX, h1, h2] at h; cases h
  rw [hR, hX, h1, h2] at h
  simp only [bind, Except.bind] at h
  have hr : ∀ i < c.dim, c.rhs m bneg bpos M X (fun _ => 0) i = 0 := by
    intro i hi'
    rcases CoefIn.row_cases hN hL hi' with h' | ⟨k, hk, q, hq, rfl⟩ | ⟨t, ht, rfl⟩
    · rw [CoefIn.rhs_top c hN hL m _ _ _ _ _ h', hbn _ h2 i, hp, sub_zero]
    · rw [CoefIn.rhs_mid c m _ _ _ _ _ hk hq, hp, hp, sub_zero]
    · rw [CoefIn.rhs_bot c hN hL m _ _ _ _ _ ht, hbp _ h1 t, hp]
      cases M <;> simp [hp, hb]
  unfold npSolve at h
  split_ifs at h with hd
  cases h
  have hz : toV c.dim (c.rhs m bneg bpos M X fun _ => 0) = 0 := by
    funext j; exact hr j j.2
  intro i hi'
  rw [hz, Matrix.mulVec_zero]
  simp [ofV]

theorem bcMode_dark {n m : ℕ} {ve : Bool} {d : ℝ} {v : Vec} (h : bcMode n m true ve ((BCv.scalar 0).div d) = .ok v) (i : ℕ) : v i = 0 := by
  unfold bcMode at h
  by_cases hm : m = 0
  · rw [if_pos ⟨rfl, hm⟩] at h
    cases h
    exact zero_div d
  · rw [if_neg (fun h => hm h.2), if_neg (fun h => hm h.2), if_pos ⟨Or.inl rfl, hm⟩] at h
    cases h
    rfl

open Classical in
/-- Without light all coefficients are zero. -/
theorem dark_GC {E : Ext} {J : Junk} {a : Args} {R : Solved} (h : pydisort E J a = .ok R) (hres : Rescalable a) (hl : ¬ Lit a) :
    ∀ m < R.I.NFourier, ∀ l < R.I.NLayers, ∀ i, ∀ j < 2 * R.I.N, R.S.GC m l i j = 0 := by
  obtain ⟨hacc, O, r, hO, hr, hI, hsol, _⟩ := pydisort_ok h
  have hs := Args.optics_spec hacc hO
  have hd := asm_depthOK (E := E) (r := r) hacc hs
  have hI' : R.I = a.asm E O r := hI
  rw [hI'] at hsol ⊢
  have hNh : 0 < (a.asm E O r).N := by
    have := hacc.streams.1
    change 0 < (a.NQuad / 2).toNat
    omega
  obtain ⟨out, GC, hout, hGC, hS⟩ := AsmIn.solveAll_ok hsol
  obtain ⟨C, hGCe, hC⟩ := solveCoeffs_ok (I := (a.asm E O r).coefIn out) hNh hd.L hGC
  have hdark : ¬ a.Iso ∧ a.I0 = 0 ∧ a.bpos.AllZero ∧ a.bneg.AllZero := by
    obtain ⟨n0, zp, zn⟩ := hres.resolve_left hl
    exact ⟨fun hi => Args.iso_iff.1 hi n0, le_antisymm (not_lt.mp fun hh => hl (Or.inl hh)) hacc.beam, (zeroBC_iff _).1 zp, (zeroBC_iff _).1 zn⟩
  obtain ⟨hiso, hI0, zp, zn⟩ := hdark
  intro m hm l hl' i j hj
  have hz := coefMode_dark hNh hd.L (hC m hm) (show decide a.Beam = false by simp [Args.Beam, hI0]) (show decide a.Iso = false by simp [hiso])
    (fun v hv => bcMode_dark (n := (a.asm E O r).N) (m := m) (by
      have : ((a.asm E O r).coefIn out).bneg = (BCv.scalar 0).div (a.rescaleDiv r) := by
        show a.bneg'.div _ = _
        rw [show a.bneg' = .scalar 0 by unfold Args.bneg'; rw [if_pos zn]]
      rw [this] at hv
      have e : ((a.asm E O r).coefIn out).bnegScalar = true := by
        show decide (a.bneg'.len = 1) = true
        rw [show a.bneg' = .scalar 0 by unfold Args.bneg'; rw [if_pos zn]]
        rfl
      rw [e] at hv
      exact hv))
    (fun v hv => bcMode_dark (n := (a.asm E O r).N) (m := m) (by
      have : ((a.asm E O r).coefIn out).bpos = (BCv.scalar 0).div (a.rescaleDiv r) := by
        show a.bpos'.div _ = _
        rw [show a.bpos' = .scalar 0 by unfold Args.bpos'; rw [if_pos zp]]
      rw [this] at hv
      have e : ((a.asm E O r).coefIn out).bposScalar = true := by
        show decide (a.bpos'.len = 1) = true
        rw [show a.bpos' = .scalar 0 by unfold Args.bpos'; rw [if_pos zp]]
        rfl
      rw [e] at hv
      exact hv))
  rw [hS, hGCe]
  have : (l + 1) * (2 * (a.asm E O r).N) ≤ (a.asm E O r).NLayers * (2 * (a.asm E O r).N) := Nat.mul_le_mul_right _ hl'
  rw [Nat.succ_mul] at this
  have hlt : l * (2 * (a.asm E O r).N) + j < ((a.asm E O r).coefIn out).dim := by
    change _ < (a.asm E O r).NLayers * (2 * (a.asm E O r).N)
    omega
  show _ * C m (l * (2 * (a.asm E O r).N) + j) = 0
  rw [hz _ hlt, mul_zero]

/-- What the calls with two routines for eigenvectors have in common. -/
theorem evalAgree_ext {E E' : Ext} {J J' : Junk} {a : Args} {R R' : Solved} (hw : WellPosed E a) (hw' : WellPosed E' a) (hg : E'.leggauss (nHalf a) = E.leggauss (nHalf a))
    (hres : Rescalable a) (h : pydisort E J a = .ok R) (h' : pydisort E' J' a = .ok R') :
    R'.I = R.I ∧ R'.nt = R.nt ∧ R'.onlyFlux = R.onlyFlux ∧ EvalAgree R.I R.I.NFourier R.S R'.S := by
  have hn : node E' a = node E a := by unfold node; rw [hg]
  have hwt : weight E' a = weight E a := by unfold weight; rw [hg]
  obtain ⟨p, hp, hI, hnt, ho⟩ := pydisort_data h
  obtain ⟨p', hp', hI', hnt', ho'⟩ := pydisort_data h'
  rw [prepare_gauss hg, hp] at hp'
  obtain rfl : p = p' := Except.ok.inj hp'
  have hII : R'.I = R.I := hI'.trans hI.symm
  refine ⟨hII, hnt'.trans hnt.symm, ho'.trans ho.symm, ?_⟩
  have hS := hw.sound.toNumerics
  have hS' := hw'.sound.toNumerics
  have hr0 : Lit a → R.I.rescale ≠ 0 := fun hl => (rescale_pos_of_lit h hl).ne'
  obtain ⟨hN, hL, hF, hd, htau, hbI, ⟨C, hGC⟩, hiso, hB0⟩ := solved_facts h hS
  obtain ⟨-, -, -, -, -, -, ⟨C', hGC'⟩, hiso', hB0'⟩ := solved_facts h' hS'
  rw [hII] at hGC' hiso'
  have eB : R.I.beam = true → ∀ m < nFourier a, ∀ l < a.tauArr.n, ∀ i < 2 * nHalf a, R'.S.B m l i = R.S.B m l i := by
    intro hb m hm l hl i hi
    by_cases hsig : Significant (omegaStar a l) (nLeg a) (legStar a l) m
    · have h1 := (C06_beam_particular_solution h' hS' hres (hbI hb) hm hl hsig fun i => R'.I.rescale * R'.S.B m l i).1 fun _ _ => rfl
      rw [hn, hwt] at h1
      have h2 := (C06_beam_particular_solution h hS hres (hbI hb) hm hl hsig fun i => R'.I.rescale * R'.S.B m l i).2 h1 i hi
      rw [hII] at h2
      exact (mul_left_cancel₀ (hr0 (Or.inl (hbI hb))) h2).symm
    · rw [hB0 m hm l hl hsig, hB0' m hm l hl hsig]
  have hF0 : 0 < nFourier a := by
    unfold nFourier
    split_ifs with hf
    · exact Nat.one_pos
    · have := (hw.accepted.modes (by simpa using hf)).1
      omega
  have eI : R.I.iso = true → ∀ l < a.tauArr.n, ∀ i < 2 * nHalf a, ∀ f : ℝ → ℝ,
      ∑ k ∈ range (2 * nHalf a), R'.S.G 0 l i k * (f (R'.S.K 0 l k) * R'.S.Gim l k) = ∑ k ∈ range (2 * nHalf a), R.S.G 0 l i k * (f (R.S.K 0 l k) * R.S.Gim l k) := by
    intro hi l hl i hi' f
    obtain ⟨h1, h2, _⟩ := C08_eigenvectors_diagonalise h hS hF0 hl
    obtain ⟨h1', _⟩ := C08_eigenvectors_diagonalise h' hS' hF0 hl
    rw [hn, hwt] at h1'
    refine eig_transfer h1 h1' h2 (f₀ := fun _ => 1) (fun _ _ => one_ne_zero) (fun i hi' => ?_) f hi'
    simp only [one_mul]
    rw [hiso hi l hl i hi', hiso' hi l hl i hi']
  obtain ⟨rho, hrho⟩ : ∃ rho : ℕ → ℝ → ℝ → ℝ, ∀ m < nFourier a, ∀ M, a.bdrf[m]? = some M → Represents M (rho m) := by
    have : ∀ m, ∃ rho : ℝ → ℝ → ℝ, m < nFourier a → ∀ M, a.bdrf[m]? = some M → Represents M rho := by
      intro m
      by_cases hm : m < nFourier a
      · rcases hb : a.bdrf[m]? with _ | M
        · exact ⟨fun _ _ => 0, fun _ M hM => by cases hM⟩
        · obtain ⟨rho, h1, _⟩ := hw.surface m hm M hb
          exact ⟨rho, fun _ M' hM => by cases hM; exact h1⟩
      · exact ⟨fun _ _ => 0, fun h => absurd h hm⟩
    choose rho h using this
    exact ⟨rho, fun m hm => h m hm⟩
  have eV : Lit a → ∀ m < nFourier a, ∀ t, 0 ≤ t → t ≤ bottom a → ∀ i < 2 * nHalf a, R.I.val R'.S m t i = R.I.val R.S m t i := by
    intro hlit m hm t h0 h1 i hi
    have s1 := modes_isSolution h hw.sound hres hw.bottomBC hw.topBC hrho (modes_val h) hm
    have s2 := modes_isSolution h' hw'.sound hres hw.bottomBC hw.topBC hrho (modes_val h') hm
    rw [hn, hwt] at s2
    have := solution_unique hw.accepted hw.gauss hw.dissipates hw.surface hm (hrho m hm) s2 s1 t h0 h1 i hi
    rw [hII] at this
    exact mul_left_cancel₀ (hr0 hlit) this
  rw [hF]
  refine ⟨fun m hm l hl' i hi f g => ?_, fun hb m hm l hl i hi => eB hb m hm l (hL ▸ hl) i (hN ▸ hi), fun hi l hl i hi' f => ?_⟩
  · by_cases hlit : Lit a
    swap
    · rw [sum_eq_zero fun j hj => by rw [dark_GC h' hres hlit m (by rw [hII, hF]; exact hm) l (by rw [hII]; exact hl') i j (by rw [hII]; exact mem_range.1 hj), zero_mul],
        sum_eq_zero fun j hj => by rw [dark_GC h hres hlit m (by rw [hF]; exact hm) l hl' i j (mem_range.1 hj), zero_mul]]
    rw [hL] at hl'
    rw [hN] at hi
    obtain ⟨h1, h2, h3⟩ := C08_eigenvectors_diagonalise h hS hm hl'
    obtain ⟨h1', _, h3'⟩ := C08_eigenvectors_diagonalise h' hS' hm hl'
    rw [hn, hwt] at h1'
    have neg : ∀ {K : Vec}, (∀ j < nHalf a, K j < 0 ∧ K (nHalf a + j) = -K j) → ∀ j < 2 * nHalf a, (K j < 0 ↔ j < nHalf a) := by
      intro K hK j hj
      by_cases hj' : j < nHalf a
      · exact ⟨fun _ => hj', fun _ => (hK j hj').1⟩
      · obtain ⟨k1, k2⟩ := hK (j - nHalf a) (by omega)
        rw [show nHalf a + (j - nHalf a) = j by omega] at k2
        exact ⟨fun hlt => by linarith, fun hlt => absurd hlt hj'⟩
    have key : ∀ (G : Mat) (K x : Vec), (∀ j < 2 * nHalf a, (K j < 0 ↔ j < nHalf a)) → ∀ (f g : ℝ → ℝ) (i : ℕ),
        ∑ j ∈ range (2 * nHalf a), G i j * x j * (if j < nHalf a then f (K j) else g (K j))
          = ∑ j ∈ range (2 * nHalf a), G i j * ((fun y => if y < 0 then f y else g y) (K j) * x j) := by
      intro G K x hK f g i
      refine sum_congr rfl fun j hj => ?_
      simp only [hK j (mem_range.1 hj)]
      ring
    rw [hGC, hGC', hN]
    rw [key (R'.S.G m l) (R'.S.K m l) (fun k => C' m (l * (2 * nHalf a) + k)) (neg h3') f g i, key (R.S.G m l) (R.S.K m l) (fun k => C m (l * (2 * nHalf a) + k)) (neg h3) f g i]
    set t := bdry R.I.tauArr (l + 1) with ht
    have hlay : R.I.layer t = l := AsmIn.layer_eq hd (by rw [hL]; exact hl') (Or.inl (hd.mono l (by rw [hL]; exact hl'))) le_rfl
    refine eig_transfer (x := fun k => C m (l * (2 * nHalf a) + k)) (x' := fun k => C' m (l * (2 * nHalf a) + k)) h1 h1' h2 (f₀ := fun y => if y < 0 then Real.exp (y * (R.I.scaledTau t - R.I.tau0 l)) else Real.exp (y * (R.I.scaledTau t - R.I.tau0 (l + 1))))
      (fun j _ => by beta_reduce; split_ifs <;> exact (Real.exp_pos _).ne') (fun i hi => ?_)
      (fun y => if y < 0 then f y else g y) hi
    have k1 := key (R'.S.G m l) (R'.S.K m l) (fun k => C' m (l * (2 * nHalf a) + k)) (neg h3') (fun y => Real.exp (y * (R.I.scaledTau t - R.I.tau0 l)))
      (fun y => Real.exp (y * (R.I.scaledTau t - R.I.tau0 (l + 1)))) i
    have k2 := key (R.S.G m l) (R.S.K m l) (fun k => C m (l * (2 * nHalf a) + k)) (neg h3) (fun y => Real.exp (y * (R.I.scaledTau t - R.I.tau0 l)))
      (fun y => Real.exp (y * (R.I.scaledTau t - R.I.tau0 (l + 1)))) i
    refine k1.symm.trans (Eq.trans ?_ k2)
    have hv := eV hlit m hm t (hd.nonneg (by rw [hL]; exact hl')) (by
      have := hd.le (show l + 1 ≤ R.I.NLayers by rw [hL]; exact hl') le_rfl
      rw [← ht] at this
      refine this.trans (le_of_eq ?_)
      obtain ⟨k, hk⟩ : ∃ k, a.tauArr.n = k + 1 := ⟨a.tauArr.n - 1, by omega⟩
      rw [hL, hk, bdry_succ, htau]
      unfold bottom
      rw [hk]; rfl) i hi
    unfold AsmIn.val AsmIn.umPlain at hv
    rw [hlay] at hv
    have q1 : (if R.I.beam = true then R'.S.B m l i * Real.exp (-R.I.scaledTau t / R.I.mu0) else 0)
        = if R.I.beam = true then R.S.B m l i * Real.exp (-R.I.scaledTau t / R.I.mu0) else 0 := by
      split_ifs with hb
      · rw [eB hb m hm l hl' i hi]
      · rfl
    have q2 : (if m = 0 ∧ R.I.iso = true then mathscrV (2 * R.I.N) R.I.Nscoeffs (R.I.s l) (R'.S.G 0 l) (R'.S.K 0 l) (R'.S.Gim l) (R.I.scaledTau t) i else 0)
        = if m = 0 ∧ R.I.iso = true then mathscrV (2 * R.I.N) R.I.Nscoeffs (R.I.s l) (R.S.G 0 l) (R.S.K 0 l) (R.S.Gim l) (R.I.scaledTau t) i else 0 := by
      split_ifs with hb
      · rw [hN]
        exact mathscrV_same _ fun f => eI hb.2 l hl' i hi f
      · rfl
    rw [q1, q2] at hv
    have hv' := add_right_cancel (add_right_cancel hv)
    rw [sum_congr rfl fun j _ => congrArg (R'.S.GC m l i j * ·) (AsmIn.exp_exponent (I := R.I) (S := R'.S) t m j),
      sum_congr rfl fun j _ => congrArg (R.S.GC m l i j * ·) (AsmIn.exp_exponent (I := R.I) (S := R.S) t m j), hlay, hGC, hGC', hN] at hv'
    exact hv'
  · rw [hN]
    exact eI hi l (hL ▸ hl) i (hN ▸ hi') f

/-! ### The Fourier error -/

theorem npMax3_same {x y : A3 ℝ} (h : A3.Same x y) : npMax3 x = npMax3 y := by
  obtain ⟨a, b, c, g⟩ := x
  obtain ⟨a', b', c', g'⟩ := y
  obtain ⟨h1, h2, h3, h4⟩ := h
  simp only at h1 h2 h3
  subst h1 h2 h3
  unfold npMax3
  simp only
  split_ifs with hne
  · congr 1
    refine sup'_congr hne rfl fun x hx => ?_
    obtain ⟨k1, k2⟩ := mem_product.1 hx
    obtain ⟨k2, k3⟩ := mem_product.1 k2
    exact h4 _ (mem_range.1 k1) _ (mem_range.1 k2) _ (mem_range.1 k3)
  · rfl

namespace AsmIn
variable {I : AsmIn} {S S' : Sols}

/-- The boundary data of a call. -/
def bcData (I : AsmIn) : BCData := ⟨I.bdrf, I.bpos, I.bneg, I.bposScalar, I.bnegScalar, I.bposVector, I.bnegVector, I.useBanded⟩

theorem withBC_self : I.withBC I.NFourier I.bcData = I := rfl

theorem uRaw_same (hS : EvalAgree I I.NFourier S S') (hN : 0 < I.N) (hL : 0 < I.NLayers) (hF : 0 < I.NFourier) (tau phi : A1 ℝ)
    (anti : Bool) : SameOutcome A3.Same (I.uRaw S tau phi anti) (I.uRaw S' tau phi anti) := by
  unfold uRaw
  refine SameOutcome.bind (rel := Eq) (SameOutcome.of_eq (fun _ => rfl) rfl) fun _ _ _ => ?_
  refine SameOutcome.bind (um0_same (D := I.bcData) hS hN hL hF tau anti) fun u v huv => ?_
  obtain ⟨huv, hr, hc⟩ := huv
  refine ⟨rfl, huv.2.1, rfl, fun i hi t ht p _ => ?_⟩
  change i < 2 * I.N at hi
  change t < u.c at ht
  show ∑ m ∈ range I.NFourier, _ = ∑ m ∈ range I.NFourier, _
  refine sum_congr rfl fun m hm => ?_
  rw [mem_range] at hm
  refine congrArg₂ (· * ·) ?_ rfl
  split_ifs with h0 h1
  · exact huv.2.2 i (by rw [hr]; exact hi) t ht
  · exact (umAnti_same (D := I.bcData) hS hL hm hi _).symm
  · exact (umPlain_same (D := I.bcData) hS hL hm hi _).symm

theorem ulastBeam_same (hS : EvalAgree I I.NFourier S S') (hN : 0 < I.N) (hb : I.beam = true) (tau : A1 ℝ) (anti : Bool) :
    SameOutcome A2.Same (I.ulastBeam S tau anti) (I.ulastBeam S' tau anti) := by
  unfold ulastBeam
  split_ifs with ha hx
  · refine SameOutcome.bind (A2.bin_same' _ ⟨rfl, rfl, fun k hk c hc => (hS.B hb c hc k hk _ (by omega)).symm⟩ (A2.Same.refl _)) fun q q' hq => ?_
    rw [← hq.2.1]
    split_ifs with hx
    · exact rfl
    · push Not at hx
      exact A2.bin_same' _ ⟨hq.1, rfl, fun k hk t ht => hq.2.2 k hk _ (hx t ht)⟩ (A2.Same.refl _)
  · exact rfl
  · push Not at hx
    exact A2.bin_same' _ ⟨rfl, rfl, fun t ht k hk => (hS.B hb _ (hx t ht) k hk _ (by omega)).symm⟩ (A2.Same.refl _)

theorem ulast_same (hS : EvalAgree I I.NFourier S S') (hN : 0 < I.N) (hL : 0 < I.NLayers) (hF : 0 < I.NFourier) (tau : A1 ℝ) (anti : Bool) :
    SameOutcome A2.Same (I.ulast S tau anti) (I.ulast S' tau anti) := by
  have hh : A2.Same (⟨2 * I.N, tau.n, fun i t => ∑ j ∈ range (2 * I.N),
    S.GC (I.NFourier - 1) (I.layer (tau.get t)) i j * (if anti = true then
        Real.exp (I.exponent S (I.NFourier - 1) (tau.get t) j)
          / (I.scale (I.layer (tau.get t)) * S.K (I.NFourier - 1) (I.layer (tau.get t)) j)
      else Real.exp (I.exponent S (I.NFourier - 1) (tau.get t) j))⟩ : A2 ℝ) ⟨2 * I.N, tau.n, fun i t => ∑ j ∈ range (2 * I.N),
    S'.GC (I.NFourier - 1) (I.layer (tau.get t)) i j * (if anti = true then
        Real.exp (I.exponent S' (I.NFourier - 1) (tau.get t) j)
          / (I.scale (I.layer (tau.get t)) * S'.K (I.NFourier - 1) (I.layer (tau.get t)) j)
      else Real.exp (I.exponent S' (I.NFourier - 1) (tau.get t) j))⟩ := by
    refine ⟨rfl, rfl, fun i hi t _ => ?_⟩
    show (∑ j ∈ range (2 * I.N), _) = ∑ j ∈ range (2 * I.N), _
    cases anti
    · simp only [Bool.false_eq_true, if_false]
      exact (homSum_same (D := I.bcData) hS hL (show I.NFourier - 1 < I.NFourier by omega) hi (tau.get t)).symm
    · simp only [if_true]
      exact (antiSum_same (D := I.bcData) hS hL (show I.NFourier - 1 < I.NFourier by omega) hi (tau.get t)).symm
  unfold ulast
  simp only
  by_cases hb : I.beam = true
  · rw [if_pos hb, if_pos hb]
    exact SameOutcome.bind (ulastBeam_same hS hN hb tau anti) fun u v huv => A2.bin_same' _ hh huv
  · rw [if_neg hb, if_neg hb]
    exact hh

theorem fourierError_same (hS : EvalAgree I I.NFourier S S') (hN : 0 < I.N) (hL : 0 < I.NLayers) (hF : 0 < I.NFourier) (tau phi : A1 ℝ)
    (anti : Bool) : SameOutcome Eq (I.fourierError S tau phi anti) (I.fourierError S' tau phi anti) := by
  unfold fourierError
  refine SameOutcome.bind (uRaw_same hS hN hL hF tau phi anti) fun x y hxy => ?_
  refine SameOutcome.bind (ulast_same hS hN hL hF tau anti) fun u v huv => ?_
  rw [← huv.1, ← huv.2.1, ← hxy.1, ← hxy.2.1, ← hxy.2.2.1]
  rcases hr : bdim u.r x.d0 with e | r
  · exact rfl
  rcases hc : bdim u.c x.d1 with e | c
  · exact rfl
  simp only [bind, Except.bind]
  split_ifs with hrc
  · refine SameOutcome.of_eq (fun _ => rfl) (npMax3_same ⟨rfl, rfl, rfl, fun i hi t ht p hp => ?_⟩)
    show (if _ then _ else _) = if _ then _ else _
    have e1 := hxy.2.2.2 i hi t ht p hp
    have e2 := huv.2.2 (bix u.r i) (bix_lt hr (by rw [hrc.1]; exact hi)) (bix u.c t) (bix_lt hc (by rw [hrc.2]; exact ht))
    rw [e1, e2]
  · exact rfl

end AsmIn

end Pydisort

import Verif.EndlessSolve
import Verif.SuccessLemmas
import Verif.NonFiniteLemmas

/-!
# A call whose last boundary lies at infinity: the computation succeeds
-/

namespace Pydisort
open Finset Spec
open Spec (bdry)

section
variable {E : Ext} {a : Args} {O : Optics} {r : ℝ}

namespace Fl

theorem sum_pinf {n : ℕ} {f : ℕ → ℝ} {g : ℕ → Fl} (h : ∀ k < n, g k = fin (f k)) (hn : g n = pinf) : sum (n + 1) g = pinf := by
  have : sum n g = fin (∑ k ∈ range n, f k) := by rw [sum_congr h, sum_fin]
  show add (sum n g) (g n) = pinf
  rw [this, hn]; rfl

end Fl

theorem optics_tau0 (hO : a.optics = .ok O) :
    ((∃ k < a.fArr.n, 0 < a.fArr.get k) → O.tau0 = a.tau0 ∧ O.scale = a.scale) ∧
    ((¬ ∃ k < a.fArr.n, 0 < a.fArr.get k) → (O.tau0 = fun k => if k = 0 then 0 else a.tauArr.get (k - 1)) ∧ O.scale = fun _ => 1) := by
  unfold Args.optics at hO
  split_ifs at hO with hf
  · refine ⟨fun _ => ?_, fun h => absurd hf h⟩
    rcases h1 : affineTransform a.s ⟨a.NLayers, a.scale⟩ ⟨a.NLayers, a.translation⟩ with e | s1
    · rw [h1] at hO; cases hO
    rw [h1] at hO; simp only [bind, Except.bind] at hO
    rcases h2 : A2.bin (fun x y : ℝ => x / y) s1 (A1.col ⟨a.NLayers, a.scale⟩) with e | s2
    · rw [h2] at hO; cases hO
    rw [h2] at hO; simp only at hO
    rcases h3 : A2.bin (fun x y : ℝ => x * y) s2 (A1.col ⟨a.NLayers, fun k => 1 - a.omega.get k⟩) with e | s3
    · rw [h3] at hO; cases hO
    rw [h3] at hO; cases hO
    exact ⟨rfl, rfl⟩
  · refine ⟨fun h => absurd h hf, fun _ => ?_⟩
    simp only [bind, Except.bind] at hO
    rcases h3 : A2.bin (fun x y : ℝ => x * y) a.s (A1.col ⟨a.NLayers, fun k => 1 - a.omega.get k⟩) with e | s3
    · rw [h3] at hO; cases hO
    rw [h3] at hO; cases hO
    exact ⟨rfl, rfl⟩

theorem thickF_above {last : Fl} {k : ℕ} (hk : k + 1 < a.tauArr.n) : (a.withLast last).thick k = .fin (a.thick k) := by
  change (if k = 0 then a.tauF last 0 else Fl.sub (a.tauF last (k - 1 + 1)) (a.tauF last (k - 1))) = _
  unfold Args.thick Args.tauF
  by_cases h : k = 0
  · subst h; rw [if_pos rfl, if_pos rfl, if_neg (by omega)]
  · rw [if_neg h, if_neg h, if_neg (by omega), if_neg (by omega), Fl.fin_sub]

theorem thickF_last {k : ℕ} (hk : k + 1 = a.tauArr.n) : (a.withLast .pinf).thick k = .pinf := by
  change (if k = 0 then a.tauF .pinf 0 else Fl.sub (a.tauF .pinf (k - 1 + 1)) (a.tauF .pinf (k - 1))) = _
  unfold Args.tauF
  by_cases h : k = 0
  · subst h; rw [if_pos rfl, if_pos hk]
  · rw [if_neg h, if_pos (by omega), if_neg (by omega)]; rfl

theorem tau0F_above (hO : a.optics = .ok O) (last : Fl) {k : ℕ} (hk : k < a.tauArr.n) : a.tau0F last k = .fin (O.tau0 k) := by
  obtain ⟨h1, h2⟩ := optics_tau0 hO
  unfold Args.tau0F
  by_cases hf : ∃ k < a.fArr.n, 0 < a.fArr.get k
  · rw [if_pos hf, (h1 hf).1]
    unfold Args.tau0
    have : (Fl.sum k fun j => Fl.mul (.fin (a.scale j)) ((a.withLast last).thick j)) = .fin (∑ j ∈ range k, a.scale j * a.thick j) := by
      rw [← Fl.sum_fin]
      exact Fl.sum_congr fun j hj => by rw [thickF_above (by omega), Fl.fin_mul]
    rw [this]
    by_cases hk0 : k = 0
    · subst hk0; simp
    · rw [if_neg hk0]
      unfold cumsum
      rw [show k - 1 + 1 = k by omega]
  · rw [if_neg hf, (h2 hf).1]
    beta_reduce
    by_cases hk0 : k = 0
    · rw [if_pos hk0, if_pos hk0]
    · rw [if_neg hk0, if_neg hk0]
      unfold Args.tauF
      rw [if_neg (by omega)]

theorem tau0F_last (hacc : Accepted a) (hs : Args.OpticsSpec a O) (hO : a.optics = .ok O) : a.tau0F .pinf a.tauArr.n = .pinf := by
  have hL := hacc.layers
  unfold Args.tau0F
  by_cases hf : ∃ k < a.fArr.n, 0 < a.fArr.get k
  · rw [if_pos hf]
    obtain ⟨n, hn⟩ : ∃ n, a.tauArr.n = n + 1 := ⟨a.tauArr.n - 1, by omega⟩
    rw [hn]
    refine Fl.sum_pinf (f := fun j => a.scale j * a.thick j) (fun k hk => ?_) ?_
    · rw [thickF_above (by omega), Fl.fin_mul]
    · rw [thickF_last (by omega)]
      have h1 : 0 < a.scale n := by
        have := Args.scale_pos hacc (l := n) (by change n < a.tauArr.n; omega)
        rw [← hs.scale n (by change n < a.tauArr.n; omega), ((optics_tau0 hO).1 hf).2] at this
        exact this
      show Fl.infTimes _ = _
      unfold Fl.infTimes
      rw [if_pos h1]
  · rw [if_neg hf, if_neg (by omega)]
    unfold Args.tauF
    rw [if_pos (by omega)]

/-- The computation up to the eigen-decompositions and the vectors of the beam. -/
theorem gen_isOk (hw : WellPosed E a) (hs : Args.OpticsSpec a O) (J : Junk) :
    ∃ out, genSol E J.gen (a.asm E O r).genIn = .ok out ∧ GenSpec E (a.asm E O r).genIn out ∧
      ∀ m < nFourier a, ∀ l < a.tauArr.n, (toM (2 * nHalf a) (out.G m l)).det ≠ 0 := by
  have hacc := hw.accepted
  have hreg := regular_of_dissipates hw.gauss hw.dissipates
  have hg := asm_good_of (r := r) hacc hs hw.gauss hw.eig hreg
  set I := a.asm E O r with hI
  have heig : ∀ m < I.NFourier, ∀ l < I.NLayers, I.genIn.scatters m l →
      I.genIn.EigOK E m l ∧ (toM I.genIn.N (I.genIn.ev E m l).2).det ≠ 0 ∧
      (I.beam = true → ¬ (m = 0 ∧ I.iso = true) → ∀ j < 2 * I.genIn.N, 1 / I.genIn.mu0 + eigK I.genIn.N (I.genIn.ev E m l).1 j ≠ 0) := by
    intro m hm l hl hsc
    have hsig := (asm_scatters hs hl m).1 hsc
    have hm' : m < nFourier a := by rw [← nFourier_eq]; exact hm
    obtain ⟨hb, he⟩ := eigOK_of (r := r) hs hw.eig hl hsig (hreg m hm' l hl hsig)
    refine ⟨he, hb.1, fun hbt hmi j hj => ?_⟩
    have hb' : 0 < a.I0 := by simpa [hI, Args.asmIn, Args.Beam] using hbt
    exact eigK_nonres ((hacc.beamDir hb').1).1 hb he.2 (hw.beam hb' m hm' l hl hsig) hj
  obtain ⟨out, hout⟩ := genSol_isOk (E := E) (junk := J.gen) (I := I.genIn) hg.F
    (fun _ l hl hsc => by
      obtain ⟨h1, h2, _⟩ := heig 0 hg.F l hl hsc
      exact gScat_det h1 h2)
    (fun hb m hm l hl hsc hmi => by
      obtain ⟨h1, h2, h3⟩ := heig m hm l hl hsc
      exact beam_det h1 h2 (h3 hb hmi))
  have hsp := genSol_spec hg.F hout
  refine ⟨out, hout, hsp, fun m hm l hl => ?_⟩
  rw [← nFourier_eq] at hm
  by_cases hsc : I.genIn.scatters m l
  · obtain ⟨h1, h2, _⟩ := heig m hm l hl hsc
    have := gScat_det h1 h2
    have hEq : toM (2 * I.N) (out.G m l) = toM (2 * I.genIn.N) (I.genIn.gScat E m l) := by
      ext i j
      exact (hsp.scatG m hm l hl hsc).1 i i.2 j j.2
    change (toM (2 * I.N) (out.G m l)).det ≠ 0
    rw [hEq]; exact this
  · rw [(hsp.trivG m hm l hl hsc).1]
    exact gTrivial_det I.N

theorem asm_dissipative (hw : WellPosed E a) (hs : Args.OpticsSpec a O) {m : ℕ} (hm : m < nFourier a) :
    Dissipative (nHalf a) a.tauArr.n (fun i => weight E a i * node E a i) (fun l => (a.asm E O r).genIn.effA m l) := by
  constructor
  · exact fun i hi => mul_pos (weight_pos hw.gauss hi) (node_pos hw.gauss hi).1
  · intro l hl x hx
    have key := hw.dissipates m hm l hl x hx
    have e : ∀ i ∈ range (2 * nHalf a),
        (if i < nHalf a then weight E a i * node E a i else -(weight E a (i - nHalf a) * node E a (i - nHalf a)))
          * x i * mulVec (2 * nHalf a) ((a.asm E O r).genIn.effA m l) x i
        = streamW (nHalf a) (weight E a) i * x i ^ 2
          - ∑ j ∈ range (2 * nHalf a), streamW (nHalf a) (weight E a) i * streamW (nHalf a) (weight E a) j
            * kernel a m l (stream (nHalf a) (node E a) i) (stream (nHalf a) (node E a) j) * x i * x j := by
      intro i hi
      have := effA_spec (r := r) hs hw.gauss hl m x (mem_range.mp hi)
      have e1 : (if i < nHalf a then weight E a i * node E a i
          else -(weight E a (i - nHalf a) * node E a (i - nHalf a)))
          = streamW (nHalf a) (weight E a) i * stream (nHalf a) (node E a) i := by
        unfold streamW stream; split_ifs <;> ring
      rw [e1]
      calc streamW (nHalf a) (weight E a) i * stream (nHalf a) (node E a) i * x i
            * mulVec (2 * nHalf a) ((a.asm E O r).genIn.effA m l) x i
          = streamW (nHalf a) (weight E a) i * x i * (stream (nHalf a) (node E a) i
            * mulVec (2 * nHalf a) ((a.asm E O r).genIn.effA m l) x i) := by ring
        _ = _ := by
          rw [this, mul_sub, mul_sum]
          congr 1
          · ring
          · exact sum_congr rfl fun j _ => by ring
    refine lt_of_lt_of_eq ?_ (sum_congr rfl e).symm
    rw [sum_sub_distrib]
    linarith

theorem gen_K_neg (hw : WellPosed E a) (hs : Args.OpticsSpec a O) {out : GenOut} (hsp : GenSpec E (a.asm E O r).genIn out) {m l : ℕ} (hm : m < nFourier a)
    (hl : l < a.tauArr.n) : (∀ j < nHalf a, out.K m l j < 0) ∧ ∀ j < nHalf a, 0 < out.K m l (nHalf a + j) := by
  have hg := asm_good_of (r := r) hw.accepted hs hw.gauss hw.eig (regular_of_dissipates hw.gauss hw.dissipates)
  rw [← nFourier_eq] at hm
  have hneg : ∀ j < nHalf a, out.K m l j < 0 := by
    intro j hj
    by_cases hsc : (a.asm E O r).genIn.scatters m l
    · rw [(hsp.scatG m hm l hl hsc).2]
      unfold eigK
      have hj' : j < (a.asm E O r).genIn.N := hj
      rw [if_pos hj']
      exact neg_lt_zero.2 (Real.sqrt_pos.2 ((hg.eig m hm l hl hsc).2 j hj))
    · rw [(hsp.trivG m hm l hl hsc).2.1]
      unfold kTrivial
      have hj' : j < (a.asm E O r).genIn.N := hj
      rw [if_pos hj', (hg.quad j hj).2]
      exact neg_lt_zero.2 (one_div_pos.2 (node_pos hw.gauss hj).1)
  refine ⟨hneg, fun j hj => ?_⟩
  have := AsmIn.K_sym hsp hm hl hj
  rw [show out.K m l (nHalf a + j) = -out.K m l j from this]
  linarith [hneg j hj]

/-- The coefficients of mode `m`. -/
theorem coefModeF_isOk (hw : WellPosed E a) (hns : NoSource a) (hO : a.optics = .ok O) {out : GenOut}
    (hsp : GenSpec E (a.asm E O r).genIn out) (hG : ∀ m < nFourier a, ∀ l < a.tauArr.n, (toM (2 * nHalf a) (out.G m l)).det ≠ 0) {m : ℕ} (hm : m < nFourier a) (ρ : Vec) :
    ∃ (C : Vec) (R : Option Mat) (X bneg bpos : Vec), ((a.asm E O r).coefIn out).coefModeF (a.tau0F .pinf) (fun k => .fin (ρ k)) m = .ok (fun k => .fin (C k)) ∧
      bcMode (a.asm E O r).N m (a.asm E O r).bnegScalar (a.asm E O r).bnegVector (a.asm E O r).bneg = .ok bneg ∧
      ∀ i < ((a.asm E O r).coefIn out).dim, mulVec ((a.asm E O r).coefIn out).dim
        (fun i j => ((a.asm E O r).coefIn out).lhs m R i j * ((a.asm E O r).coefIn out).mask i j) C i = ((a.asm E O r).coefIn out).rhsEnd m bneg bpos R X i := by
  have hacc := hw.accepted
  have hs := Args.optics_spec hacc hO
  have hg := asm_good_of (r := r) hacc hs hw.gauss hw.eig (regular_of_dissipates hw.gauss hw.dissipates)
  have hdep := asm_depthOK (E := E) (r := r) hacc hs
  set I := a.asm E O r with hI
  set c := I.coefIn out with hc
  have hm' : m < I.NFourier := by rw [← nFourier_eq] at hm; exact hm
  have hsurf := hw.surface m hm
  obtain ⟨R, hR⟩ := coefR_isOk (c := c) (m := m) (fun M hM => by obtain ⟨rho, h1, _⟩ := hsurf M hM; exact ⟨rho, h1⟩)
  obtain ⟨X, hX⟩ := coefX_isOk (c := c) (m := m) (fun M hM => by obtain ⟨rho, h1, _⟩ := hsurf M hM; exact ⟨rho, h1⟩)
  have hhalf : a.halfN = (nHalf a : ℤ) := by
    have := hacc.streams.1
    unfold nHalf Args.halfN; omega
  obtain ⟨bp, hbp⟩ := bcMode_isOk (n := nHalf a) (m := m) (d := a.rescaleDiv r) hw.bottomBC hacc.bottom
  obtain ⟨bn, hbn⟩ := bcMode_isOk (n := nHalf a) (m := m) (d := a.rescaleDiv r) hw.topBC hacc.topBC
  have hbp' : bcMode I.N m I.bposScalar I.bposVector I.bpos = .ok bp := by
    rw [← hbp, ← hhalf]; rfl
  have hbn' : bcMode I.N m I.bnegScalar I.bnegVector I.bneg = .ok bn := by
    rw [← hbn, ← hhalf]; rfl
  obtain ⟨hneg, hpos⟩ := gen_K_neg hw hs hsp hm (l := a.tauArr.n - 1) (by have := hacc.layers; omega)
  have hend : c.Endless (a.tau0F .pinf) := ⟨fun k hk => tau0F_above hO _ hk, tau0F_last hacc hs hO⟩
  have hdet : (toM c.dim fun i j => c.lhs m R i j * c.mask i j).det ≠ 0 := by
    refine CoefIn.end_det (c := c) (s := fun i => weight E a i * node E a i) (A := fun l => I.genIn.effA m l)
      hg.N hg.L (fun m hm l hl j hj => AsmIn.K_sym hsp hm hl hj) hg.tau00 ?_ hm' R hneg hpos (asm_dissipative hw hs hm)
      (eig_of_spec hsp hg.eig m hm') (hG m hm) ?_
    · intro l hl
      have h1 := hdep.step l hl
      have h2 := hdep.mono l hl
      have h3 : 0 < I.scale l := by
        change 0 < O.scale l
        rw [hs.scale l hl]; exact Args.scale_pos hacc hl
      change I.tau0 l < I.tau0 (l + 1)
      have h1' : I.tau0 (l + 1) = I.tau0 l + I.scale l * (bdry I.tauArr (l + 1) - bdry I.tauArr l) := h1
      have h2' : bdry I.tauArr l < bdry I.tauArr (l + 1) := h2
      nlinarith
    · intro R' hR' d
      rcases hM : a.bdrf[m]? with _ | M
      · have := coefR_none (c := c) hM hR
        rw [this] at hR'; cases hR'
      · obtain ⟨rho, hrep, hpas⟩ := hsurf M hM
        rw [hR'] at hR
        refine le_trans (le_of_eq ?_) (hpas d)
        refine sum_congr rfl fun i hi => ?_
        congr 2
        rw [mul_sum]
        refine sum_congr rfl fun j hj => ?_
        rw [coefR_spec (c := c) hM hrep hR (mem_range.mp hi) (mem_range.mp hj)]
        change _ * rho (node E a i) (node E a j) * (node E a j * weight E a j) * d j = _
        ring
  have hiso : c.iso = false := by
    have : ¬ a.Iso := fun hi => Args.iso_iff.1 hi hns
    change I.iso = false
    simpa [hI, Args.asmIn] using this
  have hmu : c.beam = true → 0 < c.mu0 := by
    intro hb
    have hb' : 0 < a.I0 := by simpa [hc, hI, Args.asmIn, AsmIn.coefIn, Args.Beam] using hb
    exact ((hacc.beamDir hb').1).1
  have hd := CoefIn.dense_rel (c := c) hg.N hg.L hend hneg hpos R
  have hrhs := CoefIn.rhs_rel (c := c) hg.N hg.L hend hiso hmu m bn bp R X ρ
  refine ⟨ofV c.dim ((toM c.dim fun i j => c.lhs m R i j * c.mask i j)⁻¹.mulVec (toV c.dim (c.rhsEnd m bn bp R X))), R, X, bn, bp, ?_, hbn', ?_⟩
  · unfold CoefIn.coefModeF
    rw [hR, hX]
    simp only [bind, Except.bind]
    rw [show bcMode c.N m c.bposScalar c.bposVector c.bpos = .ok bp from hbp', show bcMode c.N m c.bnegScalar c.bnegVector c.bneg = .ok bn from hbn']
    simp only
    unfold npSolveF
    rw [if_pos ⟨fun i _ j _ => by rw [hd i j]; trivial, fun i hi => by rw [hrhs i hi]; trivial⟩]
    rw [npSolve_congr (A' := fun i j => c.lhs m R i j * c.mask i j) (b' := c.rhsEnd m bn bp R X) (fun i _ j _ => by rw [hd i j]; rfl) (fun i hi => by rw [hrhs i hi]; rfl)]
    unfold npSolve
    rw [if_neg hdet]
    rfl
  · exact solve_val hdet _

/-- The loop over the modes. -/
theorem solveCoeffsF_isOk {c : CoefIn} {tau : ℕ → Fl} {ρ : ℕ → Fl} {C0 : ℕ → ℕ → Fl} {C : ℕ → Vec}
    (h : ∀ m < c.NFourier, c.coefModeF tau ρ m = .ok (fun k => .fin (C m k))) :
    ∃ GC, c.solveCoeffsF tau ρ C0 = .ok GC ∧ ∀ m < c.NFourier, ∀ l i k, GC m l i k = .fin (c.G m l i k * C m (l * (2 * c.N) + k)) := by
  have key : ∀ n ≤ c.NFourier, ∃ D, forRangeM n (fun m D => do return Function.update D m (← c.coefModeF tau ρ m)) C0 = (.ok D : Py (ℕ → ℕ → Fl)) ∧
      ∀ m < n, D m = fun k => .fin (C m k) := by
    intro n hn
    induction n with
    | zero => exact ⟨C0, rfl, fun m hm => absurd hm (Nat.not_lt_zero _)⟩
    | succ n ih =>
      obtain ⟨D, hD, hm⟩ := ih (by omega)
      refine ⟨Function.update D n (fun k => .fin (C n k)), ?_, fun m hlt => ?_⟩
      · show (forRangeM n _ C0 >>= fun s => _) = _
        rw [hD]
        simp only [bind, Except.bind]
        rw [h n (by omega)]
        rfl
      · by_cases he : m = n
        · subst he; exact Function.update_self ..
        · rw [Function.update_of_ne he]; exact hm m (by omega)
  obtain ⟨D, hD, hm⟩ := key c.NFourier le_rfl
  refine ⟨_, by unfold CoefIn.solveCoeffsF; rw [hD]; rfl, fun m hlt l i k => ?_⟩
  beta_reduce
  rw [hm m hlt, Fl.fin_mul]

end
end Pydisort

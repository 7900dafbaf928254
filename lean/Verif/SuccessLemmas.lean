import Verif.Spec.Solvable
import Verif.CoefSuccess
import Verif.PosDiagLemmas
import Verif.EvalLemmas

/-! A well-posed problem is solved: `pydisort` returns. -/

namespace Pydisort
open Finset Spec

variable {E : Ext} {a : Args}

theorem kernel_neg_neg (a : Args) (m l : ℕ) (x y : ℝ) : kernel a m l (-x) (-y) = kernel a m l x y := by
  unfold kernel; split_ifs
  · unfold scatD; rw [phaseMoment_neg_neg]
  · rfl

theorem kernel_neg_left (a : Args) (m l : ℕ) (x y : ℝ) : kernel a m l (-x) y = kernel a m l x (-y) := by
  rw [← kernel_neg_neg, neg_neg]

theorem kernel_symm (a : Args) (m l : ℕ) (x y : ℝ) : kernel a m l x y = kernel a m l y x := by
  unfold kernel; split_ifs
  · unfold scatD; rw [phaseMoment_symm]
  · rfl

theorem kernel_zero {m l : ℕ} (h : ¬ Significant (omegaStar a l) (nLeg a) (legStar a l) m) (x y : ℝ) :
    kernel a m l x y = 0 := by
  unfold kernel; rw [if_neg h]

theorem weight_pos (hg : GaussContract E (nHalf a)) {i : ℕ} (hi : i < nHalf a) : 0 < weight E a i := by
  have := hg.weight i hi; unfold weight; linarith

/-- The symmetric matrices `W - W (D⁺ ± D⁻) W`. -/
noncomputable def symS (a : Args) (mu w : Vec) (m l : ℕ) (e : ℝ) : Matrix (Fin (nHalf a)) (Fin (nHalf a)) ℝ :=
  fun i j => (if i = j then w i else 0)
    - w i * (kernel a m l (mu i) (mu j) + e * kernel a m l (mu i) (-mu j)) * w j

theorem symS_posDef {mu w : Vec} (hd : Dissipates a mu w) {m l : ℕ}
    (hm : m < nFourier a) (hl : l < a.tauArr.n) {e : ℝ} (he : e * e = 1) : (symS a mu w m l e).PosDef := by
  refine Matrix.PosDef.of_dotProduct_mulVec_pos ?_ ?_
  · ext i j
    simp only [Matrix.conjTranspose_apply, symS, star_trivial]
    rw [kernel_symm a m l (mu j) (mu i), ← kernel_neg_neg a m l (mu j) (-mu i), neg_neg,
      kernel_symm a m l (-mu j) (mu i)]
    by_cases h : i = j
    · subst h; simp
    · simp [h, Ne.symm h]; ring
  · intro v hv
    set x : ℕ → ℝ := fun i => if i < (nHalf a) then ofV (nHalf a) v i else e * ofV (nHalf a) v (i - (nHalf a)) with hx
    have hx1 : ∀ i < (nHalf a), x i = ofV (nHalf a) v i := fun i hi => by simp [hx, hi]
    have hx2 : ∀ i, x ((nHalf a) + i) = e * ofV (nHalf a) v i := fun i => by simp [hx]
    have hne : ∃ i < 2 * (nHalf a), x i ≠ 0 := by
      by_contra hcon
      push Not at hcon
      apply hv
      funext i
      have := hcon i (by omega)
      rw [hx1 i i.2, ofV_lt v i.2] at this
      exact this
    have key := hd m hm l hl x hne
    rw [sum_range_two_mul, sum_range_two_mul] at key
    have e1 : ∑ i ∈ range (nHalf a), streamW (nHalf a) w i * x i ^ 2 = ∑ i : Fin (nHalf a), w i * v i ^ 2 := by
      rw [Finset.sum_range]
      refine sum_congr rfl fun i _ => ?_
      rw [hx1 i i.2, ofV_lt v i.2]; simp [streamW]
    have e2 : ∑ i ∈ range (nHalf a), streamW (nHalf a) w ((nHalf a) + i) * x ((nHalf a) + i) ^ 2 = ∑ i : Fin (nHalf a), w i * v i ^ 2 := by
      rw [Finset.sum_range]
      refine sum_congr rfl fun i _ => ?_
      rw [hx2 i, ofV_lt v i.2]; simp only [streamW]
      rw [if_neg (by omega), Nat.add_sub_cancel_left, mul_pow, pow_two e, he]; simp
    have f1 : ∑ i ∈ range (nHalf a), ∑ j ∈ range (2 * (nHalf a)), streamW (nHalf a) w i * streamW (nHalf a) w j
        * kernel a m l (stream (nHalf a) mu i) (stream (nHalf a) mu j) * x i * x j
        = ∑ i : Fin (nHalf a), ∑ j : Fin (nHalf a), v i * (w i * (kernel a m l (mu i) (mu j) + e * kernel a m l (mu i) (-mu j)) * w j) * v j := by
      rw [Finset.sum_range]
      refine sum_congr rfl fun i _ => ?_
      rw [sum_range_two_mul, ← sum_add_distrib, Finset.sum_range]
      refine sum_congr rfl fun j _ => ?_
      rw [hx1 i i.2, hx1 j j.2, hx2, ofV_lt v i.2, ofV_lt v j.2]
      simp [streamW, stream]; ring
    have f2 : ∑ i ∈ range (nHalf a), ∑ j ∈ range (2 * (nHalf a)), streamW (nHalf a) w ((nHalf a) + i) * streamW (nHalf a) w j
        * kernel a m l (stream (nHalf a) mu ((nHalf a) + i)) (stream (nHalf a) mu j) * x ((nHalf a) + i) * x j
        = ∑ i : Fin (nHalf a), ∑ j : Fin (nHalf a), v i * (w i * (kernel a m l (mu i) (mu j) + e * kernel a m l (mu i) (-mu j)) * w j) * v j := by
      rw [Finset.sum_range]
      refine sum_congr rfl fun i _ => ?_
      rw [sum_range_two_mul, ← sum_add_distrib, Finset.sum_range]
      refine sum_congr rfl fun j _ => ?_
      rw [hx1 j j.2, hx2, hx2, ofV_lt v i.2, ofV_lt v j.2]
      have k1 := kernel_neg_left a m l (mu i) (mu j)
      have k2 := kernel_neg_neg a m l (mu i) (mu j)
      simp [streamW, stream, k1, k2]
      linear_combination (w i * w j * kernel a m l (mu i) (mu j) * v i * v j) * he
    rw [f1, f2, e1, e2] at key
    have : star v ⬝ᵥ Matrix.mulVec (symS a mu w m l e) v = ∑ i : Fin (nHalf a), w i * v i ^ 2
        - ∑ i : Fin (nHalf a), ∑ j : Fin (nHalf a), v i * (w i * (kernel a m l (mu i) (mu j) + e * kernel a m l (mu i) (-mu j)) * w j) * v j := by
      simp only [dotProduct, Matrix.mulVec, symS, star_trivial, sub_mul, sum_sub_distrib, mul_sub, mul_sum]
      congr 1
      · refine sum_congr rfl fun i _ => ?_
        rw [Finset.sum_eq_single i]
        · simp; ring
        · intro b _ hb; simp [Ne.symm hb]
        · simp
      · exact sum_congr rfl fun i _ => sum_congr rfl fun j _ => by ring
    rw [this]; linarith

/-- Dissipation makes the eigenvalue problems regular. -/
theorem regular_of_dissipates (hg : GaussContract E (nHalf a)) (hd : Dissipates a (node E a) (weight E a)) :
    Regular a (node E a) (weight E a) := by
  intro m hm l hl _
  set n := nHalf a
  set mu := node E a
  set w := weight E a
  have hP : (Matrix.diagonal (fun i : Fin n => 1 / (w i * mu i))).det ≠ 0 := by
    rw [Matrix.det_diagonal]
    refine Finset.prod_ne_zero_iff.mpr fun i _ => ?_
    exact one_div_ne_zero (mul_pos (weight_pos hg i.2) (node_pos hg i.2).1).ne'
  set P := Matrix.diagonal (fun i : Fin n => 1 / (w i * mu i)) with hPd
  have hPt : P.transpose = P := Matrix.diagonal_transpose _
  have hA : (P.transpose * symS a mu w m l (-1) * P).PosDef := by
    have := (symS_posDef hd hm hl (e := -1) (by norm_num)).conjTranspose_mul_mul_same (B := P)
      (Matrix.mulVec_injective_of_isUnit ((Matrix.isUnit_iff_isUnit_det _).mpr (isUnit_iff_ne_zero.mpr hP)))
    rwa [Matrix.conjTranspose_eq_transpose_of_trivial] at this
  obtain ⟨V, d, hdp, hdet, hV⟩ := posDef_mul_diag hA (symS_posDef hd hm hl (e := 1) (by norm_num))
  have key : ∀ (e : ℝ) (i j : Fin n), (P * symS a mu w m l e) i j
      = -(Spec.alpha mu w (kernel a m l) i j + e * Spec.beta mu w (kernel a m l) i j) := by
    intro e i j
    rw [hPd, Matrix.diagonal_mul]
    have h1 := (weight_pos hg i.2).ne'
    have h2 := (node_pos hg i.2).1.ne'
    change w i ≠ 0 at h1
    change mu i ≠ 0 at h2
    unfold symS Spec.alpha Spec.beta
    by_cases h : i = j
    · subst h; simp; field_simp; ring
    · have : ¬ (i : ℕ) = j := fun hh => h (Fin.ext hh)
      simp [h, this]; field_simp; ring
  have hred : toM n (Spec.reduced n mu w (kernel a m l))
      = (P.transpose * symS a mu w m l (-1) * P) * symS a mu w m l 1 := by
    rw [hPt, Matrix.mul_assoc (P * _)]
    ext i j
    rw [Matrix.mul_apply]
    simp only [toM, Spec.reduced]
    rw [Finset.sum_range]
    refine sum_congr rfl fun k _ => ?_
    rw [key, key]; ring
  refine ⟨ofV n d, ofM n V, ?_, fun j hj => by rw [ofV_lt d hj]; exact hdp _⟩
  rw [isEigenBasis_iff]
  have hVM : toM n (ofM n V) = V := by ext i j; simp [toM, ofM]
  have hdd : (fun i : Fin n => ofV n d i) = d := by funext i; exact ofV_lt d i.2
  rw [hVM, hdd, hred]
  exact ⟨hdet, hV⟩

theorem Spec.WellPosed.sound (h : WellPosed E a) : Sound E a where
  gauss := h.gauss
  eig := h.eig
  peak := h.peak
  regular := regular_of_dissipates h.gauss h.dissipates
  degree := h.degree
  nonres := by
    intro h1 _ l hl hsig
    refine h.beam h1 0 ?_ l hl hsig
    have := h.accepted.modes
    unfold nFourier
    split_ifs with hf
    · omega
    · have := this (by simpa using hf); omega

/-- No eigenvalue is resonant when `1 / mu0 ^ 2` is not an eigenvalue of the reduced matrix. -/
theorem eigK_nonres {n : ℕ} {A V : Mat} {d : Vec} {mu0 : ℝ} (hmu : 0 < mu0) (hb : IsEigenBasis n A d V)
    (hd : ∀ j < n, 0 < d j) (hdet : (toM n (fun i j => A i j - if i = j then 1 / mu0 ^ 2 else 0)).det ≠ 0)
    {j : ℕ} (hj : j < 2 * n) : 1 / mu0 + eigK n d j ≠ 0 := by
  intro hres
  obtain ⟨k, hk, hlam⟩ : ∃ k < n, d k = 1 / mu0 ^ 2 := by
    unfold eigK at hres
    have hpos : 0 < 1 / mu0 := by positivity
    split_ifs at hres with hjN
    · refine ⟨j, hjN, ?_⟩
      have hsq : Real.sqrt (d j) = 1 / mu0 := by linarith
      have := Real.mul_self_sqrt (hd j hjN).le
      rw [hsq] at this
      rw [← this]; field_simp
    · have := Real.sqrt_nonneg (d (j - n))
      linarith
  apply hb.1
  refine Matrix.det_eq_zero_of_column_eq_zero ⟨k, hk⟩ fun i => ?_
  have hker := inj_of_det hdet (x := fun q => V q k) (by
    intro i hi
    unfold mulVec
    have e := hb.2 i hi k hk
    rw [hlam] at e
    simp only [sub_mul, sum_sub_distrib, e]
    simp [hi])
  exact hker i i.2

/-! ### Each stage succeeds -/

theorem npMax_isOk {v : A1 ℝ} (h : 0 < v.n) : ∃ x, npMax v = .ok x := by
  unfold npMax
  rw [dif_pos ⟨0, mem_range.mpr h⟩]; exact ⟨_, rfl⟩

open Classical in
theorem max_isOk (b : BCv) : ∃ x, (if b.AllZero then BCv.scalar 0 else b).max = .ok x := by
  split_ifs with h
  · exact ⟨_, rfl⟩
  · cases b with
    | scalar x => exact ⟨_, rfl⟩
    | vec v =>
      refine npMax_isOk (Nat.pos_of_ne_zero fun h0 => h fun i hi => ?_)
      rw [h0] at hi; omega
    | mat v =>
      refine npMax_isOk (Nat.pos_of_ne_zero fun h0 => h fun i hi j hj => ?_)
      rcases Nat.mul_eq_zero.mp h0 with h0 | h0
      · rw [h0] at hi; omega
      · rw [h0] at hj; omega

theorem rescaleFactor_isOk (a : Args) (O : Optics) : ∃ r, a.rescaleFactor O = .ok r := by
  obtain ⟨x, hx⟩ := max_isOk a.bpos
  obtain ⟨y, hy⟩ := max_isOk a.bneg
  have hx' : a.bpos'.max = .ok x := hx
  have hy' : a.bneg'.max = .ok y := hy
  unfold Args.rescaleFactor
  rw [hx', hy']
  exact ⟨_, rfl⟩

theorem bin_isOk {f : ℝ → ℝ → ℝ} {x y : A2 ℝ} (h1 : x.r = 1 ∨ x.r = y.r) (h2 : y.c = 1) :
    ∃ z, A2.bin f x y = .ok z ∧ (z.r = y.r) := by
  unfold A2.bin
  rw [h2, bdim_one_right]
  rcases h1 with h | h
  · rw [h, bdim_one_left]; exact ⟨_, rfl, rfl⟩
  · rw [h, bdim_self]; exact ⟨_, rfl, rfl⟩

theorem optics_isOk (h : Accepted a) (hs : a.s.r = 1 ∨ a.s.r = a.tauArr.n) : ∃ O, a.optics = .ok O := by
  unfold Args.optics
  split_ifs with hf
  · have h0 : ∃ k < a.NLayers, a.scale k ≠ 0 := by
      refine ⟨0, h.layers, ?_⟩
      have := Args.scale_pos h (l := 0) h.layers
      unfold Spec.scale at this
      rw [Args.peak_of_pos h hf h.layers] at this
      exact this.ne'
    have h1 : ∃ z, affineTransform a.s ⟨a.NLayers, a.scale⟩ ⟨a.NLayers, a.translation⟩ = .ok z ∧ z.r = a.NLayers := by
      unfold affineTransform
      rw [if_neg (not_not.mpr h0), bdim_self]
      simp only [bind, Except.bind]
      rcases hs with h' | h'
      · rw [h', bdim_one_right]; exact ⟨_, rfl, rfl⟩
      · rw [show a.s.r = a.NLayers from h', bdim_self]; exact ⟨_, rfl, rfl⟩
    obtain ⟨z, hz, hzr⟩ := h1
    obtain ⟨y, hy, hyr⟩ := bin_isOk (f := fun x y => x / y) (x := z) (y := A1.col ⟨a.NLayers, a.scale⟩) (Or.inr hzr) rfl
    obtain ⟨x, hx, _⟩ := bin_isOk (f := fun x y => x * y) (x := y)
      (y := A1.col ⟨a.NLayers, fun k => 1 - a.omega.get k⟩) (Or.inr hyr) rfl
    simp only [hz, hy, hx, bind, Except.bind]
    exact ⟨_, rfl⟩
  · obtain ⟨x, hx, _⟩ := bin_isOk (f := fun x y => x * y) (x := a.s)
      (y := A1.col ⟨a.NLayers, fun k => 1 - a.omega.get k⟩) hs rfl
    simp only [hx, bind, Except.bind]
    exact ⟨_, rfl⟩

theorem quad_isOk (h : Accepted a) (ha : a.NTcor = true → ∀ i < nHalf a, 1 / 10 ^ 8 ≤ |node E a i - a.mu0|) :
    ∃ q, a.quad E = .ok q ∧ q.1.get = node E a ∧ q.2.get = weight E a := by
  have hn : a.N = nHalf a := rfl
  have h0 : ¬ a.N = 0 := by
    have := h.streams.1
    change ¬ (a.NQuad / 2).toNat = 0
    omega
  have e1 : ∀ i, ((E.leggauss a.N).1 i - -1) * (1 - 0) / (1 - -1) + 0 = node E a i := by
    intro i; unfold node; rw [hn]; ring
  have e2 : ∀ i, (E.leggauss a.N).2 i * (1 - 0) / (1 - -1) = weight E a i := by
    intro i; unfold weight; rw [hn]; ring
  unfold Args.quad gaussLegendreQuad
  rw [if_neg h0]
  simp only [bind, Except.bind, transformInterval, transformWeights, A1.map]
  refine ⟨(⟨a.N, fun i => ((E.leggauss a.N).1 i - -1) * (1 - 0) / (1 - -1) + 0⟩,
    ⟨a.N, fun i => (E.leggauss a.N).2 i * (1 - 0) / (1 - -1)⟩), if_neg ?_, funext e1, funext e2⟩
  · rintro ⟨h1, k, hk, h2⟩
    rw [e1] at h2
    exact absurd h2 (not_lt.mpr (ha h1 k hk))

open Classical in
theorem bcMode_isOk {n m : ℕ} {b : BCv} {d : ℝ} (hb : Azimuthless b) (hsh : BCShape n b) :
    ∃ v, bcMode n m (decide ((if b.AllZero then BCv.scalar 0 else b).len = 1))
      (decide (¬ (if b.AllZero then BCv.scalar 0 else b).len = 1 ∧
        (((if b.AllZero then BCv.scalar 0 else b).len : ℕ) : ℤ) = (n : ℤ)))
      ((if b.AllZero then BCv.scalar 0 else b).div d) = .ok v := by
  by_cases hz : b.AllZero
  · simp only [if_pos hz]
    unfold bcMode
    by_cases hm : m = 0
    · simp [BCv.len, hm, BCv.div]
    · simp [BCv.len, hm]
  · simp only [if_neg hz]
    cases b with
    | scalar x =>
      unfold bcMode
      by_cases hm : m = 0
      · simp [BCv.len, hm, BCv.div]
      · simp [BCv.len, hm]
    | mat v => exact absurd hb hz
    | vec v =>
      unfold bcMode
      have h1 : v.n = 1 ∨ v.n = n := by
        rcases hsh with h | h | h
        · exact absurd h hz
        · exact Or.inl h
        · exact Or.inr h
      by_cases hm : m = 0
      · by_cases h2 : v.n = 1
        · simp only [BCv.len, hm, h2, BCv.div, assign1, A1.map]
          simp
          split_ifs <;> exact ⟨_, rfl⟩
        · have h3 : v.n = n := h1.resolve_left h2
          simp only [BCv.len, hm, BCv.div, assign1, A1.map]
          have h4 : ¬ n = 1 := h3 ▸ h2
          simp [h3, h4]
      · by_cases h2 : v.n = 1
        · simp [BCv.len, hm, h2]
        · have h3 : v.n = n := h1.resolve_left h2
          have h4 : ¬ n = 1 := h3 ▸ h2
          simp [BCv.len, hm, h3, h4]

theorem coefR_isOk {c : CoefIn} {m : ℕ} (h : ∀ M, c.bdrf[m]? = some M → ∃ rho, Represents M rho) :
    ∃ R, coefR c m = .ok R := by
  unfold coefR
  rcases hM : c.bdrf[m]? with _ | M
  · exact ⟨_, rfl⟩
  · obtain ⟨rho, hrep⟩ := h M hM
    cases M with
    | scalar x => exact ⟨_, rfl⟩
    | func f =>
      obtain ⟨v, hv, h1, h2, _⟩ := hrep ⟨c.N, c.mu⟩ ⟨c.N, c.mu⟩
      simp only [hv]
      rw [if_pos ⟨Or.inr h1, Or.inr h2⟩]; exact ⟨_, rfl⟩

theorem coefX_isOk {c : CoefIn} {m : ℕ} (h : ∀ M, c.bdrf[m]? = some M → ∃ rho, Represents M rho) :
    ∃ X, coefX c m = .ok X := by
  unfold coefX
  split_ifs with hb
  swap
  · exact ⟨_, rfl⟩
  rcases hM : c.bdrf[m]? with _ | M
  · exact ⟨_, rfl⟩
  · obtain ⟨rho, hrep⟩ := h M hM
    cases M with
    | scalar x => exact ⟨_, rfl⟩
    | func f =>
      obtain ⟨v, hv, h1, h2, _⟩ := hrep ⟨c.N, c.mu⟩ ⟨1, fun _ => c.mu0⟩
      simp only [hv]
      change v.r = c.N at h1
      change v.c = 1 at h2
      rw [if_neg (by omega), if_pos (Or.inr h1)]; exact ⟨_, rfl⟩

/-- The linear systems of a call are solvable if, besides the physical conditions, no beam system is singular that is solved as a linear system. -/
theorem solveAll_isOk_of (hacc : Accepted a) (hgauss : GaussContract E (nHalf a)) (hE : EigContract E)
    (hdis : Dissipates a (node E a) (weight E a)) (hsurface : PassiveSurface a (node E a) (weight E a))
    (hbot : Azimuthless a.bpos) (htop : Azimuthless a.bneg)
    (hbeam : 0 < a.I0 → ∀ m < nFourier a, ∀ l < a.tauArr.n, Significant (omegaStar a l) (nLeg a) (legStar a l) m →
      ¬ (m = 0 ∧ ¬ NoSource a) → (toM (nHalf a) (fun i j => reduced (nHalf a) (node E a) (weight E a) (kernel a m l) i j
        - if i = j then 1 / a.mu0 ^ 2 else 0)).det ≠ 0)
    {O : Optics} (hs : Args.OpticsSpec a O) {r : ℝ} (J : Junk) :
    ∃ S, solveAll E J (a.asm E O r) = .ok S := by
  have hreg := regular_of_dissipates hgauss hdis
  have hg := asm_good_of (r := r) hacc hs hgauss hE hreg
  set I := a.asm E O r with hI
  have heig : ∀ m < I.NFourier, ∀ l < I.NLayers, I.genIn.scatters m l →
      I.genIn.EigOK E m l ∧ (toM I.genIn.N (I.genIn.ev E m l).2).det ≠ 0 ∧
      (I.beam = true → ¬ (m = 0 ∧ I.iso = true) → ∀ j < 2 * I.genIn.N, 1 / I.genIn.mu0 + eigK I.genIn.N (I.genIn.ev E m l).1 j ≠ 0) := by
    intro m hm l hl hsc
    have hsig := (asm_scatters hs hl m).1 hsc
    have hm' : m < nFourier a := by rw [← nFourier_eq]; exact hm
    obtain ⟨hb, he⟩ := eigOK_of (r := r) hs hE hl hsig (hreg m hm' l hl hsig)
    refine ⟨he, hb.1, fun hbt hmi j hj => ?_⟩
    have hb' : 0 < a.I0 := by simpa [hI, Args.asmIn, Args.Beam] using hbt
    refine eigK_nonres ((hacc.beamDir hb').1).1 hb he.2 (hbeam hb' m hm' l hl hsig fun hh => hmi ⟨hh.1, ?_⟩) hj
    have : a.Iso := Args.iso_iff.2 hh.2
    simpa [hI, Args.asmIn] using this
  obtain ⟨out, hout⟩ := genSol_isOk (E := E) (junk := J.gen) (I := I.genIn) hg.F
    (fun _ l hl hsc => by
      obtain ⟨h1, h2, _⟩ := heig 0 hg.F l hl hsc
      exact gScat_det h1 h2)
    (fun hb m hm l hl hsc hmi => by
      obtain ⟨h1, h2, h3⟩ := heig m hm l hl hsc
      exact beam_det h1 h2 (h3 hb hmi))
  have hsp := genSol_spec hg.F hout
  have hdep := asm_depthOK (E := E) (r := r) hacc hs
  have hAG := eig_of_spec hsp hg.eig
  have hGdet : ∀ m < I.NFourier, ∀ l < I.NLayers, (toM (2 * I.N) (out.G m l)).det ≠ 0 := by
    intro m hm l hl
    by_cases hsc : I.genIn.scatters m l
    · obtain ⟨h1, h2, _⟩ := heig m hm l hl hsc
      have := gScat_det h1 h2
      have hEq : toM (2 * I.N) (out.G m l) = toM (2 * I.genIn.N) (I.genIn.gScat E m l) := by
        ext i j
        exact (hsp.scatG m hm l hl hsc).1 i i.2 j j.2
      rw [hEq]; exact this
    · rw [(hsp.trivG m hm l hl hsc).1]
      exact gTrivial_det I.N
  have hcoef : ∀ m < I.NFourier, ∃ x, coefMode (I.coefIn out) m = .ok x := by
    intro m hm
    have hm' : m < nFourier a := by rw [← nFourier_eq]; exact hm
    have hsurf := hsurface m hm'
    obtain ⟨R, hR⟩ := coefR_isOk (c := I.coefIn out) (m := m)
      (fun M hM => by obtain ⟨rho, h1, _⟩ := hsurf M hM; exact ⟨rho, h1⟩)
    obtain ⟨X, hX⟩ := coefX_isOk (c := I.coefIn out) (m := m)
      (fun M hM => by obtain ⟨rho, h1, _⟩ := hsurf M hM; exact ⟨rho, h1⟩)
    have hhalf : a.halfN = (nHalf a : ℤ) := by
      have := hacc.streams.1
      unfold nHalf Args.halfN; omega
    obtain ⟨bp, hbp⟩ := bcMode_isOk (n := nHalf a) (m := m) (d := a.rescaleDiv r) hbot hacc.bottom
    obtain ⟨bn, hbn⟩ := bcMode_isOk (n := nHalf a) (m := m) (d := a.rescaleDiv r) htop hacc.topBC
    have hbp' : bcMode I.N m I.bposScalar I.bposVector I.bpos = .ok bp := by
      rw [← hbp, ← hhalf]; rfl
    have hbn' : bcMode I.N m I.bnegScalar I.bnegVector I.bneg = .ok bn := by
      rw [← hbn, ← hhalf]; rfl
    have hdet : (toM (I.coefIn out).dim ((I.coefIn out).lhs m R)).det ≠ 0 := by
      refine CoefIn.lhs_det (s := fun i => weight E a i * node E a i) (A := fun l => I.genIn.effA m l)
        hg.N hg.L (fun m hm l hl j hj => AsmIn.K_sym hsp hm hl hj) hg.tau00 ?_ hm R ?_ (hAG m hm) (hGdet m hm) ?_
      · intro l hl
        have h1 := hdep.step l hl
        have h2 := hdep.mono l hl
        have h3 : 0 < I.scale l := by
          change 0 < O.scale l
          rw [hs.scale l hl]; exact Args.scale_pos hacc hl
        change I.tau0 l < I.tau0 (l + 1)
        have h1' : I.tau0 (l + 1) = I.tau0 l + I.scale l * (bdry I.tauArr (l + 1) - bdry I.tauArr l) := h1
        have h2' : bdry I.tauArr l < bdry I.tauArr (l + 1) := h2
        nlinarith
      · constructor
        · exact fun i hi => mul_pos (weight_pos hgauss hi) (node_pos hgauss hi).1
        · intro l hl x hx
          have key := hdis m hm' l hl x hx
          have e : ∀ i ∈ range (2 * nHalf a),
              (if i < nHalf a then weight E a i * node E a i else -(weight E a (i - nHalf a) * node E a (i - nHalf a)))
                * x i * mulVec (2 * nHalf a) (I.genIn.effA m l) x i
              = streamW (nHalf a) (weight E a) i * x i ^ 2
                - ∑ j ∈ range (2 * nHalf a), streamW (nHalf a) (weight E a) i * streamW (nHalf a) (weight E a) j
                  * kernel a m l (stream (nHalf a) (node E a) i) (stream (nHalf a) (node E a) j) * x i * x j := by
            intro i hi
            have := effA_spec (r := r) hs hgauss hl m x (mem_range.mp hi)
            have e1 : (if i < nHalf a then weight E a i * node E a i
                else -(weight E a (i - nHalf a) * node E a (i - nHalf a)))
                = streamW (nHalf a) (weight E a) i * stream (nHalf a) (node E a) i := by
              unfold streamW stream; split_ifs <;> ring
            rw [e1]
            calc streamW (nHalf a) (weight E a) i * stream (nHalf a) (node E a) i * x i
                  * mulVec (2 * nHalf a) (I.genIn.effA m l) x i
                = streamW (nHalf a) (weight E a) i * x i * (stream (nHalf a) (node E a) i
                  * mulVec (2 * nHalf a) (I.genIn.effA m l) x i) := by ring
              _ = _ := by
                rw [this, mul_sub, mul_sum]
                congr 1
                · ring
                · exact sum_congr rfl fun j _ => by ring
          refine lt_of_lt_of_eq ?_ (sum_congr rfl e).symm
          rw [sum_sub_distrib]
          linarith
      · intro R' hR' d
        rcases hM : a.bdrf[m]? with _ | M
        · have := coefR_none (c := I.coefIn out) hM hR
          rw [this] at hR'; cases hR'
        · obtain ⟨rho, hrep, hpas⟩ := hsurf M hM
          rw [hR'] at hR
          refine le_trans (le_of_eq ?_) (hpas d)
          refine sum_congr rfl fun i hi => ?_
          congr 2
          rw [mul_sum]
          refine sum_congr rfl fun j hj => ?_
          rw [coefR_spec (c := I.coefIn out) hM hrep hR (mem_range.mp hi) (mem_range.mp hj)]
          change _ * rho (node E a i) (node E a j) * (node E a j * weight E a j) * d j = _
          ring
    refine ⟨ofV (I.coefIn out).dim ((toM (I.coefIn out).dim ((I.coefIn out).lhs m R))⁻¹.mulVec
      (toV (I.coefIn out).dim ((I.coefIn out).rhs m bn bp R X (fun _ => 0)))), ?_⟩
    · unfold coefMode
      rw [hR, hX]
      simp only [bind, Except.bind]
      rw [show bcMode (I.coefIn out).N m (I.coefIn out).bposScalar (I.coefIn out).bposVector (I.coefIn out).bpos
        = .ok bp from hbp', show bcMode (I.coefIn out).N m (I.coefIn out).bnegScalar (I.coefIn out).bnegVector
        (I.coefIn out).bneg = .ok bn from hbn']
      simp only
      unfold npSolve
      rw [if_neg hdet]
  obtain ⟨GC, hGC⟩ := solveCoeffs_isOk (I := I.coefIn out) hg.N hg.L J.coef J.rhs hcoef
  refine ⟨⟨out.G, out.K, out.B, I.gim out.Ginv0, GC⟩, ?_⟩
  · unfold solveAll
    rw [hout]
    simp only [bind, Except.bind]
    rw [hGC]
    rfl

theorem solveAll_isOk (h : WellPosed E a) {O : Optics} (hs : Args.OpticsSpec a O) {r : ℝ} (J : Junk) :
    ∃ S, solveAll E J (a.asm E O r) = .ok S :=
  solveAll_isOk_of h.accepted h.gauss h.eig h.dissipates h.surface h.bottomBC h.topBC
    (fun hb m hm l hl hsig _ => h.beam hb m hm l hl hsig) hs J

/-- The preparations of `pydisort` succeed. -/
theorem prepare_isOk (hacc : Accepted a) (hsh : a.s.r = 1 ∨ a.s.r = a.tauArr.n)
    (ha : a.NTcor = true → ∀ i < nHalf a, 1 / 10 ^ 8 ≤ |node E a i - a.mu0|) :
    ∃ O r p, Args.OpticsSpec a O ∧ prepare E a = .ok (a.asm E O r, p) := by
  obtain ⟨q, hq, hq1, hq2⟩ := quad_isOk (E := E) hacc ha
  obtain ⟨O, hO⟩ := optics_isOk hacc hsh
  obtain ⟨r, hr⟩ := rescaleFactor_isOk a O
  have hs := Args.optics_spec hacc hO
  refine ⟨O, r, a.ntIn q.1.get O r, hs, ?_⟩
  have hp : prepare E a = .ok (a.asmIn q.1.get q.2.get O r, a.ntIn q.1.get O r) := by
    unfold prepare
    rw [Args.validate_iff.2 hacc, hq, hO]
    simp only [bind, Except.bind]
    rw [hr]; rfl
  rw [hp, hq1, hq2]

theorem pydisort_isOk (h : WellPosed E a) (J : Junk) : ∃ R, pydisort E J a = .ok R := by
  obtain ⟨O, r, p, hs, hp⟩ := prepare_isOk (E := E) h.accepted h.sourceShape h.angles
  obtain ⟨S, hS⟩ := solveAll_isOk h hs (r := r) J
  unfold pydisort
  rw [hp]
  simp only [bind, Except.bind]
  rw [hS]
  exact ⟨_, rfl⟩

end Pydisort

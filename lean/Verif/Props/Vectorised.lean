import Verif.MathscrArrLemmas
import Verif.Spec.PolySolution
import Verif.Props.Eigen
import Mathlib.Algebra.Polynomial.Derivative
import Mathlib.Analysis.Calculus.Deriv.Polynomial

/-!
# C97: the vectorised particular solution
-/

namespace Pydisort
open Finset Spec

variable {E : Ext} {J : Junk} {a : Args} {R : Solved}

/-- The system has at most one polynomial solution if its matrix is invertible. -/
theorem C97_solution_unique {n Nc : ℕ} {A : Mat} {r s : Vec} (hA : (toM n A).det ≠ 0) {v w : ℕ → ℝ → ℝ} (hv : PolySolution n A r Nc s v)
    (hw : PolySolution n A r Nc s w) : ∀ i < n, ∀ t, v i t = w i t := by
  choose! p hp using hv.poly
  choose! q hq using hw.poly
  -- the difference solves the homogeneous system
  have hD : ∀ i < n, Polynomial.derivative (p i - q i) = ∑ j ∈ range n, Polynomial.C (A i j) * (p j - q j) := by
    intro i hi
    refine Polynomial.funext fun t => ?_
    have h1 := (hv.ode i hi t).sub (hw.ode i hi t)
    have h2 : HasDerivAt (v i - w i) ((Polynomial.derivative (p i - q i)).eval t) t := by
      have h3 := (p i - q i).hasDerivAt t
      refine h3.congr_of_eventuallyEq (Filter.Eventually.of_forall fun x => ?_)
      simp only [Pi.sub_apply, Polynomial.eval_sub, hp i hi x, hq i hi x]
    rw [h2.unique h1, Polynomial.eval_finset_sum, sub_sub_sub_cancel_right, ← sum_sub_distrib]
    refine sum_congr rfl fun j hj => ?_
    rw [mem_range] at hj
    rw [hp j hj t, hq j hj t]
    simp only [Polynomial.eval_mul, Polynomial.eval_C, Polynomial.eval_sub]
    ring
  -- all coefficients vanish
  have hc : ∀ k, (∀ j < n, (p j - q j).coeff (k + 1) = 0) → ∀ j < n, (p j - q j).coeff k = 0 := by
    intro k hk
    have hz : (toM n A).mulVec (fun j : Fin n => (p j - q j).coeff k) = 0 := by
      funext i
      have := congrArg (fun P => Polynomial.coeff P k) (hD i i.2)
      simp only [Polynomial.coeff_derivative, Polynomial.finset_sum_coeff, Polynomial.coeff_C_mul, hk i i.2, zero_mul] at this
      rw [Pi.zero_apply, this, Matrix.mulVec, dotProduct, ← Fin.sum_univ_eq_sum_range (fun j => A i j * (p j - q j).coeff k) n]
      rfl
    have h0 := Matrix.eq_zero_of_mulVec_eq_zero hA hz
    intro j hj
    exact congrFun h0 ⟨j, hj⟩
  obtain ⟨D, hDeg⟩ : ∃ D, ∀ j < n, (p j - q j).natDegree < D :=
    ⟨(∑ j ∈ range n, (p j - q j).natDegree) + 1, fun j hj => Nat.lt_succ_of_le
      (single_le_sum (f := fun j => (p j - q j).natDegree) (fun _ _ => Nat.zero_le _) (mem_range.mpr hj))⟩
  have hall : ∀ m k, D ≤ k + m → ∀ j < n, (p j - q j).coeff k = 0 := by
    intro m
    induction m with
    | zero => intro k hk j hj; exact Polynomial.coeff_eq_zero_of_natDegree_lt (lt_of_lt_of_le (hDeg j hj) hk)
    | succ m ih => intro k hk; exact hc k (ih (k + 1) (by omega))
  intro i hi t
  have : p i - q i = 0 := Polynomial.ext fun k => hall D k (by omega) i hi
  rw [hp i hi t, hq i hi t, sub_eq_zero.mp this]

/-- The pointwise particular solution is a polynomial. -/
theorem mathscrV_poly {n Nc : ℕ} (hN : 0 < Nc) (s : Vec) (G : Mat) (K g : Vec) (i : ℕ) :
    ∃ p : Polynomial ℝ, ∀ t, mathscrV n Nc s G K g t i = p.eval t := by
  refine ⟨∑ k ∈ range n, Polynomial.C (G i k) * ((∑ r ∈ range Nc, Polynomial.C (sigC Nc s (K k) r) * Polynomial.X ^ r) * Polynomial.C (g k)),
    fun t => ?_⟩
  rw [mathscrV_eq hN]
  simp [Polynomial.eval_finset_sum, sigma]

/-- **C97.** Arrays of the documented shapes: `NL` layers, `n` streams, the rows `row 0, …, row (Q - 1)` of the eigenvector matrices, arbitrary depths `tau`
(in any order and with repetitions) and the layer `l` of each. If in each layer `G` and `K` diagonalise `A` and `g` represents `r`, the call of
`_mathscr_v` with `np.unique`, as in the evaluation functions, returns an array whose entry in row `q` at depth number `t` is the value at that depth of the
component `row q` of the polynomial solution for the source of the layer of that depth. The content of the uninitialised array does not matter. -/
theorem C97_vectorised_particular_solution {NL Nc Q n : ℕ} (hN : 0 < Nc) (hN' : Nc ≤ 21) {s : A2 ℝ} (hs : s.r = NL ∧ s.c = Nc) {G : A3 ℝ}
    (hG : G.d0 = NL ∧ G.d1 = Q ∧ G.d2 = n) {K g : A2 ℝ} (hK : K.r = NL ∧ K.c = n) (hg : g.r = NL ∧ g.c = n) {tau : A1 ℝ} {l : A1 ℕ}
    (hl : l.n = tau.n) (hl' : ∀ t < tau.n, l.get t < NL)
    {A V : ℕ → Mat} {r : ℕ → Vec} {row : ℕ → ℕ} (hrow : ∀ q < Q, row q < n) (hV : ∀ k < NL, ∀ q < Q, ∀ j < n, G.get k q j = V k (row q) j)
    (hK0 : ∀ k < NL, ∀ j < n, K.get k j ≠ 0)
    (hA : ∀ k < NL, ∀ i < n, ∀ j < n, ∑ q ∈ range n, A k i q * V k q j = K.get k j * V k i j)
    (hr : ∀ k < NL, ∀ i < n, ∑ j ∈ range n, V k i j * g.get k j = r k i) (junk : Vec) (scale_tau : A1 ℝ) :
    ∃ v : ℕ → ℕ → ℝ → ℝ, (∀ k < NL, PolySolution n (A k) (r k) Nc (s.get k) (v k)) ∧
      Returns2 (mathscrCall junk tau scale_tau l Nc s G K g false) Q tau.n (fun q t => v (l.get t) (row q) (tau.get t)) := by
  obtain ⟨sr, sc, s⟩ := s
  obtain ⟨G0, G1, G2, G⟩ := G
  obtain ⟨Kr, Kc, K⟩ := K
  obtain ⟨gr, gc, g⟩ := g
  obtain ⟨rfl, rfl⟩ := hs
  obtain ⟨rfl, rfl, rfl⟩ := hG
  obtain ⟨rfl, rfl⟩ := hK
  obtain ⟨rfl, rfl⟩ := hg
  dsimp only at *
  refine ⟨fun k i t => mathscrV gc sc (s k) (V k) (K k) (g k) t i, fun k hk => ⟨fun i _ => mathscrV_poly hN _ _ _ _ i, fun i hi t => ?_⟩, ?_⟩
  · exact C07_polynomial_sources_solved_partial hN hN' (s k) (hK0 k hk) (hA k hk) (hr k hk) t hi
  · obtain ⟨B, h1, h2, h3, h4⟩ := mathscrCall_false (Nc := sc) (Q := G1) (n := gc) (s := s) (G := G) (K := K) (g := g) (tau := tau) (l := l) junk hl
      (fun t ht => hl' t (by omega)) scale_tau
    refine ⟨B, h1, h2, h3, fun q hq t ht => ?_⟩
    rw [h4 q hq t ht]
    dsimp only
    rw [mathscrV_eq hN, mathscrV_eq hN]
    refine sum_congr rfl fun k hk => ?_
    rw [hV _ (hl' t ht) q hq k (mem_range.mp hk)]

/-- **C97, in a call.** The same for the arrays of a call with an internal source: depths of the interior in any order, the layer of each, any selection of the
streams (all of them for `u` and `u0`, the upward or the downward ones for the fluxes). The polynomials solve the mode-zero system of the layer,
`v' = A v - S*(τ*) / μ`, and they are the only polynomials that do. -/
theorem C97_in_call (h : pydisort E J a = .ok R) (hS : Sound E a) (hsrc : ¬ NoSource a) {Q : ℕ} {row : ℕ → ℕ} (hrow : ∀ q < Q, row q < 2 * nHalf a)
    {tau : A1 ℝ} {l : A1 ℕ} (hl : l.n = tau.n) (hl' : ∀ t < tau.n, l.get t < a.tauArr.n) (junk : Vec) (scale_tau : A1 ℝ) :
    ∃ v : ℕ → ℕ → ℝ → ℝ, (∀ k < a.tauArr.n, PolySolution (2 * nHalf a) (coefMatrix a (node E a) (weight E a) 0 k)
        (fun i => (stream (nHalf a) (node E a) i)⁻¹) R.I.Nscoeffs (R.I.s k) (v k)) ∧
      (∀ k < a.tauArr.n, ∀ w, PolySolution (2 * nHalf a) (coefMatrix a (node E a) (weight E a) 0 k)
        (fun i => (stream (nHalf a) (node E a) i)⁻¹) R.I.Nscoeffs (R.I.s k) w → ∀ i < 2 * nHalf a, ∀ t, w i t = v k i t) ∧
      Returns2 (mathscrCall junk tau scale_tau l R.I.Nscoeffs ⟨a.tauArr.n, R.I.Nscoeffs, R.I.s⟩
        ⟨a.tauArr.n, Q, 2 * nHalf a, fun k q j => R.S.G 0 k (row q) j⟩ ⟨a.tauArr.n, 2 * nHalf a, R.S.K 0⟩ ⟨a.tauArr.n, 2 * nHalf a, R.S.Gim⟩ false)
        Q tau.n (fun q t => v (l.get t) (row q) (tau.get t)) := by
  obtain ⟨hacc, O, r, hO, hr, hI, hsol, _⟩ := pydisort_ok h
  have hgood := asm_good (r := r) hacc (Args.optics_spec hacc hO) hS.toNumerics
  have hm : 0 < nFourier a := by rw [← nFourier_eq]; exact hgood.F
  have hc : R.I.Nscoeffs = a.s.c := by rw [hI]; exact Args.nsc_of_iso (Args.iso_iff.2 hsrc)
  have hNc : 0 < R.I.Nscoeffs := by rw [hI]; exact Args.iso_iff.2 hsrc
  obtain ⟨v, hv, hret⟩ := C97_vectorised_particular_solution (NL := a.tauArr.n) (Nc := R.I.Nscoeffs) (Q := Q) (n := 2 * nHalf a) hNc
    (by rw [hc]; exact hS.degree.resolve_left hsrc) (s := ⟨a.tauArr.n, R.I.Nscoeffs, R.I.s⟩) ⟨rfl, rfl⟩
    (G := ⟨a.tauArr.n, Q, 2 * nHalf a, fun k q j => R.S.G 0 k (row q) j⟩) ⟨rfl, rfl, rfl⟩ (K := ⟨a.tauArr.n, 2 * nHalf a, R.S.K 0⟩)
    (g := ⟨a.tauArr.n, 2 * nHalf a, R.S.Gim⟩) ⟨rfl, rfl⟩ ⟨rfl, rfl⟩ hl hl' (A := fun k => coefMatrix a (node E a) (weight E a) 0 k) (V := fun k => R.S.G 0 k)
    (r := fun _ i => (stream (nHalf a) (node E a) i)⁻¹) hrow (fun _ _ _ _ _ _ => rfl)
    (fun k hk j hj => K_ne_zero_of h hS.toNumerics hm hk hj) (fun k hk => (C08_eigenvectors_diagonalise h hS.toNumerics hm hk).1)
    (fun k hk i hi => gim_spec h hS.toNumerics hsrc hk hi) junk scale_tau
  refine ⟨v, hv, fun k hk w hw => C97_solution_unique ?_ hw (hv k hk), hret⟩
  obtain ⟨hA, hdet, _⟩ := C08_eigenvectors_diagonalise h hS.toNumerics hm hk
  intro h0
  have e : toM (2 * nHalf a) (coefMatrix a (node E a) (weight E a) 0 k) * toM (2 * nHalf a) (R.S.G 0 k)
      = toM (2 * nHalf a) (R.S.G 0 k) * Matrix.diagonal (fun j : Fin (2 * nHalf a) => R.S.K 0 k j) := by
    ext i j
    rw [Matrix.mul_diagonal, Matrix.mul_apply]
    have := hA i i.2 j j.2
    rw [← Fin.sum_univ_eq_sum_range (fun q => coefMatrix a (node E a) (weight E a) 0 k i q * R.S.G 0 k q j)] at this
    exact this.trans (mul_comm _ _)
  have e2 := congrArg Matrix.det e
  rw [Matrix.det_mul, Matrix.det_mul, h0, zero_mul, Matrix.det_diagonal] at e2
  refine mul_ne_zero hdet (prod_ne_zero_iff.2 fun j _ => ?_) e2.symm
  exact K_ne_zero_of h hS.toNumerics hm hk j.2

/-- **C97, the antiderivative and more coefficients.** For any number of coefficients and both settings of the flag the array program does what the
pointwise model says: without the flag the entries are those of `mathscrV`, with the flag the outcome (the array or the exception of a broadcast that
fails) is that of `mathscrVAnti`. The other theorems about antiderivatives start from there. -/
theorem C97_array_program_is_the_model {NL Nc Q n : ℕ} {s : A2 ℝ} (hs : s.r = NL ∧ s.c = Nc) {G : A3 ℝ}
    (hG : G.d0 = NL ∧ G.d1 = Q ∧ G.d2 = n) {K g : A2 ℝ} (hK : K.r = NL ∧ K.c = n) (hg : g.r = NL ∧ g.c = n) {tau : A1 ℝ} {l : A1 ℕ}
    (hl : l.n = tau.n) (hl' : ∀ t < tau.n, l.get t < NL) (junk : Vec) (scale_tau : A1 ℝ) :
    Returns2 (mathscrCall junk tau scale_tau l Nc s G K g false) Q tau.n
      (fun q t => mathscrV n Nc (s.get (l.get t)) (G.get (l.get t)) (K.get (l.get t)) (g.get (l.get t)) (tau.get t) q) ∧
    SameOutcome A2.Same (mathscrCall junk tau scale_tau l Nc s G K g true) (mathscrVAnti n Nc Q tau scale_tau l s.get G.get K.get g.get) := by
  obtain ⟨sr, sc, s⟩ := s
  obtain ⟨G0, G1, G2, G⟩ := G
  obtain ⟨Kr, Kc, K⟩ := K
  obtain ⟨gr, gc, g⟩ := g
  obtain ⟨rfl, rfl⟩ := hs
  obtain ⟨rfl, rfl, rfl⟩ := hG
  obtain ⟨rfl, rfl⟩ := hK
  obtain ⟨rfl, rfl⟩ := hg
  exact ⟨mathscrCall_false junk hl (fun t ht => hl' t (by omega)) scale_tau, mathscrCall_true junk hl (fun t ht => hl' t (by omega)) scale_tau⟩

/-- The hypotheses are met: three depths in two layers, not in order, one repeated. -/
example {n : ℕ} (hn : 0 < n) (J : Junk) : ∃ (x : ℝ) (R : Solved), pydisort refExt J (demo n x) = .ok R ∧
    Sound refExt (demo n x) ∧ ¬ NoSource (demo n x) ∧ (∀ q < n, n + q < 2 * nHalf (demo n x)) ∧
    (⟨3, fun t => if t = 1 then 0 else 1⟩ : A1 ℕ).n = (⟨3, fun t => if t = 1 then 1 / 2 else 3 / 2⟩ : A1 ℝ).n ∧
    ∀ t < 3, (⟨3, fun t => if t = 1 then 0 else 1⟩ : A1 ℕ).get t < (demo n x).tauArr.n := by
  obtain ⟨x, R, h1, _, h2, _⟩ := demo_call hn J
  refine ⟨x, R, h1, h2, fun hh => ?_, ?_, rfl, ?_⟩
  · have := hh 0 (by norm_num [demo]) 0 (by norm_num [demo])
    norm_num [demo] at this
  · intro q hq; rw [demo_nHalf]; omega
  · intro t _
    dsimp only
    split_ifs <;> norm_num [demo]

end Pydisort

import Verif.Spec.Problem
import Verif.LegendreOrtho
import Mathlib.LinearAlgebra.Lagrange
import Mathlib.Analysis.Calculus.LocalExtr.Rolle
import Mathlib.MeasureTheory.Integral.IntervalIntegral.Basic

/-! The Gauss–Legendre rule exists for every number of nodes, and a choice function for eigenvector bases exists:
the contracts of the external routines are satisfiable. -/

namespace Pydisort
open Finset Spec Polynomial

/-- Rolle: `dʲ/dxʲ (x² - 1)ⁿ` has `j` distinct zeros inside `(-1, 1)`, and the zeros `±1` for `j < n`. -/
theorem rolle_roots (n j : ℕ) (hj : j < n) : ∃ y : ℕ → ℝ, y 0 = -1 ∧ y (j + 1) = 1 ∧ (∀ i ≤ j, y i < y (i + 1)) ∧
    ∀ i ≤ j + 1, (derivative^[j] (((X : ℝ[X]) ^ 2 - 1) ^ n)).eval (y i) = 0 := by
  have hz : ∀ j < n, (derivative^[j] (((X : ℝ[X]) ^ 2 - 1) ^ n)).eval 1 = 0 ∧
      (derivative^[j] (((X : ℝ[X]) ^ 2 - 1) ^ n)).eval (-1) = 0 := by
    intro j hj
    have := deriv_pow_zero hj 1
    rwa [mul_one] at this
  induction j with
  | zero =>
    refine ⟨fun i => if i = 0 then -1 else 1, by simp, by simp, ?_, ?_⟩
    · intro i hi
      have : i = 0 := by omega
      subst this; norm_num
    · intro i _
      have := hz 0 hj
      simp only
      split_ifs
      · exact this.2
      · exact this.1
  | succ j ih =>
    obtain ⟨y, h0, h1, hlt, hr⟩ := ih (by omega)
    have hex : ∀ i, ∃ c, i ≤ j → (y i < c ∧ c < y (i + 1)) ∧
        (derivative^[j + 1] (((X : ℝ[X]) ^ 2 - 1) ^ n)).eval c = 0 := by
      intro i
      by_cases hi : i ≤ j
      · set p := derivative^[j] (((X : ℝ[X]) ^ 2 - 1) ^ n) with hp
        obtain ⟨c, hc, hc'⟩ := exists_hasDerivAt_eq_zero (f := fun x => p.eval x) (f' := fun x => p.derivative.eval x)
          (hlt i hi) p.continuous.continuousOn (by rw [hr i (by omega), hr (i + 1) (by omega)])
          (fun x _ => p.hasDerivAt x)
        refine ⟨c, fun _ => ⟨hc, ?_⟩⟩
        rw [Function.iterate_succ_apply']
        exact hc'
      · exact ⟨0, fun h => absurd h hi⟩
    choose z hz' using hex
    refine ⟨fun i => if i = 0 then -1 else if i = j + 2 then 1 else z (i - 1), by simp, by simp, ?_, ?_⟩
    · intro i hi
      by_cases i0 : i = 0
      · subst i0
        have := (hz' 0 (by omega)).1.1
        rw [h0] at this
        simpa using this
      · by_cases ij : i = j + 1
        · subst ij
          have := (hz' j le_rfl).1.2
          rw [h1] at this
          simpa using this
        · have a1 := (hz' (i - 1) (by omega)).1.2
          have a2 := (hz' i (by omega)).1.1
          rw [show i - 1 + 1 = i by omega] at a1
          simp only [i0, if_false]
          rw [if_neg (by omega), if_neg (by omega), if_neg (by omega), Nat.add_sub_cancel]
          linarith
    · intro i hi
      have hh := hz (j + 1) hj
      simp only
      split_ifs with c1 c2
      · exact hh.2
      · exact hh.1
      · exact (hz' (i - 1) (by omega)).2

/-- `P_n` has `n` distinct zeros in `(-1, 1)`. -/
theorem legendre_roots (n : ℕ) : ∃ z : ℕ → ℝ, (∀ i < n, -1 < z i ∧ z i < 1) ∧ (∀ i j, i < j → j < n → z i < z j) ∧
    ∀ i < n, (legendreP n).eval (z i) = 0 := by
  rcases Nat.eq_zero_or_pos n with h | h
  · subst h; exact ⟨fun _ => 0, by simp, by simp, by simp⟩
  obtain ⟨k, rfl⟩ : ∃ k, n = k + 1 := ⟨n - 1, by omega⟩
  obtain ⟨y, h0, h1, hlt, hr⟩ := rolle_roots (k + 1) k (by omega)
  have hmono : ∀ i j, i ≤ j → j ≤ k + 1 → y i ≤ y j := by
    intro i j hij
    induction j with
    | zero => intro _; rw [Nat.le_zero.1 hij]
    | succ j ih =>
      intro hj
      rcases Nat.lt_or_ge i (j + 1) with h | h
      · exact (ih (by omega) (by omega)).trans (hlt j (by omega)).le
      · rw [show i = j + 1 by omega]
  have hex : ∀ i, ∃ c, i < k + 1 → (y i < c ∧ c < y (i + 1)) ∧ (legendreP (k + 1)).eval c = 0 := by
    intro i
    by_cases hi : i < k + 1
    · set p := derivative^[k] (((X : ℝ[X]) ^ 2 - 1) ^ (k + 1)) with hp
      obtain ⟨c, hc, hc'⟩ := exists_hasDerivAt_eq_zero (f := fun x => p.eval x) (f' := fun x => p.derivative.eval x)
        (hlt i (by omega)) p.continuous.continuousOn (by rw [hr i (by omega), hr (i + 1) (by omega)])
        (fun x _ => p.hasDerivAt x)
      refine ⟨c, fun _ => ⟨hc, ?_⟩⟩
      unfold legendreP
      rw [Function.iterate_succ_apply', eval_mul, hc', mul_zero]
    · exact ⟨0, fun h => absurd h hi⟩
  choose z hz using hex
  refine ⟨z, fun i hi => ?_, fun i j hij hj => ?_, fun i hi => (hz i hi).2⟩
  · have a1 := hmono 0 i (by omega) (by omega)
    have a2 := hmono (i + 1) (k + 1) (by omega) le_rfl
    have := (hz i hi).1
    rw [h0] at a1; rw [h1] at a2
    constructor <;> linarith [this.1, this.2]
  · have a1 := hmono (i + 1) j (by omega) (by omega)
    have b1 := (hz i (by omega)).1.2
    have b2 := (hz j hj).1.1
    linarith

theorem pint_sum {ι : Type} (s : Finset ι) (f : ι → ℝ[X]) : pint (∑ i ∈ s, f i) = ∑ i ∈ s, pint (f i) := by
  classical
  induction s using Finset.induction_on with
  | empty => simp [pint]
  | insert a s ha ih => rw [sum_insert ha, sum_insert ha, pint_add, ih]

theorem pint_pos_of_sq {p : ℝ[X]} (hp : p ≠ 0) : 0 < pint (p * p) := by
  unfold pint
  have hnn : ∀ x : ℝ, 0 ≤ (p * p).eval x := fun x => by rw [eval_mul]; exact mul_self_nonneg _
  have h0 : 0 ≤ ∫ x in (-1 : ℝ)..1, (p * p).eval x :=
    intervalIntegral.integral_nonneg (by norm_num) fun x _ => hnn x
  refine lt_of_le_of_ne h0 fun he => ?_
  -- a continuous non-negative function with zero integral vanishes on the interval, hence infinitely many roots
  have hex : ∃ c ∈ Set.Icc (-1 : ℝ) 1, 0 < (p * p).eval c := by
    by_contra hcon
    push Not at hcon
    have hroot : ∀ x ∈ Set.Icc (-1 : ℝ) 1, p.eval x = 0 := by
      intro x hx
      have h1 := le_antisymm (hcon x hx) (hnn x)
      rw [eval_mul] at h1
      exact mul_self_eq_zero.1 h1
    apply hp
    refine Polynomial.eq_zero_of_infinite_isRoot p ?_
    exact (Set.Icc_infinite (by norm_num : (-1 : ℝ) < 1)).mono fun x hx => hroot x hx
  have := intervalIntegral.integral_pos (by norm_num : (-1 : ℝ) < 1) (p * p).continuous.continuousOn (fun x _ => hnn x) hex
  rw [← he] at this
  exact lt_irrefl _ this

/-- Nodes and weights of a Gauss–Legendre rule. -/
theorem gauss_exists (n : ℕ) : ∃ x w : ℕ → ℝ, (∀ i < n, -1 < x i ∧ x i < 1) ∧ (∀ i < n, 0 < w i) ∧
    ∀ p : ℝ[X], p.natDegree ≤ 2 * n - 1 → 0 < n → ∑ i ∈ range n, w i * p.eval (x i) = pint p := by
  obtain ⟨z, hz, hlt, hroot⟩ := legendre_roots n
  have hinj : Set.InjOn z (range n : Finset ℕ) := by
    intro i hi j hj hij
    simp only [coe_range, Set.mem_Iio] at hi hj
    rcases lt_trichotomy i j with h | h | h
    · exact absurd hij (hlt i j h hj).ne
    · exact h
    · exact absurd hij (hlt j i h hi).ne'
  set w : ℕ → ℝ := fun i => pint (Lagrange.basis (range n) z i) with hw
  have hlow : ∀ p : ℝ[X], p.degree < n → ∑ i ∈ range n, w i * p.eval (z i) = pint p := by
    intro p hp
    have h1 := Lagrange.eq_interpolate (f := p) hinj (by rwa [card_range])
    conv_rhs => rw [h1]
    rw [Lagrange.interpolate_apply, pint_sum]
    exact sum_congr rfl fun i _ => by rw [pint_C_mul, mul_comm]
  have hnod : ∃ c, c ≠ 0 ∧ legendreP n = C c * Lagrange.nodal (range n) z := by
    have hc0 : (legendreP n).coeff n ≠ 0 := by
      rw [coeff_legendreP]
      have := Nat.factorial_pos n
      have := Nat.factorial_pos (2 * n)
      positivity
    refine ⟨(legendreP n).coeff n, hc0, ?_⟩
    rw [← sub_eq_zero]
    set q := legendreP n - C ((legendreP n).coeff n) * Lagrange.nodal (range n) z with hq
    have hd : (C ((legendreP n).coeff n) * Lagrange.nodal (range n) z).natDegree ≤ n := by
      refine (natDegree_C_mul_le _ _).trans ?_
      rw [Lagrange.natDegree_nodal, card_range]
    have hqd : q.natDegree ≤ n := (natDegree_sub_le _ _).trans (max_le (natDegree_legendreP n) hd)
    have hm : (Lagrange.nodal (range n) z).coeff n = 1 := by
      have := (Lagrange.nodal_monic (s := range n) (v := z)).coeff_natDegree
      rwa [Lagrange.natDegree_nodal, card_range] at this
    have hqc : q.coeff n = 0 := by rw [hq, coeff_sub, coeff_C_mul, hm, mul_one, sub_self]
    have hqr : ∀ i ∈ range n, q.eval (z i) = 0 := by
      intro i hi
      rw [hq, eval_sub, eval_mul, Lagrange.eval_nodal_at_node hi, mul_zero, sub_zero, hroot i (mem_range.1 hi)]
    rcases natDegree_legendreP_lt_of_coeff hqd hqc with h | h
    · exact h
    · refine Polynomial.eq_zero_of_degree_lt_of_eval_index_eq_zero (range n) hinj ?_ hqr
      rw [card_range]
      exact degree_lt_iff_coeff_zero _ _ |>.2 fun k hk => coeff_eq_zero_of_natDegree_lt (by omega)
  obtain ⟨c, hc0, hc⟩ := hnod
  have hex : ∀ p : ℝ[X], p.natDegree ≤ 2 * n - 1 → 0 < n → ∑ i ∈ range n, w i * p.eval (z i) = pint p := by
    intro p hp hn
    set N := Lagrange.nodal (range n) z with hN
    have hmon : N.Monic := Lagrange.nodal_monic
    have hNd : N.natDegree = n := by rw [hN, Lagrange.natDegree_nodal, card_range]
    have hdiv := modByMonic_add_div p N
    have hrem : (p %ₘ N).degree < n := by
      have := degree_modByMonic_lt p hmon
      rwa [degree_eq_natDegree hmon.ne_zero, hNd] at this
    have hquo : (p /ₘ N).natDegree < n := by
      rw [natDegree_divByMonic p hmon, hNd]; omega
    have hzero : pint (N * (p /ₘ N)) = 0 := by
      have h1 := pint_legendreP_lower hquo
      rw [hc, mul_assoc, pint_C_mul] at h1
      exact (mul_eq_zero.1 h1).resolve_left hc0
    rw [← hdiv, pint_add, hzero, add_zero, ← hlow _ hrem]
    refine sum_congr rfl fun i hi => ?_
    rw [eval_add, eval_mul, hN, Lagrange.eval_nodal_at_node hi, zero_mul, add_zero]
  refine ⟨z, w, hz, fun i hi => ?_, hex⟩
  have hbd : (Lagrange.basis (range n) z i).natDegree = n - 1 := by
    rw [Lagrange.natDegree_basis hinj (mem_range.2 hi), card_range]
  have h1 := hex (Lagrange.basis (range n) z i * Lagrange.basis (range n) z i)
    (natDegree_mul_le.trans (by omega)) (by omega)
  have h2 : ∑ j ∈ range n, w j * (Lagrange.basis (range n) z i * Lagrange.basis (range n) z i).eval (z j) = w i := by
    rw [sum_eq_single i]
    · rw [eval_mul, Lagrange.eval_basis_self hinj (mem_range.2 hi)]; ring
    · intro j hj hji
      rw [eval_mul, Lagrange.eval_basis_of_ne (Ne.symm hji) hj]; ring
    · intro h; exact absurd (mem_range.2 hi) h
  rw [← h2, h1]
  exact pint_pos_of_sq (Lagrange.basis_ne_zero hinj (mem_range.2 hi))

theorem isEigenBasis_congr {n : ℕ} {A B V : Mat} {d : Vec} (h : toM n A = toM n B) (hA : IsEigenBasis n A d V) :
    IsEigenBasis n B d V := by
  refine ⟨hA.1, fun i hi j hj => ?_⟩
  rw [← hA.2 i hi j hj]
  refine sum_congr rfl fun k hk => ?_
  have := congrFun (congrFun h ⟨i, hi⟩) ⟨k, mem_range.1 hk⟩
  simp only [toM] at this
  rw [this]

open Classical in
/-- External routines meeting their contracts, built by choice. -/
noncomputable def refExt : Ext where
  eig n M := if h : ∃ x : Vec × Mat, IsEigenBasis n (ofM n M) x.1 x.2 then h.choose else (fun _ => 0, fun _ _ => 0)
  leggauss n := ((gauss_exists n).choose, (gauss_exists n).choose_spec.choose)

theorem refExt_gauss {n : ℕ} (hn : 0 < n) : GaussContract refExt n := by
  obtain ⟨h1, h2, h3⟩ := (gauss_exists n).choose_spec.choose_spec
  exact ⟨h1, h2, fun p hp => h3 p hp hn⟩

theorem refExt_eig : EigContract refExt := by
  intro n A ⟨d, V, h⟩
  have e : toM n (ofM n (toM n A)) = toM n A := by
    ext i j
    simp [toM, ofM]
  have hex : ∃ x : Vec × Mat, IsEigenBasis n (ofM n (toM n A)) x.1 x.2 := ⟨(d, V), isEigenBasis_congr e.symm h⟩
  have : refExt.eig n (toM n A) = hex.choose := by
    unfold refExt
    simp only
    rw [dif_pos hex]
  rw [this]
  exact isEigenBasis_congr e hex.choose_spec

end Pydisort

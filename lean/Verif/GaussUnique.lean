import Verif.InterpLemmas
import Mathlib.Data.Finset.Sort

/-! There is only one Gauss rule with `n` nodes. -/

namespace Pydisort
open Finset Spec Polynomial

theorem sum_basis {n : ℕ} {x w : ℕ → ℝ} (hx : Set.InjOn x (range n : Finset ℕ)) {i : ℕ} (hi : i < n) (p : ℝ[X]) :
    ∑ k ∈ range n, w k * (Lagrange.basis (range n) x i * p).eval (x k) = w i * p.eval (x i) := by
  rw [sum_eq_single i]
  · rw [eval_mul, Lagrange.eval_basis_self hx (mem_range.2 hi), one_mul]
  · intro k hk hki
    rw [eval_mul, Lagrange.eval_basis_of_ne (Ne.symm hki) hk, zero_mul, mul_zero]
  · exact fun h => absurd (mem_range.2 hi) h

theorem natDegree_basis_le {n : ℕ} {x : ℕ → ℝ} (hx : Set.InjOn x (range n : Finset ℕ)) {i : ℕ} (hi : i < n) :
    (Lagrange.basis (range n) x i).natDegree ≤ n - 1 := by
  rw [natDegree_le_iff_degree_le, Lagrange.degree_basis hx (mem_range.2 hi), card_range]

/-- Every node of one rule is a node of the other. -/
theorem gauss_node_mem {E E' : Ext} {n : ℕ} (h : GaussContract E n) (h' : GaussContract E' n) {i : ℕ} (hi : i < n) :
    ∃ k < n, (E'.leggauss n).1 i = (E.leggauss n).1 k := by
  have hx' := gauss_injOn h'
  set q := Lagrange.nodal (range n) (E.leggauss n).1
  set b := Lagrange.basis (range n) (E'.leggauss n).1 i
  have hd : (b * q).natDegree ≤ 2 * n - 1 := by
    refine natDegree_mul_le.trans ?_
    have h1 : b.natDegree ≤ n - 1 := natDegree_basis_le hx' hi
    have h2 : q.natDegree = n := by rw [Lagrange.natDegree_nodal, card_range]
    omega
  have e := (h'.exact (b * q) hd).trans (h.exact (b * q) hd).symm
  rw [sum_basis hx' hi, sum_eq_zero (fun k hk => by rw [eval_mul, Lagrange.eval_nodal_at_node hk]; ring)] at e
  have := (mul_eq_zero.1 e).resolve_left (h'.weight i hi).ne'
  rw [Lagrange.eval_nodal, prod_eq_zero_iff] at this
  obtain ⟨k, hk, hk'⟩ := this
  exact ⟨k, mem_range.1 hk, sub_eq_zero.1 hk'⟩

/-- Two rules with increasing nodes are the same. -/
theorem gauss_unique {E E' : Ext} {n : ℕ} (h : GaussContract E n) (h' : GaussContract E' n) (hm : ∀ i j, i < j → j < n → (E.leggauss n).1 i < (E.leggauss n).1 j)
    (hm' : ∀ i j, i < j → j < n → (E'.leggauss n).1 i < (E'.leggauss n).1 j) :
    ∀ i < n, (E'.leggauss n).1 i = (E.leggauss n).1 i ∧ (E'.leggauss n).2 i = (E.leggauss n).2 i := by
  have hx := gauss_injOn h
  have hcard : ((range n).image (E.leggauss n).1).card = n := by rw [card_image_of_injOn hx, card_range]
  have e1 := orderEmbOfFin_unique hcard (f := fun i : Fin n => (E.leggauss n).1 i) (fun i => mem_image_of_mem _ (mem_range.2 i.2)) (fun i j hij => hm i j hij j.2)
  have e2 := orderEmbOfFin_unique hcard (f := fun i : Fin n => (E'.leggauss n).1 i) (fun i => by
    obtain ⟨k, hk, e⟩ := gauss_node_mem h h' i.2
    show (E'.leggauss n).1 i ∈ _
    rw [e]
    exact mem_image_of_mem _ (mem_range.2 hk)) (fun i j hij => hm' i j hij j.2)
  have hn : ∀ i < n, (E'.leggauss n).1 i = (E.leggauss n).1 i := fun i hi => congrFun (e2.trans e1.symm) ⟨i, hi⟩
  refine fun i hi => ⟨hn i hi, ?_⟩
  set b := Lagrange.basis (range n) (E.leggauss n).1 i
  have hd : (b * 1).natDegree ≤ 2 * n - 1 := by
    rw [mul_one]
    have : b.natDegree ≤ n - 1 := natDegree_basis_le hx hi
    omega
  have e := (h'.exact (b * 1) hd).trans (h.exact (b * 1) hd).symm
  rw [sum_congr rfl (fun k hk => by rw [hn k (mem_range.1 hk)]), sum_basis hx hi, sum_basis hx hi] at e
  simpa using e

end Pydisort

import Verif.Spec.Interp
import Verif.Subroutines.Interp
import Verif.GaussExists
import Mathlib.LinearAlgebra.Lagrange

/-! Gauss nodes are distinct; the barycentric formula evaluates the interpolation polynomial. -/

namespace Pydisort
open Finset Spec Polynomial

/-- The nodes of a rule that is exact to degree `2 n - 1` are distinct. -/
theorem gauss_injOn {E : Ext} {n : ℕ} (hE : GaussContract E n) : Set.InjOn (E.leggauss n).1 (range n : Finset ℕ) := by
  intro i hi j hj hij
  by_contra hne
  have hi' : i < n := by simpa using hi
  have hj' : j < n := by simpa using hj
  set x := (E.leggauss n).1
  let q : ℝ[X] := Lagrange.nodal ((range n).erase j) x
  have hq0 : q ≠ 0 := Lagrange.nodal_ne_zero
  have hdeg : q.natDegree = n - 1 := by
    rw [show q.natDegree = _ from Lagrange.natDegree_nodal, card_erase_of_mem (by simpa using hj'), card_range]
  have hz : ∀ k < n, q.eval (x k) = 0 := by
    intro k hk
    by_cases hkj : k = j
    · subst hkj
      rw [← hij]
      exact Lagrange.eval_nodal_at_node (by simp [hi', hne])
    · exact Lagrange.eval_nodal_at_node (by simp [hk, hkj])
  have he := hE.exact (q * q) (by rw [natDegree_mul hq0 hq0, hdeg]; omega)
  rw [sum_eq_zero (fun k hk => by rw [eval_mul, hz k (by simpa using hk)]; ring)] at he
  have hnn : ∀ y, 0 ≤ (q * q).eval y := fun y => by rw [eval_mul]; exact mul_self_nonneg _
  have hex : ∃ y ∈ Set.Icc (-1 : ℝ) 1, 0 < (q * q).eval y := by
    by_contra hno
    push Not at hno
    refine hq0 (Polynomial.eq_zero_of_infinite_isRoot q ?_)
    refine (Set.Icc_infinite (by norm_num : (-1 : ℝ) < 1)).mono fun y hy => ?_
    have := le_antisymm (hno y hy) (hnn y)
    rw [eval_mul] at this
    exact mul_self_eq_zero.mp this
  have := intervalIntegral.integral_pos (by norm_num : (-1 : ℝ) < 1) (q * q).continuous.continuousOn (fun y _ => hnn y) hex
  exact absurd he this.ne

theorem halfNode_injOn {E : Ext} {n : ℕ} (hE : GaussContract E n) : Set.InjOn (halfNode E n) (range n : Finset ℕ) := by
  intro i hi j hj h
  exact gauss_injOn hE hi hj (by unfold halfNode at h; linarith)

theorem halfNode_mem {E : Ext} {n : ℕ} (hE : GaussContract E n) {j : ℕ} (hj : j < n) : 0 < halfNode E n j ∧ halfNode E n j < 1 := by
  have := hE.node j hj
  unfold halfNode
  constructor <;> linarith

/-- The barycentric formula is the evaluation of the interpolation polynomial. -/
theorem barycentric_eq {n : ℕ} (hn : 0 < n) {xi : Vec} (hx : Set.InjOn xi (range n : Finset ℕ)) (yi : Vec) (x : ℝ) :
    barycentric n xi yi x = (Lagrange.interpolate (range n) xi yi).eval x := by
  unfold barycentric
  split_ifs with h
  · have h1 := h.choose_spec
    conv_rhs => rw [h1.2]
    rw [Lagrange.eval_interpolate_at_node yi hx (by simpa using h1.1)]
  · push Not at h
    rw [Lagrange.eval_interpolate_not_at_node' yi hx ⟨0, by simpa using hn⟩ (fun i hi => h i (by simpa using hi))]
    congr 1 <;> refine sum_congr rfl fun i _ => ?_
    · rw [Lagrange.nodalWeight, prod_inv_distrib, one_div, div_eq_mul_inv]
    · rw [Lagrange.nodalWeight, prod_inv_distrib, one_div, div_eq_mul_inv]

theorem interpolate_through {n : ℕ} {xi : Vec} (hx : Set.InjOn xi (range n : Finset ℕ)) (yi : Vec) :
    Through n xi yi (Lagrange.interpolate (range n) xi yi) :=
  ⟨by simpa using Lagrange.degree_interpolate_lt yi hx, fun j hj => Lagrange.eval_interpolate_at_node yi hx (by simpa using hj)⟩

/-- There is only one polynomial through given values. -/
theorem Through.unique {n : ℕ} {xi yi : Vec} (hx : Set.InjOn xi (range n : Finset ℕ)) {P Q : ℝ[X]} (hP : Through n xi yi P)
    (hQ : Through n xi yi Q) : P = Q :=
  Polynomial.eq_of_degrees_lt_of_eval_index_eq (range n) hx (by simpa using hP.1) (by simpa using hQ.1)
    fun i hi => by rw [hP.2 i (by simpa using hi), hQ.2 i (by simpa using hi)]

theorem interpNodes_ok {E : Ext} {N : ℕ} (hN : 0 < N) {U : UFn} {o : UOut}
    (hU : (match U with
      | .five f => f zero1 zero1 false false false
      | .four f => f zero1 false false false) = .ok o) (ho : o.values.r = 2 * N) :
    interpNodes E U = .ok (N, ⟨N, halfNode E N⟩) := by
  have e : interpNodes E U = (do
      let q ← gaussLegendreQuad E (o.values.r / 2) 0 1
      return (o.values.r / 2, q.1)) := by
    unfold interpNodes
    cases U with
    | five f => simp only at hU; simp only [hU, bind, Except.bind]
    | four f => simp only at hU; simp only [hU, bind, Except.bind]
  rw [e]
  simp only [bind, Except.bind]
  rw [ho, show 2 * N / 2 = N by omega]
  unfold gaussLegendreQuad
  rw [if_neg hN.ne']
  simp only [pure, Except.pure]
  have e2 : transformInterval ⟨N, (E.leggauss N).1⟩ 0 1 (-1) 1 = ⟨N, halfNode E N⟩ := by
    unfold transformInterval A1.map
    congr 1
    funext j
    unfold halfNode
    ring
  rw [e2]

theorem interpValues_ok {E : Ext} {N : ℕ} (hN : 0 < N) (hE : GaussContract E N) (mu : A1 ℝ) {v : A2 ℝ} (hv : v.r = 2 * N) :
    ∃ w, interpValues N ⟨N, halfNode E N⟩ mu v = .ok w ∧ w.r = mu.n ∧ w.c = v.c ∧ ∀ r,
      ∃ f, HemisphereInterpolant N (halfNode E N) (fun j => v.get j r) f ∧ ∀ i, w.get i r = f (mu.get i) := by
  have hx := halfNode_injOn hE
  have hx' : Set.InjOn (fun j => -halfNode E N j) (range N : Finset ℕ) := fun i hi j hj h => hx hi hj (neg_injective h)
  have e : interpValues N ⟨N, halfNode E N⟩ mu v = .ok ⟨mu.n, v.c, fun i r =>
      if 0 < mu.get i then barycentric N (halfNode E N) (fun j => v.get j r) (mu.get i)
      else barycentric N (fun j => -halfNode E N j) (fun j => v.get (N + j) r) (mu.get i)⟩ := by
    unfold interpValues
    rw [if_pos (by omega)]
  refine ⟨_, e, rfl, rfl, fun r =>
    ⟨fun m => if 0 < m then barycentric N (halfNode E N) (fun j => v.get j r) m
      else barycentric N (fun j => -halfNode E N j) (fun j => v.get (N + j) r) m,
      ⟨_, _, interpolate_through hx _, interpolate_through hx' _, fun m => ?_⟩, fun i => rfl⟩⟩
  beta_reduce
  rw [barycentric_eq hN hx, barycentric_eq hN hx']

end Pydisort

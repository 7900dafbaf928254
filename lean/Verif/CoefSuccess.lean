import Verif.AsmLemmas
import Verif.EigInv
import Verif.Energy

/-! The linear system for the coefficients is non-singular. -/

namespace Pydisort
open Finset

theorem CoefIn.lhs_det {c : CoefIn} (hN : 0 < c.N) (hL : 0 < c.NLayers) (hs : c.KSym) (h0 : c.tau0 0 = 0)
    (hT : ∀ l < c.NLayers, c.tau0 l < c.tau0 (l + 1)) {m : ℕ} (hm : m < c.NFourier) (R : Option Mat)
    {A : ℕ → Mat} {s : Vec} (hD : Dissipative c.N c.NLayers s A)
    (hA : ∀ l < c.NLayers, ∀ i < 2 * c.N, ∀ j < 2 * c.N,
      mulVec (2 * c.N) (A l) (fun q => c.G m l q j) i = c.K m l j * c.G m l i j)
    (hG : ∀ l < c.NLayers, (toM (2 * c.N) (c.G m l)).det ≠ 0)
    (hR : ∀ R', R = some R' → ∀ d : Vec,
      ∑ i ∈ range c.N, s i * (∑ q ∈ range c.N, R' i q * d q) ^ 2 ≤ ∑ i ∈ range c.N, s i * d i ^ 2) :
    (toM c.dim (c.lhs m R)).det ≠ 0 := by
  apply det_ne_zero_of_inj
  intro C hC
  have hl := lhs_isLhs hN hL m R
  have hd := c.dim_ge hL
  have e1 : ∀ i < c.N, c.hom C m 0 0 (c.N + i) = 0 := by
    intro i hi
    rw [← top_sum hL hs h0 hm, ← hC i (by omega)]
    exact sum_congr rfl fun j hj => by rw [hl.top i hi j (mem_range.mp hj)]
  have hbl : ∀ k < c.NLayers - 1, ∀ q < 2 * c.N, c.N + k * (2 * c.N) + q < c.dim := by
    intro k hk q hq
    have := c.block_le hk
    rw [Nat.succ_mul] at this; omega
  have e2 : ∀ k < c.NLayers - 1, ∀ q < 2 * c.N,
      c.hom C m k (c.tau0 (k + 1)) q = c.hom C m (k + 1) (c.tau0 (k + 1)) q := by
    intro k hk q hq
    rw [← sub_eq_zero, ← mid_sum hs hm C hk, ← hC _ (hbl k hk q hq)]
    exact sum_congr rfl fun j hj => by rw [hl.mid k hk q hq j (mem_range.mp hj)]
  have e3 : ∀ i < c.N, c.hom C m (c.NLayers - 1) (c.tau0 c.NLayers) i
        - (match (generalizing := false) R with
          | some R => ∑ q ∈ range c.N, R i q * c.hom C m (c.NLayers - 1) (c.tau0 c.NLayers) (c.N + q)
          | none => 0) = 0 := by
    intro i hi
    refine (bot_sum hL m R C i).symm.trans ?_
    rw [← hC (c.dim - c.N + i) (by omega)]
    exact sum_congr rfl fun j hj => by rw [hl.bot i hi j (mem_range.mp hj)]
  have hder : ∀ l < c.NLayers, ∀ t, ∀ i < 2 * c.N,
      HasDerivAt (fun t => c.hom C m l t i) (mulVec (2 * c.N) (A l) (c.hom C m l t) i) t := by
    intro l hl' t i hi
    refine (AsmIn.hasDerivAt_hom C m l t i).congr_deriv ?_
    unfold mulVec CoefIn.hom
    simp_rw [mul_sum]
    rw [sum_comm]
    refine sum_congr rfl fun j hj => ?_
    have := hA l hl' i hi j (mem_range.mp hj)
    rw [show c.K m l j * (c.G m l i j * C (l * (2 * c.N) + j) * c.expo m l t j)
      = (c.K m l j * c.G m l i j) * (C (l * (2 * c.N) + j) * c.expo m l t j) by ring, ← this]
    unfold mulVec
    rw [sum_mul]
    exact sum_congr rfl fun q _ => by ring
  have key := energy_zero (u := fun l t => c.hom C m l t) hL hD hT
    (fun l hl' i hi => fun t _ => (hder l hl' t i hi).continuousAt.continuousWithinAt)
    (fun l hl' t _ i hi => hder l hl' t i hi) (by rw [h0]; exact e1) e2 (by
      rcases R with _ | R'
      · have : ∑ i ∈ range c.N, s i * c.hom C m (c.NLayers - 1) (c.tau0 c.NLayers) i ^ 2 = 0 := by
          refine sum_eq_zero fun i hi => ?_
          have := e3 i (mem_range.mp hi)
          simp only [sub_zero] at this
          rw [this]; ring
        rw [this]
        exact sum_nonneg fun i hi => mul_nonneg (hD.pos i (mem_range.mp hi)).le (sq_nonneg _)
      · refine le_trans (le_of_eq ?_) (hR R' rfl (fun q => c.hom C m (c.NLayers - 1) (c.tau0 c.NLayers) (c.N + q)))
        refine sum_congr rfl fun i hi => ?_
        have := e3 i (mem_range.mp hi)
        rw [sub_eq_zero.mp this])
  intro k hk
  have h2N : 0 < 2 * c.N := by omega
  have hkl : k / (2 * c.N) < c.NLayers := Nat.div_lt_of_lt_mul (by unfold dim at hk; rwa [mul_comm] at hk)
  set l := k / (2 * c.N)
  set j := k % (2 * c.N)
  have hj : j < 2 * c.N := Nat.mod_lt _ h2N
  have hkj : l * (2 * c.N) + j = k := by rw [mul_comm]; exact Nat.div_add_mod k (2 * c.N)
  have hz : ∀ i < 2 * c.N, mulVec (2 * c.N) (c.G m l)
      (fun j => C (l * (2 * c.N) + j) * c.expo m l (c.tau0 l) j) i = 0 := by
    intro i hi
    rw [← key l hkl (c.tau0 l) (Set.left_mem_Icc.mpr (hT l hkl).le) i hi]
    unfold mulVec CoefIn.hom
    exact sum_congr rfl fun q _ => by ring
  have := inj_of_det (hG l hkl) hz j hj
  rw [hkj] at this
  rcases mul_eq_zero.mp this with h | h
  · exact h
  · exfalso
    unfold expo at h
    split_ifs at h <;> exact absurd h (Real.exp_pos _).ne'

end Pydisort

import Verif.CoefSolve

/-! Helper lemmas: solving the linear system is the same as satisfying the boundary and continuity
conditions. -/

namespace Pydisort
open Finset

namespace CoefIn
variable (I : CoefIn)

/-- Exponential factor of column `j` in layer `l` at depth `tau`. -/
noncomputable def expo (m l : ℕ) (tau : ℝ) (j : ℕ) : ℝ :=
  if j < I.N then Real.exp (I.K m l j * (tau - I.tau0 l)) else Real.exp (I.K m l j * (tau - I.tau0 (l + 1)))

/-- Homogeneous solution. -/
noncomputable def hom (C : Vec) (m l : ℕ) (tau : ℝ) (q : ℕ) : ℝ :=
  ∑ j ∈ range (2 * I.N), I.G m l q j * C (l * (2 * I.N) + j) * I.expo m l tau j

/-- Eigenvalues come in opposite pairs. -/
def KSym : Prop := ∀ m < I.NFourier, ∀ l < I.NLayers, ∀ j < I.N, I.K m l (I.N + j) = -I.K m l j

variable {I}

theorem sum_dim (f : ℕ → ℝ) : ∑ j ∈ range I.dim, f j
    = ∑ l ∈ range I.NLayers, ∑ j ∈ range (2 * I.N), f (l * (2 * I.N) + j) := by
  unfold dim; exact sum_range_mul' f I.NLayers (2 * I.N)

theorem top_sum (hL : 0 < I.NLayers) (hs : I.KSym) (h0 : I.tau0 0 = 0) {m : ℕ} (hm : m < I.NFourier) (C : Vec)
    (i : ℕ) : ∑ j ∈ range I.dim, I.topRow m i j * C j = I.hom C m 0 0 (I.N + i) := by
  rw [sum_dim, sum_eq_single 0]
  · unfold hom
    refine sum_congr rfl fun j hj => ?_
    rw [mem_range] at hj
    unfold topRow expo E01
    rw [Nat.zero_mul, Nat.zero_add]
    by_cases h1 : j < I.N
    · simp [h1, h0]
    · have := hs m hm 0 hL (j - I.N) (by omega)
      rw [show I.N + (j - I.N) = j by omega] at this
      simp only [h1, hj, if_true, if_false, this]
      rw [show -I.K m 0 (j - I.N) * (0 - I.tau0 (0 + 1)) = I.K m 0 (j - I.N) * I.tau0 1 by simp]
      ring
  · intro l _ hl
    refine sum_eq_zero fun j hj => ?_
    have : 2 * I.N ≤ l * (2 * I.N) := Nat.le_mul_of_pos_left _ (by omega)
    unfold topRow
    rw [if_neg (by omega), if_neg (by omega), zero_mul]
  · intro h; exact absurd (mem_range.mpr hL) h

theorem mid_sum (hs : I.KSym) {m : ℕ} (hm : m < I.NFourier) (C : Vec) {k : ℕ} (hk : k < I.NLayers - 1) (q : ℕ) :
    ∑ j ∈ range I.dim, I.midRow m k q j * C j
      = I.hom C m k (I.tau0 (k + 1)) q - I.hom C m (k + 1) (I.tau0 (k + 1)) q := by
  rw [sum_dim, sum_eq_add k (k + 1) (by omega)]
  · rw [sub_eq_add_neg]
    congr 1
    · unfold hom
      refine sum_congr rfl fun j hj => ?_
      rw [mem_range] at hj
      unfold midRow midBlock expo Elm1l
      rw [if_neg (by omega), Nat.add_sub_cancel_left]
      by_cases h1 : j < I.N
      · have := hs m hm k (by omega) j h1
        simp only [h1, if_true, this]
        rw [show -I.K m k j * (I.tau0 k - I.tau0 (k + 1)) = I.K m k j * (I.tau0 (k + 1) - I.tau0 k) by ring]
        ring
      · simp [h1, hj]
    · unfold hom
      rw [← sum_neg_distrib]
      refine sum_congr rfl fun j hj => ?_
      rw [mem_range] at hj
      unfold midRow midBlock expo Ellp1
      have e : (k + 1) * (2 * I.N) + j - k * (2 * I.N) = 2 * I.N + j := by rw [Nat.succ_mul]; omega
      have e0 : ¬ ((k + 1) * (2 * I.N) + j < k * (2 * I.N)) := by rw [Nat.succ_mul]; omega
      rw [if_neg e0, e]
      by_cases h1 : j < I.N
      · rw [if_neg (by omega), if_neg (by omega), if_pos (by omega), if_pos h1, Nat.add_sub_cancel_left]
        simp
      · rw [if_neg (by omega), if_neg (by omega), if_neg (by omega), if_pos (by omega), if_neg h1,
          Nat.add_sub_cancel_left, show 2 * I.N + j - 3 * I.N = j - I.N by omega,
          show I.N + (j - I.N) = j by omega]
        ring
  · intro l _ hl
    refine sum_eq_zero fun j hj => ?_
    rw [mem_range] at hj
    unfold midRow
    rcases lt_or_gt_of_ne hl.1 with h | h
    · have := mul_succ_le (c := 2 * I.N) h
      rw [if_pos (by omega), zero_mul]
    · have h2 : k + 2 ≤ l := by omega
      have := Nat.mul_le_mul_right (2 * I.N) h2
      rw [Nat.add_mul] at this
      unfold midBlock
      rw [if_neg (by omega), if_neg (by omega), if_neg (by omega), if_neg (by omega), if_neg (by omega), zero_mul]
  · intro h; simp at h; omega
  · intro h; simp at h; omega

theorem bot_sum (hL : 0 < I.NLayers) (m : ℕ) (R : Option Mat) (C : Vec) (i : ℕ) :
    ∑ j ∈ range I.dim, I.botRow m R i j * C j
      = I.hom C m (I.NLayers - 1) (I.tau0 I.NLayers) i
        - match R with
          | some R => ∑ q ∈ range I.N, R i q * I.hom C m (I.NLayers - 1) (I.tau0 I.NLayers) (I.N + q)
          | none => 0 := by
  have hd := I.dim_pred hL
  have hkey : ∀ j < 2 * I.N, I.botRow m R i ((I.NLayers - 1) * (2 * I.N) + j)
      = (I.G m (I.NLayers - 1) i j - match R with
          | some R => ∑ q ∈ range I.N, R i q * I.G m (I.NLayers - 1) (I.N + q) j
          | none => 0) * I.expo m (I.NLayers - 1) (I.tau0 I.NLayers) j := by
    intro j hj
    unfold botRow botL botR expo ELm1L
    rw [if_neg (by omega)]
    by_cases h1 : j < I.N
    · rw [if_pos (by omega), if_pos h1, show (I.NLayers - 1) * (2 * I.N) + j - (I.dim - 2 * I.N) = j by omega]
      cases R <;> simp
    · rw [if_neg (by omega), if_neg h1, show I.NLayers - 1 + 1 = I.NLayers by omega,
        show I.N + ((I.NLayers - 1) * (2 * I.N) + j - (I.dim - I.N)) = j by omega]
      cases R <;> simp
  rw [sum_dim, sum_eq_single (I.NLayers - 1)]
  · rw [sum_congr rfl (fun j hj => by rw [hkey j (mem_range.mp hj)])]
    unfold hom
    rcases R with _ | R
    · simp only [sub_zero]
      exact sum_congr rfl fun j _ => by ring
    · simp only [sub_mul, sum_sub_distrib]
      congr 1
      · exact sum_congr rfl fun j _ => by ring
      · simp only [sum_mul, mul_sum]
        rw [sum_comm]
        exact sum_congr rfl fun j _ => sum_congr rfl fun q _ => by ring
  · intro l hl hne
    refine sum_eq_zero fun j hj => ?_
    rw [mem_range] at hl hj
    have hlt : l < I.NLayers - 1 := by omega
    have := mul_succ_le (c := 2 * I.N) hlt
    unfold botRow
    rw [if_pos (by omega), zero_mul]
  · intro h; simp at h; omega

variable (I) in
/-- Full solution of mode `m` in layer `l`. -/
noncomputable def sol (C : ℕ → Vec) (m l : ℕ) (tau : ℝ) (q : ℕ) : ℝ :=
  I.hom (C m) m l tau q + I.part m l tau q

variable (I) in
/-- The boundary and continuity conditions for mode `m`. -/
structure BCs (m : ℕ) (R : Option Mat) (X bneg bpos : Vec) (u : ℕ → ℝ → Vec) : Prop where
  top : ∀ i < I.N, u 0 0 (I.N + i) = bneg i
  mid : ∀ k < I.NLayers - 1, ∀ q < 2 * I.N, u k (I.tau0 (k + 1)) q = u (k + 1) (I.tau0 (k + 1)) q
  bot : ∀ i < I.N, u (I.NLayers - 1) (I.tau0 I.NLayers) i = bpos i + match R with
    | some R => (∑ q ∈ range I.N, R i q * u (I.NLayers - 1) (I.tau0 I.NLayers) (I.N + q))
        + if I.beam = true then X i * Real.exp (-I.tau0 I.NLayers / I.mu0) else 0
    | none => 0

theorem system_iff (hN : 0 < I.N) (hL : 0 < I.NLayers) (hs : I.KSym) (h0 : I.tau0 0 = 0) {m : ℕ}
    (hm : m < I.NFourier) (R : Option Mat) (X bneg bpos r : Vec) (C : Vec) :
    (∀ i < I.dim, mulVec I.dim (I.lhs m R) C i = I.rhs m bneg bpos R X r i)
      ↔ I.BCs m R X bneg bpos (fun l tau q => I.hom C m l tau q + I.part m l tau q) := by
  have hl := lhs_isLhs hN hL m R
  have hd := I.dim_ge hL
  have e1 : ∀ i < I.N, mulVec I.dim (I.lhs m R) C i = I.hom C m 0 0 (I.N + i) := by
    intro i hi
    rw [← top_sum hL hs h0 hm]
    exact sum_congr rfl fun j hj => by rw [hl.top i hi j (mem_range.mp hj)]
  have e2 : ∀ k < I.NLayers - 1, ∀ q < 2 * I.N, mulVec I.dim (I.lhs m R) C (I.N + k * (2 * I.N) + q)
      = I.hom C m k (I.tau0 (k + 1)) q - I.hom C m (k + 1) (I.tau0 (k + 1)) q := by
    intro k hk q hq
    rw [← mid_sum hs hm C hk]
    exact sum_congr rfl fun j hj => by rw [hl.mid k hk q hq j (mem_range.mp hj)]
  have e3 : ∀ i < I.N, mulVec I.dim (I.lhs m R) C (I.dim - I.N + i)
      = I.hom C m (I.NLayers - 1) (I.tau0 I.NLayers) i
        - match (generalizing := false) R with
          | some R => ∑ q ∈ range I.N, R i q * I.hom C m (I.NLayers - 1) (I.tau0 I.NLayers) (I.N + q)
          | none => 0 := by
    intro i hi
    rw [← bot_sum hL]
    exact sum_congr rfl fun j hj => by rw [hl.bot i hi j (mem_range.mp hj)]
  have hbl : ∀ k < I.NLayers - 1, ∀ q < 2 * I.N, I.N + k * (2 * I.N) + q < I.dim := by
    intro k hk q hq
    have := I.block_le hk
    rw [Nat.succ_mul] at this; omega
  constructor
  · intro h
    constructor
    · intro i hi
      have := h i (by omega)
      rw [e1 i hi, rhs_top I hN hL m _ _ _ _ _ hi] at this
      linarith
    · intro k hk q hq
      have := h _ (hbl k hk q hq)
      rw [e2 k hk q hq, rhs_mid I m _ _ _ _ _ hk hq] at this
      linarith
    · intro i hi
      have := h (I.dim - I.N + i) (by omega)
      rw [e3 i hi, rhs_bot I hN hL m _ _ _ _ _ hi] at this
      rcases R with _ | R
      · simp only at this ⊢; linarith
      · simp only [mul_add, sum_add_distrib] at this ⊢; linarith
  · intro h i hi
    rcases row_cases hN hL hi with h1 | ⟨k, hk, q, hq, rfl⟩ | ⟨t, ht, rfl⟩
    · rw [e1 i h1, rhs_top I hN hL m _ _ _ _ _ h1]
      have := h.top i h1; linarith
    · rw [e2 k hk q hq, rhs_mid I m _ _ _ _ _ hk hq]
      have := h.mid k hk q hq; linarith
    · rw [e3 t ht, rhs_bot I hN hL m _ _ _ _ _ ht]
      have := h.bot t ht
      rcases R with _ | R
      · simp only at this ⊢; linarith
      · simp only [mul_add, sum_add_distrib] at this ⊢; linarith

end CoefIn
end Pydisort

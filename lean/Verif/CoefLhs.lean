import Verif.CoefRhs

/-! Helper lemmas: entries of the matrix assembled by `_solve_for_coeffs`, dense storage. -/

namespace Pydisort
open Finset

namespace CoefIn
variable (I : CoefIn)

/-- Row of the top boundary condition. -/
noncomputable def topRow (m i j : ℕ) : ℝ :=
  if j < I.N then I.G m 0 (I.N + i) j
  else if j < 2 * I.N then I.G m 0 (I.N + i) j * I.E01 m (j - I.N) else 0

/-- Row of the continuity condition between layers `k` and `k+1`; `j` is counted from the first column of
layer `k`. -/
noncomputable def midBlock (m k q j : ℕ) : ℝ :=
  if j < I.N then I.G m k q j * I.Elm1l m k j
  else if j < 2 * I.N then I.G m k q j
  else if j < 3 * I.N then -I.G m (k + 1) q (j - 2 * I.N)
  else if j < 4 * I.N then -I.G m (k + 1) q (j - 2 * I.N) * I.Ellp1 m k (j - 3 * I.N)
  else 0

/-- Row of the continuity condition. -/
noncomputable def midRow (m k q j : ℕ) : ℝ :=
  if j < k * (2 * I.N) then 0 else I.midBlock m k q (j - k * (2 * I.N))

/-- Row of the bottom boundary condition. -/
noncomputable def botRow (m : ℕ) (R : Option Mat) (i j : ℕ) : ℝ :=
  if j < I.dim - 2 * I.N then 0
  else if j < I.dim - I.N then I.botL m R i (j - (I.dim - 2 * I.N))
  else I.botR m R i (j - (I.dim - I.N))

/-- The matrix of mode `m`. -/
structure IsLhs (m : ℕ) (R : Option Mat) (A : Mat) : Prop where
  top : ∀ i < I.N, ∀ j < I.dim, A i j = I.topRow m i j
  mid : ∀ k < I.NLayers - 1, ∀ q < 2 * I.N, ∀ j < I.dim, A (I.N + k * (2 * I.N) + q) j = I.midRow m k q j
  bot : ∀ i < I.N, ∀ j < I.dim, A (I.dim - I.N + i) j = I.botRow m R i j

/-- Zero outside the pattern. -/
structure LhsZero (A : Mat) : Prop where
  top : ∀ i < I.N, ∀ j < I.dim, 2 * I.N ≤ j → A i j = 0
  mid : ∀ k < I.NLayers - 1, ∀ q < 2 * I.N, ∀ j < I.dim,
    (j < k * (2 * I.N) ∨ k * (2 * I.N) + 4 * I.N ≤ j) → A (I.N + k * (2 * I.N) + q) j = 0
  bot : ∀ i < I.N, ∀ j < I.dim, j < I.dim - 2 * I.N → A (I.dim - I.N + i) j = 0

variable {I}

theorem IsLhs.zero {m : ℕ} {R : Option Mat} {A : Mat} (h : I.IsLhs m R A) : I.LhsZero A := by
  constructor
  · intro i hi j hj h2
    rw [h.top i hi j hj, topRow, if_neg (by omega), if_neg (by omega)]
  · intro k hk q hq j hj hc
    rw [h.mid k hk q hq j hj]
    unfold midRow midBlock
    rcases hc with hc | hc
    · rw [if_pos hc]
    · rw [if_neg (by omega), if_neg (by omega), if_neg (by omega), if_neg (by omega), if_neg (by omega)]
  · intro i hi j hj h2
    rw [h.bot i hi j hj, botRow, if_pos h2]

/-- Rows that an iteration of the interlayer loop leaves alone. -/
theorem denseInter_other {m l i : ℕ} (A : Mat)
    (hi : i < I.N + l * (2 * I.N) ∨ I.N + l * (2 * I.N) + 2 * I.N ≤ i) (j : ℕ) :
    I.denseInter m l A i j = A i j := by
  unfold denseInter
  generalize l * (2 * I.N) = c at *
  simp only [setBlock]
  have h1 : ¬ (I.N + c ≤ i ∧ i < I.N + (I.N + c)) := by omega
  have h2 : ¬ (I.N + (I.N + c) ≤ i ∧ i < 2 * I.N + (I.N + c)) := by omega
  have h3 : ¬ (I.N + c ≤ i ∧ i < 2 * I.N + (I.N + c)) := by omega
  simp only [h1, h2, h3, false_and, if_false]

/-- Rows that an iteration writes. -/
theorem denseInter_row {m l q : ℕ} (A : Mat) (hq : q < 2 * I.N) (j : ℕ) :
    I.denseInter m l A (I.N + l * (2 * I.N) + q) j
      = if l * (2 * I.N) ≤ j ∧ j < l * (2 * I.N) + 4 * I.N then I.midBlock m l q (j - l * (2 * I.N))
        else A (I.N + l * (2 * I.N) + q) j := by
  unfold denseInter midBlock
  generalize l * (2 * I.N) = c at *
  simp only [setBlock]
  have e1 : I.N + c + q - (I.N + c) = q := by omega
  have e2 : j - (2 * I.N + c) = j - c - 2 * I.N := by omega
  have e3 : j - (3 * I.N + c) = j - c - 3 * I.N := by omega
  have h3 : (I.N + c ≤ I.N + c + q ∧ I.N + c + q < 2 * I.N + (I.N + c)) := by omega
  by_cases c4 : c ≤ j ∧ j < c + 4 * I.N
  swap
  · have g1 : ¬ (3 * I.N + c ≤ j ∧ j < 4 * I.N + c) := by omega
    have g2 : ¬ (2 * I.N + c ≤ j ∧ j < 3 * I.N + c) := by omega
    have g3 : ¬ (I.N + c ≤ j ∧ j < 2 * I.N + c) := by omega
    have g4 : ¬ (c ≤ j ∧ j < I.N + c) := by omega
    simp only [c4, g1, g2, g3, g4, and_false, if_false]
  simp only [c4, and_self, if_true]
  have hqc : (q < I.N ∧ (I.N + c ≤ I.N + c + q ∧ I.N + c + q < I.N + (I.N + c)) ∧
        ¬ (I.N + (I.N + c) ≤ I.N + c + q ∧ I.N + c + q < 2 * I.N + (I.N + c))) ∨
      (I.N + (I.N + c + q - (I.N + (I.N + c))) = q ∧
        ¬ (I.N + c ≤ I.N + c + q ∧ I.N + c + q < I.N + (I.N + c)) ∧
        (I.N + (I.N + c) ≤ I.N + c + q ∧ I.N + c + q < 2 * I.N + (I.N + c))) := by omega
  by_cases g4 : j < I.N + c
  · have a1 : ¬ (3 * I.N + c ≤ j) := by omega
    have a2 : ¬ (2 * I.N + c ≤ j) := by omega
    have a3 : ¬ (I.N + c ≤ j) := by omega
    have a4 : j - c < I.N := by omega
    rcases hqc with ⟨_, b1, b2⟩ | ⟨e4, b1, b2⟩
    · simp only [a1, a2, a3, a4, b1, b2, c4.1, g4, e1, false_and, and_false, if_false, if_true, and_self]
    · simp only [a1, a2, a3, a4, b1, b2, c4.1, g4, e4, false_and, and_false, if_false, if_true, and_self]
  by_cases g3 : j < 2 * I.N + c
  · have a1 : ¬ (3 * I.N + c ≤ j) := by omega
    have a2 : ¬ (2 * I.N + c ≤ j) := by omega
    have a3 : (I.N + c ≤ j) := by omega
    have a4 : ¬ j - c < I.N := by omega
    have a5 : j - c < 2 * I.N := by omega
    have e5 : I.N + (j - (I.N + c)) = j - c := by omega
    simp only [a1, a2, a3, a4, a5, h3, g3, e1, e5, false_and, and_false, if_false, if_true, and_self]
  by_cases g2 : j < 3 * I.N + c
  · have a1 : ¬ (3 * I.N + c ≤ j) := by omega
    have a2 : (2 * I.N + c ≤ j) := by omega
    have a4 : ¬ j - c < I.N := by omega
    have a5 : ¬ j - c < 2 * I.N := by omega
    have a6 : j - c < 3 * I.N := by omega
    simp only [a1, a2, a4, a5, a6, h3, g2, e1, e2, false_and, and_false, if_false, if_true, and_self]
  · have a1 : (3 * I.N + c ≤ j) := by omega
    have a4 : ¬ j - c < I.N := by omega
    have a5 : ¬ j - c < 2 * I.N := by omega
    have a6 : ¬ j - c < 3 * I.N := by omega
    have a7 : j - c < 4 * I.N := by omega
    have a8 : j < 4 * I.N + c := by omega
    have e5 : I.N + (j - c - 3 * I.N) = j - c - 2 * I.N := by omega
    rcases hqc with ⟨_, b1, b2⟩ | ⟨e4, b1, b2⟩
    · simp only [a1, a4, a5, a6, a7, a8, b1, b2, e1, e3, e5, false_and, and_false, if_false, if_true, and_self]
    · simp only [a1, a4, a5, a6, a7, a8, b1, b2, e3, e4, e5, false_and, and_false, if_false, if_true, and_self]

theorem mul_succ_le {a b c : ℕ} (h : a < b) : a * c + c ≤ b * c := by
  rw [← Nat.succ_mul]; exact Nat.mul_le_mul_right _ h

theorem dense_spec (hN : 0 < I.N) (hL : 0 < I.NLayers) (m : ℕ) (R : Option Mat) {A : Mat} (hA : I.LhsZero A) :
    I.IsLhs m R (I.dense m R A) := by
  have hd := I.dim_ge hL
  have hdp := I.dim_pred hL
  unfold dense
  set A0 := setBlock (setBlock (setBlock (setBlock A 0 I.N 0 I.N (fun i j => I.G m 0 (I.N + i) j))
    0 I.N I.N (2 * I.N) (fun i j => I.G m 0 (I.N + i) (I.N + j) * I.E01 m j))
    (I.dim - I.N) I.dim (I.dim - 2 * I.N) (I.dim - I.N) (I.botL m R))
    (I.dim - I.N) I.dim (I.dim - I.N) I.dim (I.botR m R) with hA0
  have inv := forRange_inv (n := I.NLayers - 1) (f := fun l A => I.denseInter m l A) (s := A0)
    (fun k B => (∀ i j, (i < I.N ∨ I.N + k * (2 * I.N) ≤ i) → B i j = A0 i j) ∧
      (∀ k' < k, ∀ q < 2 * I.N, ∀ j < I.dim, B (I.N + k' * (2 * I.N) + q) j = I.midRow m k' q j))
    ⟨fun _ _ _ => rfl, fun k' hk' => by omega⟩ (by
      intro k hk B hB
      constructor
      · intro i j hij
        rw [Nat.succ_mul] at hij
        rw [denseInter_other _ (by omega), hB.1 _ _ (by omega)]
      · intro k' hk' q hq j hj
        by_cases h : k' = k
        · subst h
          rw [denseInter_row _ hq, hB.1 _ _ (by omega)]
          have hz : A0 (I.N + k' * (2 * I.N) + q) j = A (I.N + k' * (2 * I.N) + q) j := by
            have hbl := mul_succ_le (c := 2 * I.N) hk
            have h1 : ¬ (I.N + k' * (2 * I.N) + q < I.N) := by omega
            have h2 : ¬ (I.dim - I.N ≤ I.N + k' * (2 * I.N) + q) := by omega
            rw [hA0]
            simp only [setBlock, h1, h2, false_and, and_false, if_false]
          unfold midRow
          split_ifs with h1 h2 h2
          · omega
          · rfl
          · rw [hz]; exact hA.mid k' hk q hq j hj (by omega)
          · rw [hz, hA.mid k' hk q hq j hj (by omega)]
            unfold midBlock
            rw [if_neg (by omega), if_neg (by omega), if_neg (by omega), if_neg (by omega)]
        · have hlt : k' < k := by omega
          have hbl := mul_succ_le (c := 2 * I.N) hlt
          rw [denseInter_other _ (by omega)]
          exact hB.2 k' hlt q hq j hj)
  generalize forRange (I.NLayers - 1) (fun l A => I.denseInter m l A) A0 = F at inv
  obtain ⟨h1, h2⟩ := inv
  constructor
  · intro i hi j hj
    rw [h1 i j (Or.inl hi), hA0]
    have g1 : ¬ (I.dim - I.N ≤ i) := by omega
    unfold topRow
    simp only [setBlock, g1, hi, false_and, if_false, Nat.zero_le, true_and, Nat.sub_zero]
    split_ifs <;> first | (exfalso; omega) | rfl | skip
    · rw [show I.N + (j - I.N) = j by omega]
    · exact hA.top i hi j hj (by omega)
  · exact h2
  · intro i hi j hj
    rw [h1 _ j (Or.inr (by omega)), hA0]
    have g1 : (I.dim - I.N ≤ I.dim - I.N + i) := by omega
    have g2 : (I.dim - I.N + i < I.dim) := by omega
    have g3 : ¬ (I.dim - I.N + i < I.N) := by omega
    have g4 : I.dim - I.N + i - (I.dim - I.N) = i := by omega
    unfold botRow
    simp only [setBlock, g1, g2, g3, g4, and_false, false_and, if_false, true_and, and_true]
    split_ifs <;> first | (exfalso; omega) | rfl | skip
    · exact hA.bot i hi j hj (by omega)

end CoefIn
end Pydisort

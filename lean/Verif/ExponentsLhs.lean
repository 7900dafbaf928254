import Verif.Model.Exponents
import Verif.CoefSolve

/-! Helper lemmas: entries of the matrix assembled by `_solve_for_coeffs` for any values of the exponentials. -/

namespace Pydisort
open Finset

namespace CoefIn
variable (I : CoefIn) (ex : ℝ → ℝ)

/-- Row of the top boundary condition. -/
noncomputable def topRowX (m i j : ℕ) : ℝ :=
  if j < I.N then I.G m 0 (I.N + i) j
  else if j < 2 * I.N then I.G m 0 (I.N + i) j * I.E01X ex m (j - I.N) else 0

/-- Row of the continuity condition between layers `k` and `k+1`; `j` is counted from the first column of
layer `k`. -/
noncomputable def midBlockX (m k q j : ℕ) : ℝ :=
  if j < I.N then I.G m k q j * I.Elm1lX ex m k j
  else if j < 2 * I.N then I.G m k q j
  else if j < 3 * I.N then -I.G m (k + 1) q (j - 2 * I.N)
  else if j < 4 * I.N then -I.G m (k + 1) q (j - 2 * I.N) * I.Ellp1X ex m k (j - 3 * I.N)
  else 0

/-- Row of the continuity condition. -/
noncomputable def midRowX (m k q j : ℕ) : ℝ :=
  if j < k * (2 * I.N) then 0 else I.midBlockX ex m k q (j - k * (2 * I.N))

/-- Row of the bottom boundary condition. -/
noncomputable def botRowX (m : ℕ) (R : Option Mat) (i j : ℕ) : ℝ :=
  if j < I.dim - 2 * I.N then 0
  else if j < I.dim - I.N then I.botLX ex m R i (j - (I.dim - 2 * I.N))
  else I.botR m R i (j - (I.dim - I.N))

/-- The matrix of mode `m`. -/
structure IsLhsX (m : ℕ) (R : Option Mat) (A : Mat) : Prop where
  top : ∀ i < I.N, ∀ j < I.dim, A i j = I.topRowX ex m i j
  mid : ∀ k < I.NLayers - 1, ∀ q < 2 * I.N, ∀ j < I.dim, A (I.N + k * (2 * I.N) + q) j = I.midRowX ex m k q j
  bot : ∀ i < I.N, ∀ j < I.dim, A (I.dim - I.N + i) j = I.botRowX ex m R i j

variable {I} {ex}

theorem IsLhsX.zero {m : ℕ} {R : Option Mat} {A : Mat} (h : I.IsLhsX ex m R A) : I.LhsZero A := by
  constructor
  · intro i hi j hj h2
    rw [h.top i hi j hj, topRowX, if_neg (by omega), if_neg (by omega)]
  · intro k hk q hq j hj hc
    rw [h.mid k hk q hq j hj]
    unfold midRowX midBlockX
    rcases hc with hc | hc
    · rw [if_pos hc]
    · rw [if_neg (by omega), if_neg (by omega), if_neg (by omega), if_neg (by omega), if_neg (by omega)]
  · intro i hi j hj h2
    rw [h.bot i hi j hj, botRowX, if_pos h2]

/-- Rows that an iteration of the interlayer loop leaves alone. -/
theorem denseXInter_other {m l i : ℕ} (A : Mat)
    (hi : i < I.N + l * (2 * I.N) ∨ I.N + l * (2 * I.N) + 2 * I.N ≤ i) (j : ℕ) :
    I.denseInterX ex m l A i j = A i j := by
  unfold denseInterX
  generalize l * (2 * I.N) = c at *
  simp only [setBlock]
  have h1 : ¬ (I.N + c ≤ i ∧ i < I.N + (I.N + c)) := by omega
  have h2 : ¬ (I.N + (I.N + c) ≤ i ∧ i < 2 * I.N + (I.N + c)) := by omega
  have h3 : ¬ (I.N + c ≤ i ∧ i < 2 * I.N + (I.N + c)) := by omega
  simp only [h1, h2, h3, false_and, if_false]

/-- Rows that an iteration writes. -/
theorem denseXInter_row {m l q : ℕ} (A : Mat) (hq : q < 2 * I.N) (j : ℕ) :
    I.denseInterX ex m l A (I.N + l * (2 * I.N) + q) j
      = if l * (2 * I.N) ≤ j ∧ j < l * (2 * I.N) + 4 * I.N then I.midBlockX ex m l q (j - l * (2 * I.N))
        else A (I.N + l * (2 * I.N) + q) j := by
  unfold denseInterX midBlockX
  generalize l * (2 * I.N) = c at *
  simp only [setBlock]
  have e1 : I.N + c + q - (I.N + c) = q := by omega
  have e2 : j - (2 * I.N + c) = j - c - 2 * I.N := by omega
  have e3 : j - (3 * I.N + c) = j - c - 3 * I.N := by omega
  have h3 : (I.N + c ≤ I.N + c + q ∧ I.N + c + q < 2 * I.N + (I.N + c)) := by omega
  by_cases c4 : c ≤ j ∧ j < c + 4 * I.N
  swap
  · have g1 : ¬ (3 * I.N + c ≤ j ∧ j < 4 * I.N + c) := by omega
    have g2 : ¬ (2 * I.N + c ≤ j ∧ j < 3 * I.N + c) := by omega
    have g3 : ¬ (I.N + c ≤ j ∧ j < 2 * I.N + c) := by omega
    have g4 : ¬ (c ≤ j ∧ j < I.N + c) := by omega
    simp only [c4, g1, g2, g3, g4, and_false, if_false]
  simp only [c4, and_self, if_true]
  have hqc : (q < I.N ∧ (I.N + c ≤ I.N + c + q ∧ I.N + c + q < I.N + (I.N + c)) ∧
        ¬ (I.N + (I.N + c) ≤ I.N + c + q ∧ I.N + c + q < 2 * I.N + (I.N + c))) ∨
      (I.N + (I.N + c + q - (I.N + (I.N + c))) = q ∧
        ¬ (I.N + c ≤ I.N + c + q ∧ I.N + c + q < I.N + (I.N + c)) ∧
        (I.N + (I.N + c) ≤ I.N + c + q ∧ I.N + c + q < 2 * I.N + (I.N + c))) := by omega
  by_cases g4 : j < I.N + c
  · have a1 : ¬ (3 * I.N + c ≤ j) := by omega
    have a2 : ¬ (2 * I.N + c ≤ j) := by omega
    have a3 : ¬ (I.N + c ≤ j) := by omega
    have a4 : j - c < I.N := by omega
    rcases hqc with ⟨_, b1, b2⟩ | ⟨e4, b1, b2⟩
    · simp only [a1, a2, a3, a4, b1, b2, c4.1, g4, e1, false_and, and_false, if_false, if_true, and_self]
    · simp only [a1, a2, a3, a4, b1, b2, c4.1, g4, e4, false_and, and_false, if_false, if_true, and_self]
  by_cases g3 : j < 2 * I.N + c
  · have a1 : ¬ (3 * I.N + c ≤ j) := by omega
    have a2 : ¬ (2 * I.N + c ≤ j) := by omega
    have a3 : (I.N + c ≤ j) := by omega
    have a4 : ¬ j - c < I.N := by omega
    have a5 : j - c < 2 * I.N := by omega
    have e5 : I.N + (j - (I.N + c)) = j - c := by omega
    simp only [a1, a2, a3, a4, a5, h3, g3, e1, e5, false_and, and_false, if_false, if_true, and_self]
  by_cases g2 : j < 3 * I.N + c
  · have a1 : ¬ (3 * I.N + c ≤ j) := by omega
    have a2 : (2 * I.N + c ≤ j) := by omega
    have a4 : ¬ j - c < I.N := by omega
    have a5 : ¬ j - c < 2 * I.N := by omega
    have a6 : j - c < 3 * I.N := by omega
    simp only [a1, a2, a4, a5, a6, h3, g2, e1, e2, false_and, and_false, if_false, if_true, and_self]
  · have a1 : (3 * I.N + c ≤ j) := by omega
    have a4 : ¬ j - c < I.N := by omega
    have a5 : ¬ j - c < 2 * I.N := by omega
    have a6 : ¬ j - c < 3 * I.N := by omega
    have a7 : j - c < 4 * I.N := by omega
    have a8 : j < 4 * I.N + c := by omega
    have e5 : I.N + (j - c - 3 * I.N) = j - c - 2 * I.N := by omega
    rcases hqc with ⟨_, b1, b2⟩ | ⟨e4, b1, b2⟩
    · simp only [a1, a4, a5, a6, a7, a8, b1, b2, e1, e3, e5, false_and, and_false, if_false, if_true, and_self]
    · simp only [a1, a4, a5, a6, a7, a8, b1, b2, e3, e4, e5, false_and, and_false, if_false, if_true, and_self]

theorem denseX_spec (hN : 0 < I.N) (hL : 0 < I.NLayers) (m : ℕ) (R : Option Mat) {A : Mat} (hA : I.LhsZero A) :
    I.IsLhsX ex m R (I.denseX ex m R A) := by
  have hd := I.dim_ge hL
  have hdp := I.dim_pred hL
  unfold denseX
  set A0 := setBlock (setBlock (setBlock (setBlock A 0 I.N 0 I.N (fun i j => I.G m 0 (I.N + i) j))
    0 I.N I.N (2 * I.N) (fun i j => I.G m 0 (I.N + i) (I.N + j) * I.E01X ex m j))
    (I.dim - I.N) I.dim (I.dim - 2 * I.N) (I.dim - I.N) (I.botLX ex m R))
    (I.dim - I.N) I.dim (I.dim - I.N) I.dim (I.botR m R) with hA0
  have inv := forRange_inv (n := I.NLayers - 1) (f := fun l A => I.denseInterX ex m l A) (s := A0)
    (fun k B => (∀ i j, (i < I.N ∨ I.N + k * (2 * I.N) ≤ i) → B i j = A0 i j) ∧
      (∀ k' < k, ∀ q < 2 * I.N, ∀ j < I.dim, B (I.N + k' * (2 * I.N) + q) j = I.midRowX ex m k' q j))
    ⟨fun _ _ _ => rfl, fun k' hk' => by omega⟩ (by
      intro k hk B hB
      constructor
      · intro i j hij
        rw [Nat.succ_mul] at hij
        rw [denseXInter_other _ (by omega), hB.1 _ _ (by omega)]
      · intro k' hk' q hq j hj
        by_cases h : k' = k
        · subst h
          rw [denseXInter_row _ hq, hB.1 _ _ (by omega)]
          have hz : A0 (I.N + k' * (2 * I.N) + q) j = A (I.N + k' * (2 * I.N) + q) j := by
            have hbl := mul_succ_le (c := 2 * I.N) hk
            have h1 : ¬ (I.N + k' * (2 * I.N) + q < I.N) := by omega
            have h2 : ¬ (I.dim - I.N ≤ I.N + k' * (2 * I.N) + q) := by omega
            rw [hA0]
            simp only [setBlock, h1, h2, false_and, and_false, if_false]
          unfold midRowX
          split_ifs with h1 h2 h2
          · omega
          · rfl
          · rw [hz]; exact hA.mid k' hk q hq j hj (by omega)
          · rw [hz, hA.mid k' hk q hq j hj (by omega)]
            unfold midBlockX
            rw [if_neg (by omega), if_neg (by omega), if_neg (by omega), if_neg (by omega)]
        · have hlt : k' < k := by omega
          have hbl := mul_succ_le (c := 2 * I.N) hlt
          rw [denseXInter_other _ (by omega)]
          exact hB.2 k' hlt q hq j hj)
  generalize forRange (I.NLayers - 1) (fun l A => I.denseInterX ex m l A) A0 = F at inv
  obtain ⟨h1, h2⟩ := inv
  constructor
  · intro i hi j hj
    rw [h1 i j (Or.inl hi), hA0]
    have g1 : ¬ (I.dim - I.N ≤ i) := by omega
    unfold topRowX
    simp only [setBlock, g1, hi, false_and, if_false, Nat.zero_le, true_and, Nat.sub_zero]
    split_ifs <;> first | (exfalso; omega) | rfl | skip
    · rw [show I.N + (j - I.N) = j by omega]
    · exact hA.top i hi j hj (by omega)
  · exact h2
  · intro i hi j hj
    rw [h1 _ j (Or.inr (by omega)), hA0]
    have g1 : (I.dim - I.N ≤ I.dim - I.N + i) := by omega
    have g2 : (I.dim - I.N + i < I.dim) := by omega
    have g3 : ¬ (I.dim - I.N + i < I.N) := by omega
    have g4 : I.dim - I.N + i - (I.dim - I.N) = i := by omega
    unfold botRowX
    simp only [setBlock, g1, g2, g3, g4, and_false, false_and, if_false, true_and, and_true]
    split_ifs <;> first | (exfalso; omega) | rfl | skip
    · exact hA.bot i hi j hj (by omega)

theorem Rel.interX {A : Mat} {mem : ℤ → ℝ} (h : Rel I A mem) (hN : 0 < I.N) (m : ℕ) {l : ℕ} (hl : l < I.NLayers - 1) :
    Rel I (I.denseInterX ex m l A) (I.bandInterX ex m l mem) := by
  have hb := I.block_le hl
  rw [Nat.succ_mul] at hb
  unfold denseInterX bandInterX
  dsimp only
  generalize l * (2 * I.N) = c at *
  have e : I.N + c + I.N = I.N + (I.N + c) := by omega
  have e3 : c + 3 * I.N = 3 * I.N + c := by omega
  have e2 : c + 2 * I.N = 2 * I.N + c := by omega
  have e1 : c + I.N = I.N + c := by omega
  simp only [e, e3, e2, e1]
  refine Rel.write (Rel.write (Rel.write (Rel.write (Rel.write (Rel.write h hN ?_ ?_ ?_ _) hN ?_ ?_ ?_ _)
    hN ?_ ?_ ?_ _) hN ?_ ?_ ?_ _) hN ?_ ?_ ?_ _) hN ?_ ?_ ?_ _
  all_goals first | omega | (constructor <;> first | omega | (push_cast; omega))

theorem Rel.assembleX {A : Mat} {mem : ℤ → ℝ} (h : Rel I A mem) (hN : 0 < I.N) (hL : 0 < I.NLayers) (m : ℕ)
    (R : Option Mat) : Rel I (I.denseX ex m R A) (I.bandX ex m R mem) := by
  have hd := I.dim_ge hL
  unfold denseX bandX
  set A0 := setBlock (setBlock (setBlock (setBlock A 0 I.N 0 I.N (fun i j => I.G m 0 (I.N + i) j))
    0 I.N I.N (2 * I.N) (fun i j => I.G m 0 (I.N + i) (I.N + j) * I.E01X ex m j))
    (I.dim - I.N) I.dim (I.dim - 2 * I.N) (I.dim - I.N) (I.botLX ex m R))
    (I.dim - I.N) I.dim (I.dim - I.N) I.dim (I.botR m R) with hA0
  have h0 : Rel I A0 (I.writeSlanted (I.writeSlanted (I.writeSlanted (I.writeSlanted mem 0 0 I.N
      (fun i j => I.G m 0 (I.N + i) j)) 0 I.N I.N (fun i j => I.G m 0 (I.N + i) (I.N + j) * I.E01X ex m j))
      (I.dim - I.N) (I.dim - 2 * I.N) I.N (I.botLX ex m R)) (I.dim - I.N) (I.dim - I.N) I.N (I.botR m R)) := by
    rw [hA0]
    refine Rel.write (Rel.write (Rel.write (Rel.write h hN ?_ ?_ ?_ _) hN ?_ ?_ ?_ _)
      hN ?_ ?_ ?_ _) hN ?_ ?_ ?_ _
    all_goals first | omega | (constructor <;> first | omega | (push_cast; omega))
  have key : ∀ k, k ≤ I.NLayers - 1 → ∀ (B : Mat) (b : ℤ → ℝ), Rel I B b →
      Rel I (forRange k (fun l A => I.denseInterX ex m l A) B) (forRange k (fun l A => I.bandInterX ex m l A) b) := by
    intro k
    induction k with
    | zero => intro _ B b hr; exact hr
    | succ k ih =>
      intro hk B b hr
      exact Rel.interX (ih (by omega) B b hr) hN m (by omega)
  exact key _ le_rfl _ _ h0

/-- A matrix of the right form vanishes outside the band. -/
theorem IsLhsX.outside {m : ℕ} {R : Option Mat} {A : Mat} (h : I.IsLhsX ex m R A) (hN : 0 < I.N) (hL : 0 < I.NLayers)
    {i j : ℕ} (hi : i < I.dim) (hj : j < I.dim)
    (hb : ¬ ((i : ℤ) - j ≤ 3 * (I.N : ℤ) - 1 ∧ (j : ℤ) - i ≤ 3 * (I.N : ℤ) - 1)) : A i j = 0 := by
  have hd := I.dim_pred hL
  by_cases h1 : i < I.N
  · rw [h.top i h1 j hj]; unfold topRowX
    split_ifs <;> first | (exfalso; omega) | rfl
  by_cases h2 : I.dim - I.N ≤ i
  · obtain ⟨t, rfl⟩ : ∃ t, i = I.dim - I.N + t := ⟨i - (I.dim - I.N), by omega⟩
    rw [h.bot t (by omega) j hj]; unfold botRowX
    split_ifs <;> first | (exfalso; omega) | rfl
  · set k := (i - I.N) / (2 * I.N) with hk
    set q := (i - I.N) % (2 * I.N) with hq
    have hkq : i - I.N = k * (2 * I.N) + q := by
      rw [hk, hq, mul_comm]; exact (Nat.div_add_mod _ _).symm
    have hq2 : q < 2 * I.N := Nat.mod_lt _ (by omega)
    have hkL : k < I.NLayers - 1 := by
      by_contra hc
      have : (I.NLayers - 1) * (2 * I.N) ≤ k * (2 * I.N) := Nat.mul_le_mul_right _ (by omega)
      omega
    have e : i = I.N + k * (2 * I.N) + q := by omega
    clear_value k q
    subst e
    rw [h.mid k hkL q hq2 j hj]; unfold midRowX midBlockX
    generalize k * (2 * I.N) = c at *
    push_cast at hb
    split_ifs <;> first | (exfalso; omega) | rfl

/-- The banded storage after assembling mode `m` represents the matrix of mode `m`. -/
theorem bandX_spec (hN : 0 < I.N) (hL : 0 < I.NLayers) (m : ℕ) (R : Option Mat) {mem : ℤ → ℝ}
    (hA : I.LhsZero (I.bandMat mem)) : I.IsLhsX ex m R (I.bandMat (I.bandX ex m R mem)) := by
  have hr : Rel I (I.bandMat mem) mem := by
    intro i j h1 h2; unfold bandMat; rw [if_pos ⟨h1, h2⟩]
  have hs := denseX_spec (ex := ex) hN hL m R hA
  have ha := hr.assembleX (ex := ex) hN hL m R
  have key : ∀ i < I.dim, ∀ j < I.dim, I.bandMat (I.bandX ex m R mem) i j = I.denseX ex m R (I.bandMat mem) i j := by
    intro i hi j hj
    by_cases hb : (i : ℤ) - j ≤ 3 * (I.N : ℤ) - 1 ∧ (j : ℤ) - i ≤ 3 * (I.N : ℤ) - 1
    · rw [bandMat, if_pos hb]; exact ha i j hb.1 hb.2
    · rw [hs.outside hN hL hi hj hb, bandMat, if_neg hb]
  have hd := I.dim_ge hL
  constructor
  · intro i hi j hj
    rw [key i (by omega) j hj]; exact hs.top i hi j hj
  · intro k hk q hq j hj
    have := I.block_le hk
    rw [Nat.succ_mul] at this
    rw [key _ (by omega) j hj]; exact hs.mid k hk q hq j hj
  · intro i hi j hj
    rw [key _ (by omega) j hj]; exact hs.bot i hi j hj

end CoefIn
end Pydisort

import Verif.CoefLhs
import Mathlib.Tactic.Linarith

/-! Helper lemmas: the banded storage holds the same matrix as the dense storage. -/

namespace Pydisort
open Finset

namespace CoefIn
variable {I : CoefIn}

theorem ld_inj {ld x y x' y' : ℤ} (h0 : 0 ≤ x) (h1 : x < ld) (h0' : 0 ≤ x') (h1' : x' < ld)
    (h : x + y * ld = x' + y' * ld) : x = x' ∧ y = y' := by
  have hy : y = y' := by
    rcases lt_trichotomy y y' with h2 | h2 | h2
    · have : (y + 1) * ld ≤ y' * ld := mul_le_mul_of_nonneg_right (by omega) (by omega)
      rw [add_mul] at this; omega
    · exact h2
    · have : (y' + 1) * ld ≤ y * ld := mul_le_mul_of_nonneg_right (by omega) (by omega)
      rw [add_mul] at this; omega
  subst hy; exact ⟨by omega, rfl⟩

/-- The view does not leave the band. -/
structure ViewOK (I : CoefIn) (i0 j0 nrows : ℕ) : Prop where
  lo : -(2 * (I.N : ℤ)) ≤ (i0 : ℤ) - j0
  hi : (i0 : ℤ) - j0 + nrows ≤ 3 * (I.N : ℤ)
  col : j0 + I.N ≤ I.dim

theorem slantAddr_eq {i0 j0 nrows : ℕ} (hN : 0 < I.N) (h : ViewOK I i0 j0 nrows) (p q : ℕ) :
    I.slantAddr i0 j0 p q = 3 * (I.N : ℤ) - 1 + (i0 + p : ℕ) - (j0 + q : ℕ) + (j0 + q : ℕ) * I.ld := by
  obtain ⟨h1, h2, h3⟩ := h
  have hN' : (1 : ℤ) ≤ I.N := by exact_mod_cast hN
  unfold slantAddr pyStart
  rw [if_neg (by omega), if_neg (by omega), min_eq_left (by unfold ld; omega), min_eq_left (by omega)]
  push_cast
  ring

open Classical in
theorem writeSlanted_band {i0 j0 nrows : ℕ} (hN : 0 < I.N) (h : ViewOK I i0 j0 nrows) (mem : ℤ → ℝ) (V : Mat)
    {i j : ℕ} (hb1 : (i : ℤ) - j ≤ 3 * (I.N : ℤ) - 1) (hb2 : (j : ℤ) - i ≤ 3 * (I.N : ℤ) - 1) :
    I.writeSlanted mem i0 j0 nrows V (3 * (I.N : ℤ) - 1 + i - j + j * I.ld)
      = if (i0 ≤ i ∧ i < i0 + nrows) ∧ (j0 ≤ j ∧ j < j0 + I.N) then V (i - i0) (j - j0)
        else mem (3 * (I.N : ℤ) - 1 + i - j + j * I.ld) := by
  have hN' : (1 : ℤ) ≤ I.N := by exact_mod_cast hN
  unfold writeSlanted
  by_cases hex : ∃ pq : ℕ × ℕ, pq.1 < nrows ∧ pq.2 < I.N ∧
      I.slantAddr i0 j0 pq.1 pq.2 = 3 * (I.N : ℤ) - 1 + i - j + j * I.ld
  · rw [dif_pos hex]
    obtain ⟨h1, h2, h3⟩ := hex.choose_spec
    generalize hex.choose = pq at h1 h2 h3
    rw [slantAddr_eq hN h] at h3
    obtain ⟨ho1, ho2, _⟩ := h
    have hj := ld_inj (by push_cast; omega) (by unfold ld; push_cast; omega) (by omega) (by unfold ld; omega) h3
    have e2 : j0 + pq.2 = j := by exact_mod_cast hj.2
    have e1 : i0 + pq.1 = i := by have := hj.1; push_cast at this; omega
    rw [if_pos (by omega)]
    congr 1 <;> omega
  · rw [dif_neg hex, if_neg]
    rintro ⟨⟨h1, h2⟩, h3, h4⟩
    apply hex
    refine ⟨(i - i0, j - j0), by simp only; omega, by simp only; omega, ?_⟩
    rw [slantAddr_eq hN h]
    simp only
    rw [show i0 + (i - i0) = i by omega, show j0 + (j - j0) = j by omega]

/-- In-band entries of the raw memory agree with a matrix. -/
def Rel (I : CoefIn) (A : Mat) (mem : ℤ → ℝ) : Prop := ∀ i j : ℕ, (i : ℤ) - j ≤ 3 * (I.N : ℤ) - 1 →
  (j : ℤ) - i ≤ 3 * (I.N : ℤ) - 1 → mem (3 * (I.N : ℤ) - 1 + i - j + j * I.ld) = A i j

theorem Rel.write {A : Mat} {mem : ℤ → ℝ} (h : Rel I A mem) (hN : 0 < I.N) {i0 i1 j0 j1 nrows : ℕ}
    (hv : ViewOK I i0 j0 nrows) (h1 : i1 = i0 + nrows) (h2 : j1 = j0 + I.N) (V : Mat) :
    Rel I (setBlock A i0 i1 j0 j1 V) (I.writeSlanted mem i0 j0 nrows V) := by
  intro i j hb1 hb2
  rw [writeSlanted_band hN hv _ _ hb1 hb2]
  subst h1 h2
  unfold setBlock
  split_ifs <;> first | rfl | exact h i j hb1 hb2

theorem Rel.inter {A : Mat} {mem : ℤ → ℝ} (h : Rel I A mem) (hN : 0 < I.N) (m : ℕ) {l : ℕ} (hl : l < I.NLayers - 1) :
    Rel I (I.denseInter m l A) (I.bandInter m l mem) := by
  have hb := I.block_le hl
  rw [Nat.succ_mul] at hb
  unfold denseInter bandInter
  dsimp only
  generalize l * (2 * I.N) = c at *
  have e : I.N + c + I.N = I.N + (I.N + c) := by omega
  have e3 : c + 3 * I.N = 3 * I.N + c := by omega
  have e2 : c + 2 * I.N = 2 * I.N + c := by omega
  have e1 : c + I.N = I.N + c := by omega
  simp only [e, e3, e2, e1]
  refine Rel.write (Rel.write (Rel.write (Rel.write (Rel.write (Rel.write h hN ?_ ?_ ?_ _) hN ?_ ?_ ?_ _)
    hN ?_ ?_ ?_ _) hN ?_ ?_ ?_ _) hN ?_ ?_ ?_ _) hN ?_ ?_ ?_ _
  all_goals first | omega | (constructor <;> first | omega | (push_cast; omega))

theorem Rel.assemble {A : Mat} {mem : ℤ → ℝ} (h : Rel I A mem) (hN : 0 < I.N) (hL : 0 < I.NLayers) (m : ℕ)
    (R : Option Mat) : Rel I (I.dense m R A) (I.band m R mem) := by
  have hd := I.dim_ge hL
  unfold dense band
  set A0 := setBlock (setBlock (setBlock (setBlock A 0 I.N 0 I.N (fun i j => I.G m 0 (I.N + i) j))
    0 I.N I.N (2 * I.N) (fun i j => I.G m 0 (I.N + i) (I.N + j) * I.E01 m j))
    (I.dim - I.N) I.dim (I.dim - 2 * I.N) (I.dim - I.N) (I.botL m R))
    (I.dim - I.N) I.dim (I.dim - I.N) I.dim (I.botR m R) with hA0
  have h0 : Rel I A0 (I.writeSlanted (I.writeSlanted (I.writeSlanted (I.writeSlanted mem 0 0 I.N
      (fun i j => I.G m 0 (I.N + i) j)) 0 I.N I.N (fun i j => I.G m 0 (I.N + i) (I.N + j) * I.E01 m j))
      (I.dim - I.N) (I.dim - 2 * I.N) I.N (I.botL m R)) (I.dim - I.N) (I.dim - I.N) I.N (I.botR m R)) := by
    rw [hA0]
    refine Rel.write (Rel.write (Rel.write (Rel.write h hN ?_ ?_ ?_ _) hN ?_ ?_ ?_ _)
      hN ?_ ?_ ?_ _) hN ?_ ?_ ?_ _
    all_goals first | omega | (constructor <;> first | omega | (push_cast; omega))
  have key : ∀ k, k ≤ I.NLayers - 1 → ∀ (B : Mat) (b : ℤ → ℝ), Rel I B b →
      Rel I (forRange k (fun l A => I.denseInter m l A) B) (forRange k (fun l A => I.bandInter m l A) b) := by
    intro k
    induction k with
    | zero => intro _ B b hr; exact hr
    | succ k ih =>
      intro hk B b hr
      exact Rel.inter (ih (by omega) B b hr) hN m (by omega)
  exact key _ le_rfl _ _ h0

/-- A matrix of the right form vanishes outside the band. -/
theorem IsLhs.outside {m : ℕ} {R : Option Mat} {A : Mat} (h : I.IsLhs m R A) (hN : 0 < I.N) (hL : 0 < I.NLayers)
    {i j : ℕ} (hi : i < I.dim) (hj : j < I.dim)
    (hb : ¬ ((i : ℤ) - j ≤ 3 * (I.N : ℤ) - 1 ∧ (j : ℤ) - i ≤ 3 * (I.N : ℤ) - 1)) : A i j = 0 := by
  have hd := I.dim_pred hL
  by_cases h1 : i < I.N
  · rw [h.top i h1 j hj]; unfold topRow
    split_ifs <;> first | (exfalso; omega) | rfl
  by_cases h2 : I.dim - I.N ≤ i
  · obtain ⟨t, rfl⟩ : ∃ t, i = I.dim - I.N + t := ⟨i - (I.dim - I.N), by omega⟩
    rw [h.bot t (by omega) j hj]; unfold botRow
    split_ifs <;> first | (exfalso; omega) | rfl
  · set k := (i - I.N) / (2 * I.N) with hk
    set q := (i - I.N) % (2 * I.N) with hq
    have hkq : i - I.N = k * (2 * I.N) + q := by
      rw [hk, hq, mul_comm]; exact (Nat.div_add_mod _ _).symm
    have hq2 : q < 2 * I.N := Nat.mod_lt _ (by omega)
    have hkL : k < I.NLayers - 1 := by
      by_contra hc
      have : (I.NLayers - 1) * (2 * I.N) ≤ k * (2 * I.N) := Nat.mul_le_mul_right _ (by omega)
      omega
    have e : i = I.N + k * (2 * I.N) + q := by omega
    clear_value k q
    subst e
    rw [h.mid k hkL q hq2 j hj]; unfold midRow midBlock
    generalize k * (2 * I.N) = c at *
    push_cast at hb
    split_ifs <;> first | (exfalso; omega) | rfl

/-- The banded storage after assembling mode `m` represents the matrix of mode `m`. -/
theorem band_spec (hN : 0 < I.N) (hL : 0 < I.NLayers) (m : ℕ) (R : Option Mat) {mem : ℤ → ℝ}
    (hA : I.LhsZero (I.bandMat mem)) : I.IsLhs m R (I.bandMat (I.band m R mem)) := by
  have hr : Rel I (I.bandMat mem) mem := by
    intro i j h1 h2; unfold bandMat; rw [if_pos ⟨h1, h2⟩]
  have hs := dense_spec hN hL m R hA
  have ha := hr.assemble hN hL m R
  have key : ∀ i < I.dim, ∀ j < I.dim, I.bandMat (I.band m R mem) i j = I.dense m R (I.bandMat mem) i j := by
    intro i hi j hj
    by_cases hb : (i : ℤ) - j ≤ 3 * (I.N : ℤ) - 1 ∧ (j : ℤ) - i ≤ 3 * (I.N : ℤ) - 1
    · rw [bandMat, if_pos hb]; exact ha i j hb.1 hb.2
    · rw [hs.outside hN hL hi hj hb, bandMat, if_neg hb]
  have hd := I.dim_ge hL
  constructor
  · intro i hi j hj
    rw [key i (by omega) j hj]; exact hs.top i hi j hj
  · intro k hk q hq j hj
    have := I.block_le hk
    rw [Nat.succ_mul] at this
    rw [key _ (by omega) j hj]; exact hs.mid k hk q hq j hj
  · intro i hi j hj
    rw [key _ (by omega) j hj]; exact hs.bot i hi j hj

end CoefIn
end Pydisort

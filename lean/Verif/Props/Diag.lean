import Verif.Subroutines.Diag

/-!
# C63: `to_diag_ordered_form`
-/

namespace Pydisort

noncomputable section

/-- The matrix that `scipy.linalg.solve_banded((l, u), ab, b)` solves with: entry `(i, j)` is `ab[u + i - j, j]` inside the band
`i ≤ j + l`, `j ≤ i + u` and zero outside. -/
def Spec.bandedMatrix (l u : ℕ) (ab : A2 ℝ) (i j : ℕ) : ℝ := if i ≤ j + l ∧ j ≤ i + u then ab.get (u + i - j) j else 0

theorem fancyRows_ok {A : A2 ℝ} {k n : ℕ} {rows : ℕ → ℕ → ℤ} (hc : n ≤ A.c) (h : ∀ p < k, ∀ j < n, -(A.r : ℤ) ≤ rows p j ∧ rows p j < A.r) :
    ∃ B, fancyRows A k n rows = .ok B ∧ B.r = k ∧ B.c = n ∧
      ∀ p < k, ∀ j < n, B.get p j = A.get (if 0 ≤ rows p j then (rows p j).toNat else (rows p j + A.r).toNat) j := by
  unfold fancyRows
  rw [if_neg]
  · refine ⟨_, rfl, rfl, rfl, fun p hp j hj => ?_⟩
    obtain ⟨h1, h2⟩ := h p hp j hj
    simp only [pyIndex]
    by_cases h0 : 0 ≤ rows p j
    · rw [if_pos ⟨h0, h2⟩, if_pos h0]
    · rw [if_neg (by tauto), if_pos ⟨h1, by omega⟩, if_neg h0]
  · rintro ⟨p, hp, j, hj, ⟨e, he⟩ | he⟩
    · obtain ⟨h1, h2⟩ := h p hp j hj
      unfold pyIndex at he
      split_ifs at he with c1 c2
      omega
    · omega

theorem fancyRows_error {A : A2 ℝ} {k n : ℕ} {rows : ℕ → ℕ → ℤ} {p j : ℕ} (hp : p < k) (hj : j < n)
    (h : rows p j < -(A.r : ℤ) ∨ (A.r : ℤ) ≤ rows p j) : fancyRows A k n rows = .error .indexError := by
  unfold fancyRows
  rw [if_pos]
  refine ⟨p, hp, j, hj, Or.inl ⟨.indexError, ?_⟩⟩
  unfold pyIndex
  rw [if_neg (by omega), if_neg (by omega)]

/-- **C63.** For a square matrix and band widths up to its size, entry `(i, j)` of the band is stored in row `Nsuperdiags + i - j` of column `j`. -/
theorem C63_entries (A : A2 ℝ) (hsq : A.r = A.c) {nsup nsub : ℕ} (hu : nsup ≤ A.r) (hl : nsub ≤ A.r) :
    ∃ ab, toDiagOrdered A nsup nsub = .ok ab ∧ ab.r = nsup + 1 + nsub ∧ ab.c = A.r ∧
      ∀ i < A.r, ∀ j < A.r, i ≤ j + nsub → j ≤ i + nsup → ab.get (nsup + i - j) j = A.get i j := by
  obtain ⟨up, u1, -, -, u4⟩ := fancyRows_ok (A := A) (k := nsup + 1) (n := A.r) (rows := fun p j => (j : ℤ) - ((nsup : ℤ) - p)) hsq.le
    (fun p hp j hj => by constructor <;> omega)
  obtain ⟨lo, l1, -, -, l4⟩ := fancyRows_ok (A := A) (k := nsub) (n := A.r) (rows := fun p j => (j : ℤ) - ((A.r : ℤ) - 1 - p)) hsq.le
    (fun p hp j hj => by constructor <;> omega)
  unfold toDiagOrdered
  simp only [u1, l1, bind, Except.bind, pure, Except.pure]
  refine ⟨_, rfl, rfl, rfl, fun i hi j hj hij hji => ?_⟩
  simp only
  by_cases h : nsup + i - j < nsup + 1
  · rw [if_pos h, u4 _ h j hj]
    congr 1
    rw [if_pos (by omega)]
    omega
  · rw [if_neg h, l4 _ (by omega) j hj]
    congr 1
    split_ifs <;> omega

/-- **C63.** Hence `solve_banded` sees the matrix itself whenever it vanishes outside the band. -/
theorem C63_reconstruct (A : A2 ℝ) (hsq : A.r = A.c) {nsup nsub : ℕ} (hu : nsup ≤ A.r) (hl : nsub ≤ A.r)
    (hband : ∀ i < A.r, ∀ j < A.r, (j + nsub < i ∨ i + nsup < j) → A.get i j = 0) :
    ∃ ab, toDiagOrdered A nsup nsub = .ok ab ∧ ∀ i < A.r, ∀ j < A.r, Spec.bandedMatrix nsub nsup ab i j = A.get i j := by
  obtain ⟨ab, h1, -, -, h4⟩ := C63_entries A hsq hu hl
  refine ⟨ab, h1, fun i hi j hj => ?_⟩
  unfold Spec.bandedMatrix
  by_cases h : i ≤ j + nsub ∧ j ≤ i + nsup
  · rw [if_pos h, h4 i hi j hj h.1 h.2]
  · rw [if_neg h, hband i hi j hj (by omega)]

/-- **C63.** Larger band widths raise `IndexError`. -/
theorem C63_too_wide (A : A2 ℝ) (h0 : 0 < A.r) {nsup nsub : ℕ} (h : A.r < nsup ∨ A.r < nsub) :
    toDiagOrdered A nsup nsub = .error .indexError := by
  unfold toDiagOrdered
  by_cases hu : A.r < nsup
  · simp only [fancyRows_error (A := A) (k := nsup + 1) (n := A.r) (rows := fun p j => (j : ℤ) - ((nsup : ℤ) - p)) (p := 0) (j := 0) (by omega) h0
      (by left; push_cast; omega), bind, Except.bind]
  · have hl : A.r < nsub := by omega
    have := fancyRows_error (A := A) (k := nsub) (n := A.r) (rows := fun p j => (j : ℤ) - ((A.r : ℤ) - 1 - p)) (p := A.r) (j := A.r - 1) hl (by omega)
      (by right; push_cast; omega)
    cases hf : fancyRows A (nsup + 1) A.r (fun p j => (j : ℤ) - ((nsup : ℤ) - p)) with
    | ok v => simp only [hf, this, bind, Except.bind]
    | error e =>
      have he : e = .indexError := by
        unfold fancyRows at hf
        split_ifs at hf
        injection hf with hf
        exact hf.symm
      simp only [hf, he, bind, Except.bind]

example : ∃ ab, toDiagOrdered ⟨2, 2, fun i j => if i = 0 ∧ j = 1 then 0 else (i : ℝ) + 1⟩ 0 1 = .ok ab ∧ Spec.bandedMatrix 1 0 ab 1 0 = 2 := by
  obtain ⟨ab, h1, h2⟩ := C63_reconstruct ⟨2, 2, fun i j => if i = 0 ∧ j = 1 then 0 else (i : ℝ) + 1⟩ rfl (nsup := 0) (nsub := 1) (by norm_num)
    (by norm_num) (fun i hi j hj h => by
      have : i = 0 ∧ j = 1 := by simp only at hi hj; omega
      simp only
      rw [if_pos this])
  exact ⟨ab, h1, by rw [h2 1 (by norm_num) 0 (by norm_num)]; norm_num⟩

end

end Pydisort

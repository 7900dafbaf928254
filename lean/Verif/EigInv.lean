import Verif.GenSuccess
import Mathlib.LinearAlgebra.Matrix.ToLinearEquiv

/-! The eigenvector matrices and the beam systems are non-singular. -/

namespace Pydisort
open Finset

theorem det_ne_zero_of_inj {n : ℕ} {A : Mat}
    (h : ∀ x : Vec, (∀ i < n, mulVec n A x i = 0) → ∀ i < n, x i = 0) : (toM n A).det ≠ 0 := by
  intro hd
  obtain ⟨v, hv, hv0⟩ := Matrix.exists_mulVec_eq_zero_iff.mpr hd
  apply hv
  have key := h (ofV n v) (fun i hi => by
    have h1 := congrFun hv0 ⟨i, hi⟩
    rw [toM_mulVec] at h1
    exact h1)
  funext i
  have := key i i.2
  rw [ofV_lt v i.2] at this
  exact this

theorem inj_of_det {n : ℕ} {A : Mat} (hA : (toM n A).det ≠ 0) {x : Vec}
    (h : ∀ i < n, mulVec n A x i = 0) : ∀ i < n, x i = 0 := by
  refine solve_unique hA (y := fun _ => 0) (fun i hi => ?_)
  rw [h i hi]; simp [mulVec]

theorem gTrivial_det (N : ℕ) : (toM (2 * N) (gTrivial N)).det ≠ 0 := by
  apply det_ne_zero_of_inj
  intro x hx i hi
  have h1 : mulVec (2 * N) (gTrivial N) (fun q => mulVec (2 * N) (gTrivial N) x q) i = 0 := by
    unfold mulVec
    refine sum_eq_zero fun q hq => ?_
    exact mul_eq_zero_of_right _ (hx q (mem_range.mp hq))
  have h2 : mulVec (2 * N) (gTrivial N) (fun q => mulVec (2 * N) (gTrivial N) x q) i
      = ∑ j ∈ range (2 * N), (if i = j then 1 else 0) * x j := by
    unfold mulVec
    simp_rw [mul_sum]
    rw [sum_comm]
    refine sum_congr rfl fun j hj => ?_
    rw [← gTrivial_sq hi (mem_range.mp hj), sum_mul]
    exact sum_congr rfl fun q _ => by ring
  rw [h2] at h1
  simpa [hi] using h1

section
variable {I : GenIn} {E : Ext} {m l : ℕ}

theorem gScat_det (h : I.EigOK E m l) (hV : (toM I.N (I.ev E m l).2).det ≠ 0) :
    (toM (2 * I.N) (I.gScat E m l)).det ≠ 0 := by
  apply det_ne_zero_of_inj
  intro x hx
  set lam := (I.ev E m l).1
  set V := (I.ev E m l).2
  set P := gpg V with hP
  set M := gmg I.N (I.apb m l) lam V with hM
  have hG : ∀ i j, i < 2 * I.N → j < 2 * I.N → I.gScat E m l i j
      = if i < I.N then (if j < I.N then P i j + M i j else P i (j - I.N) - M i (j - I.N))
      else (if j < I.N then P (i - I.N) j - M (i - I.N) j
        else P (i - I.N) (j - I.N) + M (i - I.N) (j - I.N)) := by
    intro i j hi hj; unfold GenIn.gScat; rw [gBlocks_apply _ _ _ _ hi hj]
  have hup : ∀ i < I.N, (∑ q ∈ range I.N, (P i q + M i q) * x q)
      + ∑ q ∈ range I.N, (P i q - M i q) * x (I.N + q) = 0 := by
    intro i hi
    rw [← hx i (by omega)]
    unfold mulVec
    rw [sum_range_two_mul]
    congr 1
    · refine sum_congr rfl fun q hq => ?_
      rw [mem_range] at hq
      rw [hG i q (by omega) (by omega)]; simp [hi, hq]
    · refine sum_congr rfl fun q hq => ?_
      rw [mem_range] at hq
      rw [hG i _ (by omega) (by omega)]; simp [hi]
  have hdn : ∀ i < I.N, (∑ q ∈ range I.N, (P i q - M i q) * x q)
      + ∑ q ∈ range I.N, (P i q + M i q) * x (I.N + q) = 0 := by
    intro i hi
    rw [← hx (I.N + i) (by omega)]
    unfold mulVec
    rw [sum_range_two_mul]
    congr 1
    · refine sum_congr rfl fun q hq => ?_
      rw [mem_range] at hq
      rw [hG _ q (by omega) (by omega)]; simp [hq]
    · refine sum_congr rfl fun q hq => ?_
      rw [mem_range] at hq
      rw [hG _ _ (by omega) (by omega)]; simp
  have h1 : ∀ q < I.N, x q + x (I.N + q) = 0 := by
    refine inj_of_det hV (x := fun q => x q + x (I.N + q)) fun i hi => ?_
    have := congrArg₂ (· + ·) (hup i hi) (hdn i hi)
    simp only [← sum_add_distrib] at this
    rw [show (0 : ℝ) + 0 = 0 by ring] at this
    unfold mulVec
    rw [← this]
    refine sum_congr rfl fun q _ => ?_
    simp only [hP, gpg]; ring
  have h2 : ∀ i < I.N, ∑ q ∈ range I.N, M i q * (x q - x (I.N + q)) = 0 := by
    intro i hi
    have := congrArg₂ (· - ·) (hup i hi) (hdn i hi)
    simp only [← sum_add_distrib, ← sum_sub_distrib] at this
    have h3 : ∑ q ∈ range I.N, M i q * (x q - x (I.N + q)) = (0 - 0) / 2 := by
      rw [← this, sum_div]
      exact sum_congr rfl fun q _ => by ring
    simpa using h3
  -- apply `α - β`
  have h3 : ∀ q < I.N, Real.sqrt (lam q) / 2 * (x q - x (I.N + q)) = 0 := by
    refine inj_of_det hV (x := fun q => Real.sqrt (lam q) / 2 * (x q - x (I.N + q))) fun i hi => ?_
    have : ∑ a ∈ range I.N, I.amb m l i a * ∑ q ∈ range I.N, M a q * (x q - x (I.N + q)) = 0 := by
      refine sum_eq_zero fun a ha => ?_
      rw [h2 a (mem_range.mp ha), mul_zero]
    rw [← this]
    unfold mulVec
    simp_rw [mul_sum]
    rw [sum_comm]
    refine sum_congr rfl fun q hq => ?_
    have hg := gmg_amb h hi (mem_range.mp hq)
    have : ∑ a ∈ range I.N, I.amb m l i a * (M a q * (x q - x (I.N + q)))
        = (∑ a ∈ range I.N, I.amb m l i a * M a q) * (x q - x (I.N + q)) := by
      rw [sum_mul]; exact sum_congr rfl fun a _ => by ring
    rw [this, hg]
    simp only [gpg, V, lam]; ring
  have h4 : ∀ q < I.N, x q - x (I.N + q) = 0 := by
    intro q hq
    rcases mul_eq_zero.mp (h3 q hq) with h' | h'
    · exact absurd h' (div_pos (Real.sqrt_pos.mpr (h.2 q hq)) two_pos).ne'
    · exact h'
  intro i hi
  by_cases hiN : i < I.N
  · linarith [h1 i hiN, h4 i hiN]
  · obtain ⟨k, rfl⟩ : ∃ k, i = I.N + k := ⟨i - I.N, by omega⟩
    linarith [h1 k (by omega), h4 k (by omega)]

/-- The beam system is non-singular when no eigenvalue is resonant. -/
theorem beam_det (h : I.EigOK E m l) (hV : (toM I.N (I.ev E m l).2).det ≠ 0)
    (hk : ∀ j < 2 * I.N, 1 / I.mu0 + eigK I.N (I.ev E m l).1 j ≠ 0) :
    (toM (2 * I.N) (fun i j => I.coefA m l i j + if i = j then 1 / I.mu0 else 0)).det ≠ 0 := by
  apply det_ne_zero_of_inj
  intro x hx
  have hG := gScat_det h hV
  set y := ofV (2 * I.N) ((toM (2 * I.N) (I.gScat E m l))⁻¹.mulVec (toV (2 * I.N) x)) with hy
  have hyx : ∀ i < 2 * I.N, mulVec (2 * I.N) (I.gScat E m l) y i = x i := solve_val hG x
  have hz : ∀ j < 2 * I.N, (1 / I.mu0 + eigK I.N (I.ev E m l).1 j) * y j = 0 := by
    refine inj_of_det hG (x := fun j => (1 / I.mu0 + eigK I.N (I.ev E m l).1 j) * y j) fun i hi => ?_
    rw [← hx i hi]
    have e1 : mulVec (2 * I.N) (fun i j => I.coefA m l i j + if i = j then 1 / I.mu0 else 0) x i
        = mulVec (2 * I.N) (I.coefA m l) x i + 1 / I.mu0 * x i := by
      unfold mulVec
      simp_rw [add_mul, sum_add_distrib]
      congr 1
      simp [hi]
    have e2 : mulVec (2 * I.N) (I.coefA m l) x i
        = ∑ j ∈ range (2 * I.N), eigK I.N (I.ev E m l).1 j * I.gScat E m l i j * y j := by
      have : ∀ j ∈ range (2 * I.N), eigK I.N (I.ev E m l).1 j * I.gScat E m l i j * y j
          = ∑ q ∈ range (2 * I.N), I.coefA m l i q * (I.gScat E m l q j * y j) := by
        intro j hj
        rw [← scat_eigen h hi (mem_range.mp hj)]
        unfold mulVec
        rw [sum_mul]; exact sum_congr rfl fun a _ => by ring
      rw [sum_congr rfl this, sum_comm]
      unfold mulVec
      refine sum_congr rfl fun q hq => ?_
      rw [← hyx q (mem_range.mp hq)]
      unfold mulVec
      rw [mul_sum]
    rw [e1, e2, ← hyx i hi]
    unfold mulVec
    rw [mul_sum, ← sum_add_distrib]
    exact sum_congr rfl fun j _ => by ring
  intro i hi
  rw [← hyx i hi]
  unfold mulVec
  refine sum_eq_zero fun j hj => ?_
  rcases mul_eq_zero.mp (hz j (mem_range.mp hj)) with h' | h'
  · exact absurd h' (hk j (mem_range.mp hj))
  · rw [h', mul_zero]

end
end Pydisort

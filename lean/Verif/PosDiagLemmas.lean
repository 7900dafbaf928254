import Mathlib.Analysis.Matrix.PosDef
import Mathlib.Analysis.Matrix.Spectrum

/-! The product of two positive definite matrices is diagonalisable with positive eigenvalues. -/

namespace Pydisort
open Matrix

theorem posDef_diag {n : ℕ} {A : Matrix (Fin n) (Fin n) ℝ} (hA : A.PosDef) :
    ∃ (U : Matrix (Fin n) (Fin n) ℝ) (d : Fin n → ℝ), (∀ i, 0 < d i) ∧ U * Uᵀ = 1 ∧ A * U = U * diagonal d := by
  refine ⟨hA.1.eigenvectorUnitary, hA.1.eigenvalues, hA.eigenvalues_pos, ?_, ?_⟩
  · have := Unitary.coe_mul_star_self hA.1.eigenvectorUnitary
    rwa [Unitary.coe_star, star_eq_conjTranspose, conjTranspose_eq_transpose_of_trivial] at this
  · ext i j
    rw [mul_diagonal]
    have := congrFun (hA.1.mulVec_eigenvectorBasis j) i
    simp only [mulVec, dotProduct, Pi.smul_apply, smul_eq_mul] at this
    simp only [mul_apply, IsHermitian.eigenvectorUnitary_apply]
    rw [this]; ring

theorem posDef_mul_diag {n : ℕ} {A B : Matrix (Fin n) (Fin n) ℝ} (hA : A.PosDef) (hB : B.PosDef) :
    ∃ (V : Matrix (Fin n) (Fin n) ℝ) (d : Fin n → ℝ), (∀ i, 0 < d i) ∧ V.det ≠ 0 ∧ A * B * V = V * diagonal d := by
  obtain ⟨U, lam, hlam, hU, hAU⟩ := posDef_diag hA
  have hUt : Uᵀ * U = 1 := mul_eq_one_comm.mp hU
  set S := diagonal (fun i => Real.sqrt (lam i))
  set V1 := U * S with hV1
  have hS : S * S = diagonal lam := by
    rw [diagonal_mul_diagonal]
    congr 1; funext i; exact Real.mul_self_sqrt (hlam i).le
  have hSt : Sᵀ = S := diagonal_transpose _
  have hVV : V1 * V1ᵀ = A := by
    rw [hV1, transpose_mul, hSt, Matrix.mul_assoc, ← Matrix.mul_assoc S S, hS, ← Matrix.mul_assoc, ← hAU,
      Matrix.mul_assoc, hU, Matrix.mul_one]
  have hdetU : U.det ≠ 0 := by
    have := congrArg det hU
    rw [det_mul, det_one] at this
    exact left_ne_zero_of_mul_eq_one this
  have hdetV1 : V1.det ≠ 0 := by
    rw [hV1, det_mul]
    refine mul_ne_zero hdetU ?_
    rw [det_diagonal]
    exact Finset.prod_ne_zero_iff.mpr fun i _ => (Real.sqrt_pos.mpr (hlam i)).ne'
  have hB' : (V1ᵀ * B * V1).PosDef := by
    have := hB.conjTranspose_mul_mul_same (B := V1) (Matrix.mulVec_injective_of_isUnit
      ((isUnit_iff_isUnit_det _).mpr (isUnit_iff_ne_zero.mpr hdetV1)))
    rwa [conjTranspose_eq_transpose_of_trivial] at this
  obtain ⟨U2, d, hd, hU2, hBU⟩ := posDef_diag hB'
  refine ⟨V1 * U2, d, hd, ?_, ?_⟩
  · rw [det_mul]
    refine mul_ne_zero hdetV1 ?_
    have := congrArg det hU2
    rw [det_mul, det_one] at this
    exact left_ne_zero_of_mul_eq_one this
  · rw [Matrix.mul_assoc V1, ← hBU, ← hVV]
    simp only [Matrix.mul_assoc]

end Pydisort

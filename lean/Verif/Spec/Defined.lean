import Verif.Model.Pydisort

/-!
# Specification: quotients and roots that are defined

The model divides real numbers, where a quotient by zero is zero, and takes square roots of real numbers, where the root of a negative number is
zero. These are all the denominators and radicands of the code whose value depends on the input.
-/

namespace Pydisort.Spec
open Finset

/-- Denominators of the solver and of the functions that it returns. -/
structure SolverQuotients (a : Args) (R : Solved) : Prop where
  /-- `M_inv = 1 / mu_arr_pos`, `pydisort.py` 306 -/
  cosines : ∀ i < R.I.N, R.I.mu i ≠ 0
  /-- `1 - f_arr` and `scale_tau`, `pydisort.py` 321-328, `subroutines.py` 606, 793-815, 858, and the antiderivatives in
  `_assemble_intensity_and_fluxes.py` -/
  scaling : ∀ l < R.I.NLayers, R.I.scale l ≠ 0 ∧ ((∃ k < a.fArr.n, 0 < a.fArr.get k) → 1 - a.fArr.get l ≠ 0)
  /-- `rescale_factor`, `pydisort.py` 361-371; without an internal source a test precedes the division -/
  rescale : R.I.iso = true → R.I.rescale ≠ 0
  /-- `K`, `_solve_for_gen_and_part_sols.py` 191, `_assemble_intensity_and_fluxes.py` 216, 392, 504, 585, `subroutines.py` 783. In slots with
  scattering `K` is plus or minus a square root (line 186); as the root is not zero, the radicand is positive. -/
  eigenvalues : ∀ m < R.I.NFourier, ∀ l < R.I.NLayers, ∀ j < 2 * R.I.N, R.S.K m l j ≠ 0
  /-- `fac`, `subroutines.py` 841-849: the factorials, products of 64-bit integers -/
  factorials : R.I.iso = true → ∀ i < R.I.Nscoeffs, fac64 i ≠ 0
  /-- `mu0`, throughout -/
  beam : R.I.beam = true → R.I.mu0 ≠ 0
  /-- `1 / mu0 + K`, `_solve_for_gen_and_part_sols.py` 218 -/
  resonance : R.I.beam = true → R.I.iso = true → ∀ l < R.I.NLayers, R.I.genIn.scatters 0 l → ∀ j < 2 * R.I.N, 1 / R.I.mu0 + R.S.K 0 l j ≠ 0

/-- Denominators and radicands of the corrections, `pydisort.py` 407-638 and `subroutines.py` 107-109. -/
structure CorrectionQuotients (n : NTIn) : Prop where
  /-- lines 447, 452 -/
  angle : n.mu0 ≠ 0 ∧ ∀ i < 2 * n.N, n.mu0 + n.muArr i ≠ 0
  /-- line 448 -/
  peak : ∀ l < n.NLayers, 1 - n.f l ≠ 0
  /-- lines 460-470, 515 -/
  scaling : ∀ l < n.NLayers, n.scale l ≠ 0 ∧ ∀ i < n.N, n.mu i ≠ 0
  /-- lines 534, 575 -/
  decay : ∀ i < n.N, ∀ k ≤ n.NLayers, n.decayProd i k ≠ 0
  /-- line 602 -/
  depth : ∑ k ∈ range n.NLayers, n.tauArr k ≠ 0
  /-- line 604 -/
  scattering : n.sum1 ≠ 0
  /-- line 609 -/
  peaks : n.sum2 ≠ 0
  /-- lines 611, 633 -/
  mean : 1 - n.omegaAvg * n.fAvg ≠ 0
  /-- lines 617-628 -/
  secondary : n.scaledMu0 ≠ 0 ∧ ∀ i < n.N, 1 / n.mu i - 1 / n.scaledMu0 ≠ 0
  /-- `np.sqrt(1 - mu_p**2)`, `np.sqrt(1 - mu**2)` -/
  radicands : 0 ≤ 1 - n.mu0 ^ 2 ∧ ∀ i < n.N, 0 ≤ 1 - n.mu i ^ 2

end Pydisort.Spec

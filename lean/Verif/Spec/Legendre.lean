import Mathlib.Algebra.Polynomial.Derivative
import Mathlib.Algebra.Polynomial.Eval.Degree
import Mathlib.Analysis.Real.Sqrt
import Mathlib.Data.Nat.Factorial.Basic

/-!
# Specification: Legendre polynomials and associated Legendre functions

Textbook definitions (Rodrigues' formula; Condon–Shortley phase, as in `scipy.special.lpmv`).
-/

namespace Pydisort.Spec
open Polynomial

/-- Legendre polynomial `P_ℓ`, by Rodrigues' formula `1/(2^ℓ ℓ!) dᵏ/dxᵏ (x²-1)^ℓ`, `k = ℓ`. -/
noncomputable def legendreP (l : ℕ) : Polynomial ℝ :=
  C (1 / (2 ^ l * (l.factorial : ℝ))) * derivative^[l] ((X ^ 2 - 1) ^ l)

/-- Associated Legendre function `P_ℓ^m(x) = (-1)^m (1-x²)^{m/2} dᵐ/dxᵐ P_ℓ(x)`. -/
noncomputable def assocLegendre (m l : ℕ) (x : ℝ) : ℝ :=
  (-1) ^ m * Real.sqrt (1 - x ^ 2) ^ m * (derivative^[m] (legendreP l)).eval x

end Pydisort.Spec

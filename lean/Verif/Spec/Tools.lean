import Verif.NumPy
import Mathlib.Analysis.SpecialFunctions.Trigonometric.Basic
import Mathlib.Analysis.Real.Sqrt

/-!
# Vocabulary for the properties of the subroutines

The contents of an array, polynomials given by coefficients, directions, indices of squeezed arrays.
-/

namespace Pydisort.Spec
open Finset

/-- The entries of a rank-1 array, in order. -/
def entries {α : Type} (a : A1 α) : List α := (List.range a.n).map a.get

/-- `Σ_j c_j x^j` for the `n` coefficients `c`. -/
noncomputable def polyVal (n : ℕ) (c : ℕ → ℝ) (x : ℝ) : ℝ := ∑ j ∈ range n, c j * x ^ j

/-- The unit vector with polar cosine `mu` and azimuth `phi`. -/
noncomputable def direction (mu phi : ℝ) : Fin 3 → ℝ :=
  ![Real.sqrt (1 - mu ^ 2) * Real.cos phi, Real.sqrt (1 - mu ^ 2) * Real.sin phi, mu]

/-- Scalar product of two vectors of length three. -/
def dot3 (v w : Fin 3 → ℝ) : ℝ := v 0 * w 0 + v 1 * w 1 + v 2 * w 2

/-- The index into the squeezed array of the entry with index `ix` of an array of shape `shape`: the positions of the axes of size
one are left out. -/
def squeezedIx : List ℕ → List ℕ → List ℕ
  | d :: ds, i :: is => if d = 1 then squeezedIx ds is else i :: squeezedIx ds is
  | _, _ => []

/-- `ix` is an index into an array of shape `shape`. -/
def ValidIx (shape ix : List ℕ) : Prop := List.Forall₂ (fun d i => i < d) shape ix

end Pydisort.Spec

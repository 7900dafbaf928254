import Verif.Spec.Tools
import Verif.Spec.Same

/-!
# Specification: arrays without their axes of length one
-/

namespace Pydisort.Spec

/-- Two arrays of any rank hold the same data. -/
def SameND (a b : ND ℝ) : Prop := a.shape = b.shape ∧ ∀ ix, ValidIx a.shape ix → a.get ix = b.get ix

/-- The call succeeds and returns the array of shape `shape` with the entries `v`, except that the axes of length one are left out. -/
def Hands (x : Py (ND ℝ)) (shape : List ℕ) (v : List ℕ → ℝ) : Prop :=
  ∃ A, x = .ok A ∧ A.shape = shape.filter (· ≠ 1) ∧ ∀ ix, ValidIx shape ix → A.get (squeezedIx shape ix) = v ix

end Pydisort.Spec

import Verif.Spec.Problem

/-!
# Specification: the form in which `leggauss` returns a rule
-/

namespace Pydisort.Spec

/-- The nodes are increasing. In the model an array is a function on the natural numbers with a length; beyond the length it is zero. -/
structure Tidy (E : Ext) (n : ℕ) : Prop where
  increasing : ∀ i j, i < j → j < n → (E.leggauss n).1 i < (E.leggauss n).1 j
  beyond : ∀ i, n ≤ i → (E.leggauss n).1 i = 0 ∧ (E.leggauss n).2 i = 0

end Pydisort.Spec

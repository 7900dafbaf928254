import Verif.Spec.Same

/-!
# Specification: results of array programs
-/

namespace Pydisort.Spec

/-- Both computations return, with related values, or both raise an exception (perhaps not the same). -/
def SameOrRaise {α β : Type} (rel : α → β → Prop) : Py α → Py β → Prop
  | .ok x, .ok y => rel x y
  | .error _, .error _ => True
  | _, _ => False

/-- A row and a rank-1 array hold the same data. -/
def SameRow (x : A2 ℝ) (y : A1 ℝ) : Prop := x.r = 1 ∧ x.c = y.n ∧ ∀ t < y.n, x.get 0 t = y.get t

/-- Downward fluxes, the diffuse part before the squeeze. -/
def SameDownRow (x : A2 ℝ × A1 ℝ × Bool) (y : A1 ℝ × A1 ℝ × Bool) : Prop := SameRow x.1 y.1 ∧ A1.Same x.2.1 y.2.1 ∧ x.2.2 = y.2.2

end Pydisort.Spec

import Verif.Model.Pydisort

/-!
# Specification: two calls give the same results
-/

namespace Pydisort

/-- Two rank-3 arrays hold the same data. -/
def A3.Same {α : Type*} (a b : A3 α) : Prop :=
  a.d0 = b.d0 ∧ a.d1 = b.d1 ∧ a.d2 = b.d2 ∧
    ∀ i < a.d0, ∀ j < a.d1, ∀ k < a.d2, a.get i j k = b.get i j k

namespace Spec

/-- Both computations return, with related values, or both raise the same exception. -/
def SameOutcome {α β : Type} (rel : α → β → Prop) : Py α → Py β → Prop
  | .ok x, .ok y => rel x y
  | .error e, .error e' => e = e'
  | _, _ => False

/-- Downward fluxes: the diffuse and the direct part (and whether the latter is an array). -/
def SameDown (x y : A1 ℝ × A1 ℝ × Bool) : Prop := A1.Same x.1 y.1 ∧ A1.Same x.2.1 y.2.1 ∧ x.2.2 = y.2.2

/-- The quadrature angles, the flux functions and `u0` behave identically for all arguments. -/
structure SameFluxes (R R' : Solved) : Prop where
  mu : A1.Same R.muArr R'.muArr
  u0 : ∀ tau anti, SameOutcome A2.Same (R.u0 tau anti) (R'.u0 tau anti)
  up : ∀ tau anti, SameOutcome A1.Same (R.fluxUp tau anti) (R'.fluxUp tau anti)
  down : ∀ tau anti, SameOutcome SameDown (R.fluxDown tau anti) (R'.fluxDown tau anti)

/-- All returned functions behave identically for all arguments. -/
structure SameResults (R R' : Solved) : Prop extends SameFluxes R R' where
  u : ∀ tau phi anti, SameOutcome A3.Same (R.u tau phi anti) (R'.u tau phi anti)

end Spec
end Pydisort

import Verif.Spec.Endless

/-!
# Specification: depths given as integers
-/

namespace Pydisort.Spec

/-- The `d`-th powers of the depths fit into a 64-bit integer. -/
def PowersFit (d : ℕ) (tau : A1 ℤ) : Prop := ∀ k < tau.n, |tau.get k| ^ d < 2 ^ 63

/-- The same depths as floats. -/
def asFloats (tau : A1 ℤ) : A1 ℝ := ⟨tau.n, fun k => (tau.get k : ℝ)⟩

end Pydisort.Spec

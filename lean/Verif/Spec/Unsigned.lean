import Verif.Model.Unsigned
import Verif.Spec.Validation

/-!
# Specification for C134: the atmosphere that unsigned depths stand for
-/

namespace Pydisort.Spec
open Finset

/-- Where the lower boundaries of the layers lie if the thickness of every layer but the first is taken modulo `2^w`. (The last entry is repeated beyond the array.) -/
noncomputable def unwrapped (w : ℕ) (tau : A1 ℕ) : A1 ℝ :=
  ⟨tau.n, fun k => ∑ j ∈ range (min (k + 1) tau.n), if j = 0 then (tau.get 0 : ℝ) else ((((tau.get j : ℤ) - tau.get (j - 1)) % 2 ^ w : ℤ) : ℝ)⟩

/-- The array holds unsigned integers of `w` bits. -/
def FitsIn (w : ℕ) (tau : A1 ℕ) : Prop := ∀ k < tau.n, tau.get k < 2 ^ w

end Pydisort.Spec

import Verif.Spec.Corrections
import Verif.Model.NonFinite

/-!
# Specification for C131: exponentials that underflow
-/

namespace Pydisort.Spec

/-- The exponential function of a floating-point format: zero for arguments below `-c` and only there (`c` is about 745 in double precision). -/
def VanishesBelow (ex : ℝ → ℝ) (c : ℝ) : Prop := ∀ x, ex x = 0 ↔ x < -c

/-- The optical depth (after delta-M scaling) along stream `i` from the top of the atmosphere to the lower boundary of layer `l` (upward streams, except in the lowest layer) or to its upper boundary (downward
streams, except in the uppermost layer) is at most `c`. -/
def InReach (E : Ext) (a : Args) (c : ℝ) (i l : ℕ) : Prop :=
  if i < nHalf a then l + 1 < a.tauArr.n → bdryStar a (l + 1) / node E a i ≤ c
  else 0 < l → bdryStar a l / node E a (i - nHalf a) ≤ c

end Pydisort.Spec

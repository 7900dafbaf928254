import Verif.Spec.Fields

/-!
# Specification: splitting a layer
-/

namespace Pydisort.Spec

/-- Row `j` of an array in which row `k` has been duplicated is row `dup k j` of the original. -/
def dup (k j : ℕ) : ℕ := if j ≤ k then j else j - 1

/-- The atmosphere in which layer `k` is cut at depth `x` into two layers with the same optical properties. Arrays that have
one entry per layer get one more; the default (all-zero) forward peaks and sources may have a single entry and stay. -/
noncomputable def splitLayer (a : Args) (k : ℕ) (x : ℝ) : Args :=
  { a with
    tauArr := ⟨a.tauArr.n + 1, fun j => if j = k then x else a.tauArr.get (dup k j)⟩
    omega := ⟨a.omega.n + 1, fun j => a.omega.get (dup k j)⟩
    leg := ⟨a.leg.r + 1, a.leg.c, fun j i => a.leg.get (dup k j) i⟩
    fArr := if a.fArr.n = a.tauArr.n then ⟨a.fArr.n + 1, fun j => a.fArr.get (dup k j)⟩ else a.fArr
    s := if a.s.r = a.tauArr.n then ⟨a.s.r + 1, a.s.c, fun j i => a.s.get (dup k j) i⟩ else a.s }

end Pydisort.Spec

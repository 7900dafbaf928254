import Verif.Spec.Same
import Verif.Spec.Field

/-!
# Specification: linear dependence on the sources
-/

namespace Pydisort

/-- `c * b` for a boundary value. -/
def BCv.times (c : ℝ) : BCv → BCv
  | .scalar x => .scalar (c * x)
  | .vec v => .vec (v.map (c * ·))
  | .mat v => .mat (v.map (c * ·))

namespace Spec

/-- The same call with every source multiplied by `c`. -/
def brighter (c : ℝ) (a : Args) : Args :=
  { a with
    I0 := c * a.I0
    bpos := a.bpos.times c
    bneg := a.bneg.times c
    s := a.s.map (c * ·) }

/-- The second array is `c` times the first. -/
def Times1 (c : ℝ) (x y : A1 ℝ) : Prop := x.n = y.n ∧ ∀ i < x.n, y.get i = c * x.get i
/-- The second array is `c` times the first. -/
def Times2 (c : ℝ) (x y : A2 ℝ) : Prop :=
  x.r = y.r ∧ x.c = y.c ∧ ∀ i < x.r, ∀ j < x.c, y.get i j = c * x.get i j
/-- The second array is `c` times the first. -/
def Times3 (c : ℝ) (x y : A3 ℝ) : Prop :=
  x.d0 = y.d0 ∧ x.d1 = y.d1 ∧ x.d2 = y.d2 ∧
    ∀ i < x.d0, ∀ j < x.d1, ∀ k < x.d2, y.get i j k = c * x.get i j k

/-- Every returned function of `R'` gives `c` times what that of `R` gives, for all arguments (and raises the same
exception on the arguments on which that of `R` raises). -/
structure TimesResults (c : ℝ) (R R' : Solved) : Prop where
  mu : A1.Same R.muArr R'.muArr
  u0 : ∀ tau anti, SameOutcome (Times2 c) (R.u0 tau anti) (R'.u0 tau anti)
  up : ∀ tau anti, SameOutcome (Times1 c) (R.fluxUp tau anti) (R'.fluxUp tau anti)
  down : ∀ tau anti, SameOutcome
    (fun x y => Times1 c x.1 y.1 ∧ Times1 c x.2.1 y.2.1 ∧ x.2.2 = y.2.2) (R.fluxDown tau anti) (R'.fluxDown tau anti)
  u : ∀ tau phi anti, SameOutcome (Times3 c) (R.u tau phi anti) (R'.u tau phi anti)

end Spec
end Pydisort

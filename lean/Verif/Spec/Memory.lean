import Verif.Model.Memory

/-!
# Specification: what a call finds in memory and what it may do to it
-/

namespace Pydisort.Spec

/-- The content of an argument at the time of the call. -/
def value1 (h : Heap) : In1 → A1 ℝ
  | .arr p => h.v p
  | .lit x => x

/-- The content of an argument at the time of the call, as an array of rank two. -/
def value2 (h : Heap) : In2 → A2 ℝ
  | .arr p => h.m p
  | .row p => (h.v p).row
  | .lit x => x

/-- The values of the arguments at the time of the call. -/
def argsOf (c : CallArgs) (h : Heap) : Args :=
  { c.rest with
    tauArr := value1 h c.tau, omega := value1 h c.omega, leg := value2 h c.leg, s := value2 h c.s, fArr := value1 h c.f }

/-- The argument is not an array, or it is an array that exists. -/
def Exists1 (h : Heap) : In1 → Prop
  | .arr p => p < h.nv
  | .lit _ => True

/-- The argument is not an array, or it is an array that exists. -/
def Exists2 (h : Heap) : In2 → Prop
  | .arr p => p < h.nm
  | .row p => p < h.nv
  | .lit _ => True

/-- All arrays that are passed exist. -/
structure Valid (c : CallArgs) (h : Heap) : Prop where
  tau : Exists1 h c.tau
  omega : Exists1 h c.omega
  leg : Exists2 h c.leg
  s : Exists2 h c.s
  f : Exists1 h c.f

/-- The array passed as `Leg_coeffs_all` is not passed for another argument too. -/
def LegApart (c : CallArgs) : Prop :=
  (∀ p, c.leg = .row p → c.tau ≠ .arr p ∧ c.omega ≠ .arr p ∧ c.f ≠ .arr p ∧ c.s ≠ .row p)
    ∧ ∀ p, c.leg = .arr p → c.s ≠ .arr p

/-- The memory `g` after writing `x` into the array at address `p`. -/
def writeTo (g : Heap) (p : ℕ) (x : A1 ℝ) : Heap := { g with v := Function.update g.v p x }

/-- The functions that a call has returned evaluate alike in the memories `g` and `g'`. -/
def SameFunctions (cl : Closure) (g g' : Heap) : Prop := ∀ (tau phi : A1 ℝ) (anti : Bool),
  cl.u g tau phi anti = cl.u g' tau phi anti ∧ cl.u0 g tau anti = cl.u0 g' tau anti ∧
    cl.fluxUp g tau anti = cl.fluxUp g' tau anti ∧ cl.fluxDown g tau anti = cl.fluxDown g' tau anti

end Pydisort.Spec

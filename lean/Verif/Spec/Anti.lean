import Verif.Spec.Field
import Mathlib.MeasureTheory.Integral.IntervalIntegral.Basic
import Mathlib.Analysis.Calculus.Deriv.Basic

/-!
# Specification: antiderivatives with respect to depth
-/

namespace Pydisort.Spec

/-- Depth `t` belongs to layer `l`: a layer contains its lower boundary, and the first one also the top. -/
def Inside (a : Args) (l : ℕ) (t : ℝ) : Prop :=
  t ≤ bdry a.tauArr.get (l + 1) ∧ (bdry a.tauArr.get l < t ∨ (l = 0 ∧ 0 ≤ t))

/-- `P` is an antiderivative of `F` in every layer: its derivative inside the layer is `F`, and its increment between
two depths of the layer is the integral of `F`. -/
structure AntiOf (a : Args) (F P : ℝ → ℝ) : Prop where
  deriv : ∀ l < a.tauArr.n, ∀ t, bdry a.tauArr.get l < t → t < bdry a.tauArr.get (l + 1) → HasDerivAt P (F t) t
  integral : ∀ l < a.tauArr.n, ∀ t₁ t₂, Inside a l t₁ → Inside a l t₂ → P t₂ - P t₁ = ∫ x in t₁..t₂, F x

end Pydisort.Spec

import Verif.Spec.Field

/-!
# What a numerical exponential function has to do
-/

namespace Pydisort.Spec
open Finset

/-- All that is asked of the function that computes the exponentials: for a negative exponent it returns a number between 0 and 1, both included. The exponential
function of a floating-point library does so, including when the result underflows to 0 or is rounded to 1. -/
def Damping (ex : ℝ → ℝ) : Prop := ∀ x < 0, 0 ≤ ex x ∧ ex x ≤ 1

/-- Light reflected by the surface, as `Spec.reflected`, with the attenuation of the direct beam computed by `ex`. -/
noncomputable def reflectedX (ex : ℝ → ℝ) (a : Args) (mu w : Vec) (rho : ℝ → ℝ → ℝ) (m : ℕ) (x : ℝ) (d : ℕ → ℝ) : ℝ :=
  (1 + if m = 0 then 1 else 0) * ∑ j ∈ range (nHalf a), w j * mu j * rho x (mu j) * d j
    + a.mu0 * a.I0 / Real.pi * rho x a.mu0 * ex (-bdryStar a a.tauArr.n / a.mu0)

end Pydisort.Spec

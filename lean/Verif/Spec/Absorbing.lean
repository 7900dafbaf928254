import Verif.Spec.Fields
import Verif.Spec.Solution
import Verif.Spec.Validation

/-!
# Specification: a purely absorbing atmosphere
-/

namespace Pydisort.Spec
open Finset

/-- Nothing in the atmosphere scatters or emits. -/
structure Clear (a : Args) : Prop where
  albedo : ∀ l < a.tauArr.n, a.omega.get l = 0
  source : NoSource a

/-- Nothing scatters, emits or reflects. -/
structure Absorbing (a : Args) : Prop extends Clear a where
  surface : a.bdrf = []

/-- The closed-form field: each boundary value decays exponentially along its stream, and the beam stays direct. -/
noncomputable def absorbed (a : Args) (mu w : Vec) : Fields where
  u0 := fun t i => if i < nHalf a then bcVal a.bpos 0 i * Real.exp (-(bottom a - t) / mu i)
    else bcVal a.bneg 0 (i - nHalf a) * Real.exp (-t / mu (i - nHalf a))
  up := fun t => 2 * Real.pi * ∑ i ∈ range (nHalf a), mu i * w i * (bcVal a.bpos 0 i * Real.exp (-(bottom a - t) / mu i))
  diffuse := fun t => 2 * Real.pi * ∑ i ∈ range (nHalf a), mu i * w i * (bcVal a.bneg 0 i * Real.exp (-t / mu i))
  direct := fun t => a.I0 * a.mu0 * Real.exp (-t / a.mu0)
  u := fun t _ i => if i < nHalf a then bcVal a.bpos 0 i * Real.exp (-(bottom a - t) / mu i)
    else bcVal a.bneg 0 (i - nHalf a) * Real.exp (-t / mu (i - nHalf a))

/-- Mode `m` of the field in a non-scattering atmosphere over a reflecting surface: downward light is attenuated from the top; at the bottom it
(and the beam) is reflected once, joins the upward boundary value, and is attenuated on its way up. -/
noncomputable def clearMode (a : Args) (mu w : Vec) (rho : ℝ → ℝ → ℝ) (m : ℕ) (t : ℝ) (i : ℕ) : ℝ :=
  if i < nHalf a then
    (bcVal a.bpos m i + if m < a.bdrf.length then
      reflected a mu w rho m (mu i) (fun j => bcVal a.bneg m j * Real.exp (-bottom a / mu j)) else 0)
      * Real.exp (-(bottom a - t) / mu i)
  else bcVal a.bneg m (i - nHalf a) * Real.exp (-t / mu (i - nHalf a))

end Pydisort.Spec

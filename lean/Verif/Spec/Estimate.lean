import Verif.Spec.Field
import Mathlib.Order.Bounds.Basic

/-!
# Specification: the Fourier error estimate
-/

namespace Pydisort.Spec
open Finset

/-- The intensity with Fourier modes `U m t i`: the sum of its Fourier series at depth `t`, stream `i`, azimuth `ph`. -/
noncomputable def series (a : Args) (U : ℕ → ℝ → ℕ → ℝ) (i : ℕ) (t ph : ℝ) : ℝ :=
  ∑ m ∈ range (nFourier a), U m t i * Real.cos (m * (a.phi0 - ph))

/-- The last term of the series. -/
noncomputable def lastTerm (a : Args) (U : ℕ → ℝ → ℕ → ℝ) (i : ℕ) (t ph : ℝ) : ℝ :=
  U (nFourier a - 1) t i * Real.cos ((nFourier a - 1 : ℕ) * (a.phi0 - ph))

open Classical in
/-- `|last Fourier term| / |u|`, or zero where `|u|` does not exceed `eps`. -/
noncomputable def lastRatio (a : Args) (U : ℕ → ℝ → ℕ → ℝ) (eps : ℝ) (i : ℕ) (t ph : ℝ) : ℝ :=
  if eps < |series a U i t ph| then |lastTerm a U i t ph| / |series a U i t ph| else 0

/-- `e` is the maximum of that ratio over all streams, depths and azimuths. -/
def IsFourierError (a : Args) (U : ℕ → ℝ → ℕ → ℝ) (eps : ℝ) (tau phi : A1 ℝ) (e : ℝ) : Prop :=
  IsGreatest {x | ∃ i < 2 * nHalf a, ∃ t < tau.n, ∃ p < phi.n, x = lastRatio a U eps i (tau.get t) (phi.get p)} e

/-- `V m t i` are the Fourier modes of what `u(tau, phi, True)` returns. -/
def IsAntiModes (a : Args) (R : Solved) (V : ℕ → ℝ → ℕ → ℝ) : Prop :=
  ∀ tau phi, InRange a tau →
    Returns3 (R.u tau phi true) (2 * nHalf a) tau.n phi.n (fun i t p => series a V i (tau.get t) (phi.get p))

end Pydisort.Spec

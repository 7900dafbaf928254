import Verif.Spec.Corrections
import Verif.Spec.WholeLimit

/-!
# Specification: what truncation and delta-M scaling remove from a phase function
-/

namespace Pydisort.Spec
open Finset

/-- A bound for what is cut off from the phase function of layer `l`: the peak `f` in each of the `NLeg` coefficients that are used, and the coefficients that are not used. -/
noncomputable def cutOff (a : Args) (l : ℕ) : ℝ :=
  peak a l * (nLeg a : ℝ) ^ 2 + ∑ k ∈ Ico (nLeg a) a.leg.c, (2 * (k : ℝ) + 1) * |leg a l k|

/-- `b` asks for the intensities of the atmosphere `a` with phase functions `g` as in `AsksForWhole`, but with the Nakajima-Tanaka corrections. The coefficients that only the corrections use
are those of `g`, too. The last two conditions exclude divisions by zero in the IMS correction: no quadrature angle is `μ₀ / (1 - ω f)` with its averages, and some layer that scatters has a
peak. -/
structure AsksForCorrected (E : Ext) (a : Args) (g : ℕ → ℕ → ℝ) (rho : ℕ → ℝ → ℝ → ℝ) (up down : ℝ → ℝ) (b : Args) : Prop where
  asks : AsksForWhole E a g rho up down { b with NTcor := false }
  corrected : b.NTcor = true
  rest : ∀ l < a.tauArr.n, ∀ k, 0 < k → k < b.leg.c → b.leg.get l k = g l k
  defined : Corrected b → ∃ l < b.tauArr.n, peak b l * b.omega.get l ≠ 0
  apart : ∀ i < nHalf b, node E b i ≠ scaledMu0 b

end Pydisort.Spec

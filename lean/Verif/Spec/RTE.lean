import Verif.Spec.Legendre
import Mathlib.Analysis.SpecialFunctions.ExpDeriv
import Mathlib.Analysis.SpecialFunctions.Trigonometric.Basic
import Mathlib.Analysis.Calculus.Deriv.Basic

/-!
# Specification: the discretised radiative transfer equation

Written from section 3 of the Comprehensive Documentation (`/repo/docs/Pythonic-DISORT.ipynb`), with no
reference to the model. `N` positive nodes `mu 0, …, mu (N-1)` with weights `w`; the `2 N` streams are
the directions `mu i` (index `i < N`, upward) and `-mu i` (index `N + i`, downward).
-/

namespace Pydisort.Spec

/-- Signed direction cosine of stream `i`: `mu i` for `i < N`, `-mu (i - N)` otherwise. -/
def stream (N : ℕ) (mu : ℕ → ℝ) (i : ℕ) : ℝ := if i < N then mu i else -mu (i - N)

/-- Quadrature weight of stream `i`. -/
def streamW (N : ℕ) (w : ℕ → ℝ) (i : ℕ) : ℝ := if i < N then w i else w (i - N)

/-- The `m`-th azimuthal moment of the phase function with Legendre coefficients `g` truncated to
`NLeg` terms, `Σ_ℓ (2ℓ+1) g_ℓ (ℓ-m)!/(ℓ+m)! P_ℓ^m(μ) P_ℓ^m(μ')`. -/
noncomputable def phaseMoment (NLeg : ℕ) (g : ℕ → ℝ) (m : ℕ) (x y : ℝ) : ℝ :=
  ∑ l ∈ Finset.Ico m NLeg, (2 * (l : ℝ) + 1) * g l
    * (((l - m).factorial : ℝ) / ((l + m).factorial : ℝ)) * assocLegendre m l x * assocLegendre m l y

/-- `D^m(μ, μ')`: half the single-scattering albedo times the azimuthal moment. -/
noncomputable def scatD (om : ℝ) (NLeg : ℕ) (g : ℕ → ℝ) (m : ℕ) (x y : ℝ) : ℝ :=
  om / 2 * phaseMoment NLeg g m x y

/-- Amplitude of the beam source: `ω I₀ (2 - δ_{m0}) / (4π) Σ_ℓ … P_ℓ^m(μ) P_ℓ^m(-μ₀)`. -/
noncomputable def beamX (om : ℝ) (NLeg : ℕ) (g : ℕ → ℝ) (I0 mu0 : ℝ) (m : ℕ) (x : ℝ) : ℝ :=
  om * I0 * (2 - if m = 0 then 1 else 0) / (4 * Real.pi) * phaseMoment NLeg g m x (-mu0)

/-- The right-hand side of the discretised transfer equation `μ_i du_i/dτ = …` at one stream:
intensity minus in-scattering minus the beam source minus the internal source. -/
noncomputable def rteRHS (N : ℕ) (mu w : ℕ → ℝ) (D : ℝ → ℝ → ℝ) (X : ℝ → ℝ) (mu0 s tau : ℝ)
    (u : ℕ → ℝ) (i : ℕ) : ℝ :=
  u i - ∑ j ∈ Finset.range (2 * N), streamW N w j * D (stream N mu i) (stream N mu j) * u j
    - X (stream N mu i) * Real.exp (-tau / mu0) - s

end Pydisort.Spec

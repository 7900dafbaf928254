import Verif.Spec.Bounds
import Verif.Spec.Flux

/-!
# Specification: atmospheres with slightly different optical properties
-/

namespace Pydisort.Spec
open Finset

/-- The same call with other single-scattering albedos, other Legendre coefficients and other fractional scattering into the peak. -/
def retuned (a : Args) (om : A1 ℝ) (g : A2 ℝ) (f : A1 ℝ) : Args :=
  { a with
    omega := om
    leg := g
    fArr := f }

/-- What stream `i` of layer `l` gains by scattering, per unit of the caller's optical depth along its direction and per unit of the azimuthally averaged intensity in
stream `j`; the quadrature weight is included. Light scattered into the forward peak stays in its stream. -/
noncomputable def scattered (a : Args) (mu w : Vec) (l i j : ℕ) : ℝ :=
  (if i = j then a.omega.get l * peak a l else 0)
    + scale a l * (streamW (nHalf a) w j * kernel a 0 l (stream (nHalf a) mu i) (stream (nHalf a) mu j))

/-- In every layer the scattering of the two atmospheres differs, summed over the streams, by at most the fraction `ε` of what the first one absorbs. -/
def SimilarOptics (a₁ a₂ : Args) (mu w : Vec) (ε : ℝ) : Prop :=
  ∀ l < a₁.tauArr.n, ∀ i < 2 * nHalf a₁,
    ∑ j ∈ range (2 * nHalf a₁), |scattered a₁ mu w l i j - scattered a₂ mu w l i j| ≤ ε * (1 - a₁.omega.get l)

end Pydisort.Spec

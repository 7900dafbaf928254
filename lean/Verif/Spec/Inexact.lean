import Verif.Spec.Bounds
import Verif.Spec.Flux

/-!
# Specification: fields that solve the transfer equation only approximately
-/

namespace Pydisort.Spec
open Finset

/-- The azimuthally averaged field `v l t i` (layer `l`, depth `t`, stream `i`) solves the transfer equation up to `η` (per unit of delta-M scaled depth), is
continuous at the layer interfaces up to `δ`, and satisfies the boundary conditions up to `β`. -/
structure NearlySolves (a : Args) (mu w : Vec) (rho : ℝ → ℝ → ℝ) (v : ℕ → ℝ → ℕ → ℝ) (η δ β : ℝ) : Prop where
  ode : ∀ l < a.tauArr.n, ∀ t, InLayer a l t → ∀ i < 2 * nHalf a,
    ∃ d, HasDerivAt (fun x => v l x i) d t ∧ |stream (nHalf a) mu i * d - rteUser a mu w 0 l t (v l t) i| ≤ scale a l * η
  mid : ∀ l, l + 1 < a.tauArr.n → ∀ i < 2 * nHalf a, |v l (a.tauArr.get l) i - v (l + 1) (a.tauArr.get l) i| ≤ δ
  top : ∀ i < nHalf a, |v 0 0 (nHalf a + i) - bcVal a.bneg 0 i| ≤ β
  bot : ∀ i < nHalf a, |v (a.tauArr.n - 1) (bottom a) i - (bcVal a.bpos 0 i
    + if 0 < a.bdrf.length then reflected a mu w rho 0 (mu i) (fun j => v (a.tauArr.n - 1) (bottom a) (nHalf a + j)) else 0)| ≤ β

/-- Every layer and the surface absorb at least the fraction `κ` of the light that meets them. -/
structure AbsorbsFraction (a : Args) (mu w : Vec) (rho : ℝ → ℝ → ℝ) (κ : ℝ) : Prop where
  pos : 0 < κ
  layers : ∀ l < a.tauArr.n, κ ≤ 1 - effAlbedo a l
  surface : ∀ i < nHalf a, κ ≤ 1 - reflectance a mu w rho (mu i)

/-- A polynomial of the delta-M scaled depth with the coefficients `P l p i`, `p < Nc`, in layer `l` and stream `i`. -/
noncomputable def polyPart (a : Args) (Nc : ℕ) (P : ℕ → ℕ → ℕ → ℝ) (l : ℕ) (t : ℝ) (i : ℕ) : ℝ := ∑ p ∈ range Nc, P l p i * tauStar a l t ^ p

/-- Its derivative with respect to the delta-M scaled depth. -/
noncomputable def polySlope (a : Args) (Nc : ℕ) (P : ℕ → ℕ → ℕ → ℝ) (l : ℕ) (t : ℝ) (i : ℕ) : ℝ := ∑ p ∈ range Nc, P l p i * ((p : ℝ) * tauStar a l t ^ (p - 1))

/-- The azimuthally averaged field that is described by four arrays, as the documentation writes it: in layer `l` the terms `GC l i j` decay downward from the top of
the layer for `j < N` and upward from its bottom for `j ≥ N`, with the rates `K l j`; `B l i` is the amplitude of the light scattered out of the beam; and the polynomial with the
coefficients `P l p i` is the light of the internal source. -/
noncomputable def arrayField (a : Args) (r : ℝ) (GC : ℕ → ℕ → ℕ → ℝ) (K B : ℕ → ℕ → ℝ) (Nc : ℕ) (P : ℕ → ℕ → ℕ → ℝ) (l : ℕ) (t : ℝ) (i : ℕ) : ℝ :=
  r * (∑ j ∈ range (2 * nHalf a), GC l i j * Real.exp (K l j * (tauStar a l t - bdryStar a (if j < nHalf a then l else l + 1)))
    + (if 0 < a.I0 then B l i * Real.exp (-tauStar a l t / a.mu0) else 0) + polyPart a Nc P l t i)

/-- The residuals of the linear algebra are small. `eig`: column `j` of `GC` is nearly an eigenvector for `K l j`, `B` nearly solves the linear system for the beam, and the polynomial
with coefficients `P` nearly solves the equation with the internal source; `mid`, `top`, `bot`: the linear system for the coefficients is nearly solved. -/
structure SmallResiduals (a : Args) (mu w : Vec) (rho : ℝ → ℝ → ℝ) (r : ℝ) (GC : ℕ → ℕ → ℕ → ℝ) (K B : ℕ → ℕ → ℝ) (Nc : ℕ) (P : ℕ → ℕ → ℕ → ℝ) (η δ β : ℝ) : Prop where
  downward : ∀ l < a.tauArr.n, ∀ j < nHalf a, K l j ≤ 0
  upward : ∀ l < a.tauArr.n, ∀ j < 2 * nHalf a, nHalf a ≤ j → 0 ≤ K l j
  eig : ∀ l < a.tauArr.n, ∀ t, InLayer a l t → ∀ i < 2 * nHalf a,
    |r| * ∑ j ∈ range (2 * nHalf a), |GC l i j - ∑ q ∈ range (2 * nHalf a), streamW (nHalf a) w q
        * kernel a 0 l (stream (nHalf a) mu i) (stream (nHalf a) mu q) * GC l q j - stream (nHalf a) mu i * K l j * GC l i j|
      + (if 0 < a.I0 then |r * ((1 + stream (nHalf a) mu i / a.mu0) * B l i - ∑ q ∈ range (2 * nHalf a), streamW (nHalf a) w q
          * kernel a 0 l (stream (nHalf a) mu i) (stream (nHalf a) mu q) * B l q) - beamSource a 0 l (stream (nHalf a) mu i)| else 0)
      + |r * (polyPart a Nc P l t i - ∑ q ∈ range (2 * nHalf a), streamW (nHalf a) w q
          * kernel a 0 l (stream (nHalf a) mu i) (stream (nHalf a) mu q) * polyPart a Nc P l t q - stream (nHalf a) mu i * polySlope a Nc P l t i)
          - (1 - a.omega.get l) / scale a l * source a l t| ≤ η
  mid : ∀ l, l + 1 < a.tauArr.n → ∀ i < 2 * nHalf a,
    |arrayField a r GC K B Nc P l (a.tauArr.get l) i - arrayField a r GC K B Nc P (l + 1) (a.tauArr.get l) i| ≤ δ
  top : ∀ i < nHalf a, |arrayField a r GC K B Nc P 0 0 (nHalf a + i) - bcVal a.bneg 0 i| ≤ β
  bot : ∀ i < nHalf a, |arrayField a r GC K B Nc P (a.tauArr.n - 1) (bottom a) i - (bcVal a.bpos 0 i + if 0 < a.bdrf.length then
    reflected a mu w rho 0 (mu i) (fun j => arrayField a r GC K B Nc P (a.tauArr.n - 1) (bottom a) (nHalf a + j)) else 0)| ≤ β

/-- What residuals amount to in the intensities, in an atmosphere of `n` layers that absorbs at least the fraction `κ`. -/
noncomputable def errorBound (n : ℕ) (κ η δ β : ℝ) : ℝ := (max η β + 2 * ((n - 1 : ℕ) * δ)) / κ + (n - 1 : ℕ) * δ

end Pydisort.Spec

import Verif.Spec.Deep
import Verif.Spec.Flux
import Verif.Spec.Fields
import Verif.Model.Endless

/-!
# Specification: calls whose last boundary lies at infinity
-/

namespace Pydisort.Spec
open Finset

/-- `V t i` (depth `t`, stream `i`) is Fourier mode `m` of the intensity in the atmosphere whose lowest layer has no lower end: it solves the transfer equation at all
depths, meets the condition at the top and stays bounded. -/
structure IsDeepMode (a : Args) (mu w : Vec) (m : ℕ) (V : ℝ → ℕ → ℝ) : Prop where
  cont : ∀ i < 2 * nHalf a, ContinuousOn (fun t => V t i) (Set.Ici 0)
  ode : ∀ l < a.tauArr.n, ∀ t, InsideDeep a l t → ∀ i < 2 * nHalf a,
    ∃ d, HasDerivAt (fun x => V x i) d t ∧ stream (nHalf a) mu i * d = rteUser a mu w m l t (V t) i
  top : ∀ i < nHalf a, V 0 (nHalf a + i) = bcVal a.bneg m i
  bounded : ∃ C, ∀ t, 0 ≤ t → ∀ i < 2 * nHalf a, |V t i| ≤ C

/-- Depth `t` lies in layer `l`, where the lowest layer has no lower end. -/
def InLayerDeep (a : Args) (l : ℕ) (t : ℝ) : Prop := bdry a.tauArr.get l ≤ t ∧ (l + 1 < a.tauArr.n → t ≤ bdry a.tauArr.get (l + 1))

/-- No layer is delta-M scaled. -/
def Unscaled (a : Args) : Prop := ∀ l < a.tauArr.n, scale a l = 1

/-- The array of depths satisfies `D`. -/
def DepthsIn (D : ℝ → Prop) (tau : A1 ℝ) : Prop := ∀ k < tau.n, D (tau.get k)

/-- At depths with the property `D`, the returned functions yield finite numbers: the intensities with Fourier modes `V m t i`, and their fluxes. The direct flux of a call
without beam is an array of rank zero, represented by one entry. -/
structure ReturnsModes (a : Args) (mu w : Vec) (I : AsmF) (D : ℝ → Prop) (V : ℕ → ℝ → ℕ → ℝ) : Prop where
  u0 : ∀ tau, DepthsIn D tau → ∃ A, I.u0 (tau.map .fin) = .ok A ∧ A.r = 2 * nHalf a ∧ A.c = tau.n ∧
    ∀ i < 2 * nHalf a, ∀ k < tau.n, A.get i k = .fin (V 0 (tau.get k) i)
  u : ∀ tau (phi : A1 ℝ), DepthsIn D tau → ∃ A, I.u (tau.map .fin) (phi.map .fin) = .ok A ∧ A.d0 = 2 * nHalf a ∧ A.d1 = tau.n ∧ A.d2 = phi.n ∧
    ∀ i < 2 * nHalf a, ∀ k < tau.n, ∀ p < phi.n, A.get i k p = .fin (∑ m ∈ range (nFourier a), V m (tau.get k) i * Real.cos (m * (a.phi0 - phi.get p)))
  up : ∀ tau, DepthsIn D tau → ∃ A, I.fluxUp (tau.map .fin) = .ok A ∧ A.n = tau.n ∧
    ∀ k < tau.n, A.get k = .fin (hemiFlux a mu w (fun i => V 0 (tau.get k) i))
  down : ∀ tau, DepthsIn D tau → ∃ A B, I.fluxDown (tau.map .fin) = .ok (A, B) ∧ A.n = tau.n ∧
    (∀ k < tau.n, ∀ l < a.tauArr.n, InLayerDeep a l (tau.get k) → A.get k = .fin (hemiFlux a mu w (fun i => V 0 (tau.get k) (nHalf a + i))
      + a.I0 * a.mu0 * (Real.exp (-tauStar a l (tau.get k) / a.mu0) - Real.exp (-tau.get k / a.mu0)))) ∧
    B.n = (if 0 < a.I0 then tau.n else 1) ∧ ∀ k < B.n, B.get k = .fin (a.I0 * a.mu0 * Real.exp (-tau.get k / a.mu0))

/-- At depths with the property `D`, the intensities and the diffuse fluxes are NaN. -/
structure ReturnsNaN (a : Args) (I : AsmF) (D : ℝ → Prop) : Prop where
  u0 : ∀ tau, DepthsIn D tau → ∃ A, I.u0 (tau.map .fin) = .ok A ∧ A.r = 2 * nHalf a ∧ A.c = tau.n ∧ ∀ i < 2 * nHalf a, ∀ k < tau.n, A.get i k = .nan
  u : ∀ tau (phi : A1 ℝ), DepthsIn D tau → ∃ A, I.u (tau.map .fin) (phi.map .fin) = .ok A ∧ A.d0 = 2 * nHalf a ∧ A.d1 = tau.n ∧ A.d2 = phi.n ∧
    ∀ i < 2 * nHalf a, ∀ k < tau.n, ∀ p < phi.n, A.get i k p = .nan
  up : ∀ tau, DepthsIn D tau → ∃ A, I.fluxUp (tau.map .fin) = .ok A ∧ A.n = tau.n ∧ ∀ k < tau.n, A.get k = .nan
  down : ∀ tau, DepthsIn D tau → ∃ A B, I.fluxDown (tau.map .fin) = .ok (A, B) ∧ A.n = tau.n ∧ ∀ k < tau.n, A.get k = .nan

end Pydisort.Spec

import Verif.Spec.FullSky

/-!
# Specification: calls that approximate the untruncated transfer equation, and what they neglect
-/

namespace Pydisort.Spec
open Finset

/-- `b` is a call that asks for the intensities of the atmosphere described by `a` and the phase functions `g`: it passes the leading coefficients of `g`, the same sun and surface, asks
for no correction of the intensities, and passes as boundary values the samples of `up` and `down` at its own quadrature angles. The numbers of streams, coefficients and Fourier modes
and the delta-M peaks are free. -/
structure AsksForWhole (E : Ext) (a : Args) (g : ℕ → ℕ → ℝ) (rho : ℕ → ℝ → ℝ → ℝ) (up down : ℝ → ℝ) (b : Args) : Prop where
  truncates : Truncates a g b
  sun : b.phi0 = a.phi0
  intensities : b.onlyFlux = false
  uncorrected : b.NTcor = false
  modes : b.bdrf.length = a.bdrf.length
  surface : SurfaceIs b rho
  sampled : Sampled b (node E b) up down
  bpos : Azimuthless b.bpos
  bneg : Azimuthless b.bneg
  rescalable : Rescalable b
  sound : Sound E b

/-- Every layer absorbs at least the fraction `κ` of the light that it removes from a direction, and so does the surface when uniformly lit. -/
structure AbsorbsAtLeast (a : Args) (rho : ℕ → ℝ → ℝ → ℝ) (κ : ℝ) : Prop where
  layers : ∀ l < a.tauArr.n, a.omega.get l ≤ 1 - κ
  surface : ∀ x ∈ Set.Icc (0 : ℝ) 1, 1 / Real.pi * (∫ z in (0 : ℝ)..1, z * ∫ ph' in (0 : ℝ)..(2 * Real.pi), bdrfOf a rho x z (0 - ph')) ≤ 1 - κ

/-- `ν` bounds what the code can leave out of `ω p` because the coefficients of a Fourier mode are below its threshold `1e-8`: up to some mode `K` at most `2e-8` per mode, and
everything beyond it. -/
def NeglectsAtMost (a : Args) (g : ℕ → ℕ → ℝ) (ν : ℝ) : Prop :=
  ∀ l < a.tauArr.n, ∃ K : ℕ, 2 / 10 ^ 8 * (K : ℝ) + a.omega.get l * (∑' k : ℕ, (2 * ((k + K : ℕ) : ℝ) + 1) * |g l (k + K)|) ≤ ν

end Pydisort.Spec

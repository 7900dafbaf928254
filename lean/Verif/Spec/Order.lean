import Verif.Spec.AzMean
import Verif.Spec.Bounds

/-!
# Specification: order among the sources of light, for the untruncated equation in all directions
-/

namespace Pydisort.Spec

/-- No source is negative: internal emission, what the surface emits, and the illumination of the top. (The beam cannot be negative in an accepted call.) -/
structure NonnegInputs (a : Args) (up down : ℝ → ℝ) : Prop where
  inner : ∀ l < a.tauArr.n, ∀ t, InLayer a l t → 0 ≤ source a l t
  top : ∀ y ∈ Set.Ioc (0 : ℝ) 1, 0 ≤ down y
  bottom : ∀ y ∈ Set.Ioc (0 : ℝ) 1, 0 ≤ up y

/-- The same atmosphere and surface, lit from the same direction, but no source of `a` exceeds that of `b`. -/
structure DimmerWhole (a b : Args) (up down up' down' : ℝ → ℝ) : Prop where
  tau : b.tauArr = a.tauArr
  omega : b.omega = a.omega
  angle : b.mu0 = a.mu0
  sun : b.phi0 = a.phi0
  modes : b.bdrf.length = a.bdrf.length
  beam : a.I0 ≤ b.I0
  inner : ∀ l < a.tauArr.n, ∀ t, InLayer a l t → source a l t ≤ source b l t
  top : ∀ y ∈ Set.Ioc (0 : ℝ) 1, down y ≤ down' y
  bottom : ∀ y ∈ Set.Ioc (0 : ℝ) 1, up y ≤ up' y

/-- Fraction of the light reflected into direction `(y, φ)` out of a uniform downward hemisphere. It does not depend on `φ`. -/
noncomputable def reflectsWhole (a : Args) (rho : ℕ → ℝ → ℝ → ℝ) (y : ℝ) : ℝ :=
  1 / Real.pi * ∫ z in (0 : ℝ)..1, z * ∫ ph' in (0 : ℝ)..(2 * Real.pi), bdrfOf a rho y z (0 - ph')

/-- No source exceeds what a black body of intensity `B` at the same place would provide. -/
structure BelowBlack (a : Args) (rho : ℕ → ℝ → ℝ → ℝ) (up down : ℝ → ℝ) (B : ℝ) : Prop where
  noBeam : a.I0 = 0
  inner : ∀ l < a.tauArr.n, ∀ t, InLayer a l t → source a l t ≤ B
  top : ∀ y ∈ Set.Ioc (0 : ℝ) 1, down y ≤ B
  bottom : ∀ y ∈ Set.Ioc (0 : ℝ) 1, up y ≤ (1 - reflectsWhole a rho y) * B

/-- Every source exceeds what a black body of intensity `B` at the same place would provide, or equals it. -/
structure AboveBlack (a : Args) (rho : ℕ → ℝ → ℝ → ℝ) (up down : ℝ → ℝ) (B : ℝ) : Prop where
  inner : ∀ l < a.tauArr.n, ∀ t, InLayer a l t → B ≤ source a l t
  top : ∀ y ∈ Set.Ioc (0 : ℝ) 1, B ≤ down y
  bottom : ∀ y ∈ Set.Ioc (0 : ℝ) 1, (1 - reflectsWhole a rho y) * B ≤ up y

end Pydisort.Spec

import Verif.Spec.Azimuth

/-!
# Specification: the phase function that is left when Fourier modes are dropped

pydisort drops azimuthal modes of the phase function in two ways: it uses only the first `NFourier` of them, and it ignores scattering in modes with no coefficient above `1e-8`
(`Significant`). Here is the transfer equation with what is left of the phase function. It no longer depends on the scattering angle alone.
-/

namespace Pydisort.Spec
open Finset

open Classical in
/-- The phase function of layer `l` between the directions `(x, ph)` and `(y, ph')`, without the Fourier modes that are dropped:
`Σ_m (2 - δ_{m0}) p^m(x, y) cos (m (φ - φ'))`. -/
noncomputable def keptPhase (a : Args) (l : ℕ) (x ph y ph' : ℝ) : ℝ :=
  ∑ m ∈ range (nFourier a), if Significant (omegaStar a l) (nLeg a) (legStar a l) m then
    (2 - if m = 0 then 1 else 0) * phaseMoment (nLeg a) (legStar a l) m x y * Real.cos (m * (ph - ph')) else 0

/-- Right-hand side of the transfer equation with this phase function, in layer `l` at the caller's depth `t`, stream `i` and azimuth `ph`. -/
noncomputable def keptRHS (a : Args) (mu w : Vec) (l : ℕ) (t : ℝ) (u : ℕ → ℝ → ℝ) (i : ℕ) (ph : ℝ) : ℝ :=
  scale a l * (u i ph
    - omegaStar a l / (4 * Real.pi) * (∑ j ∈ range (2 * nHalf a), streamW (nHalf a) w j *
        ∫ ph' in (0 : ℝ)..(2 * Real.pi), keptPhase a l (stream (nHalf a) mu i) ph (stream (nHalf a) mu j) ph' * u j ph')
    - omegaStar a l * a.I0 / (4 * Real.pi) * keptPhase a l (stream (nHalf a) mu i) ph (-a.mu0) a.phi0
        * Real.exp (-tauStar a l t / a.mu0))
    - (1 - a.omega.get l) * source a l t

end Pydisort.Spec

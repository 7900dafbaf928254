import Verif.Spec.Field

/-!
# Specification: how finely the light can depend on azimuth
-/

namespace Pydisort.Spec

/-- Nothing in the problem distinguishes azimuths more finely than `cos (m φ)` with `m < M`: there is no beam, or no layer that scatters has a coefficient from `M` on (after the
forward peak has been cut off) and the surface has at most `M` Fourier modes. -/
def SmoothTo (a : Args) (M : ℕ) : Prop :=
  a.I0 = 0 ∨ (a.bdrf.length ≤ M ∧ ∀ l < a.tauArr.n, ∀ k, M ≤ k → k < nLeg a → a.omega.get l = 0 ∨ leg a l k = peak a l)

end Pydisort.Spec

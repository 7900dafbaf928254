import Verif.Spec.Solvable

/-!
# Specification: the coefficient matrix of the homogeneous equations
-/

namespace Pydisort.Spec
open Finset

/-- Matrix of the homogeneous system `du_i/dτ* = Σ_q A_iq u_q` of mode `m` in layer `l`:
`A_iq = (δ_iq - w_q D^m(μ_i, μ_q)) / μ_i`, over all streams. -/
noncomputable def coefMatrix (a : Args) (mu w : Vec) (m l : ℕ) (i q : ℕ) : ℝ :=
  ((if i = q then 1 else 0) - streamW (nHalf a) w q * kernel a m l (stream (nHalf a) mu i) (stream (nHalf a) mu q))
    / stream (nHalf a) mu i

end Pydisort.Spec

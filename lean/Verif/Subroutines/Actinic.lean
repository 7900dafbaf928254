import Verif.Model.Pydisort

/-!
# Model of `generate_diff_act_flux_funcs` (`subroutines.py` 258-318)
-/

namespace Pydisort
open Finset

/-- `u0(tau, is_antiderivative_wrt_tau, False, _return_act_dscale_for_reclass=True)`: `_assemble_intensity_and_fluxes.py` 333-440. -/
noncomputable def Solved.u0Reclass (R : Solved) (tau : A1 ℝ) (anti : Bool) : Py (A2 ℝ × A1 ℝ) := do
  let A ← R.u0 tau anti
  return (A, R.I.actReclass tau anti)

/-- `2 * pi * GL_weights @ rows`, where `rows` is the slice `[lo : hi]` of the array; the contracted lengths must agree. -/
noncomputable def hemiSum (w : A1 ℝ) (A : A2 ℝ) (lo hi : ℕ) : Py (A1 ℝ) :=
  if w.n = min hi A.r - lo then .ok ⟨A.c, fun t => ∑ i ∈ range w.n, 2 * Real.pi * w.get i * A.get (lo + i) t⟩
  else .error .shapeError

/-- Lines 290-291: `N = len(u0(0)) // 2`, `GL_weights = Gauss_Legendre_quad(N)[1]`. -/
noncomputable def actWeights (E : Ext) (u0 : A1 ℝ → Bool → Py (A2 ℝ)) : Py (A1 ℝ) := do
  let A ← u0 ⟨1, fun _ => 0⟩ false
  let q ← gaussLegendreQuad E (A.r / 2) 0 1
  return q.2

/-- `generate_diff_act_flux_funcs(u0)[0]`, lines 290-302: `flux_act_up(tau, is_antiderivative_wrt_tau)`.
Simplification: the array is not squeezed. -/
noncomputable def fluxActUp (E : Ext) (u0 : A1 ℝ → Bool → Py (A2 ℝ)) (tau : A1 ℝ) (anti : Bool) : Py (A1 ℝ) := do
  let w ← actWeights E u0
  let A ← u0 tau anti
  hemiSum w A 0 w.n

/-- `generate_diff_act_flux_funcs(u0)[1]`, lines 290-291 and 304-318: `flux_act_down_diffuse(tau, is_antiderivative_wrt_tau)`.
`u0r` is `u0` with `_return_act_dscale_for_reclass=True`. -/
noncomputable def fluxActDown (E : Ext) (u0 : A1 ℝ → Bool → Py (A2 ℝ)) (u0r : A1 ℝ → Bool → Py (A2 ℝ × A1 ℝ))
    (tau : A1 ℝ) (anti : Bool) : Py (A1 ℝ) := do
  let w ← actWeights E u0
  let p ← u0r tau anti
  let s ← hemiSum w p.1 w.n p.1.r
  A1.bin (fun x y => x + y) s p.2

end Pydisort

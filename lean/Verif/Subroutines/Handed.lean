import Verif.Model.Returned
import Verif.Subroutines.Interp
import Verif.Subroutines.Actinic
import Verif.Subroutines.Thermal

/-!
# The arrays that `interpolate`, the actinic fluxes and `Planck` hand to the caller

The functions of `Subroutines/Interp.lean` and `Subroutines/Actinic.lean` work on arrays that keep their axes of length one. Here the argument
is what the functions of `pydisort` return (`Model/Returned.lean`), and the final `np.squeeze` is applied.
-/

namespace Pydisort
open Finset

/-- `len(x)`. -/
def ND.len (x : ND ℝ) : Py ℕ :=
  match x.shape with
  | [] => .error .typeError
  | d :: _ => .ok d

open Classical in
/-- `interpolate`, `subroutines.py` 638-672 and 674-701, without options. `z` is `u(0, 0)` and `x` is `u(tau, phi, is_antiderivative_wrt_tau)` (or
`u0(tau, is_antiderivative_wrt_tau)`). Only the hemispheres that occur in `mu` are interpolated (662-667); `np.empty` is then
overwritten completely. -/
noncomputable def interpReturned (E : Ext) (z x : Py (ND ℝ)) (mu : A1 ℝ) : Py (ND ℝ) := do
  let z ← z
  let n ← z.len
  let q ← gaussLegendreQuad E (n / 2) 0 1
  let N := n / 2
  if ¬ ∀ i < mu.n, |mu.get i| ≤ 1 then .error (.valueError "mu values must be between -1 and 1.")
  else
    let x ← x
    let d ← x.len
    if (∃ i < mu.n, 0 < mu.get i) ∧ min N d ≠ N ∨ (∃ i < mu.n, ¬ 0 < mu.get i) ∧ d - N ≠ N then
      .error (.valueError "x and y arrays must be equal in length along interpolation axis.")
    else
      let r : ND ℝ := ⟨mu.n :: x.shape.tail, fun ix =>
        if 0 < mu.get (ix.headD 0) then barycentric N q.1.get (fun j => x.get (j :: ix.tail)) (mu.get (ix.headD 0))
        else barycentric N (fun j => -q.1.get j) (fun j => x.get ((N + j) :: ix.tail)) (mu.get (ix.headD 0))⟩
      return r.squeeze

/-- `2 * pi * GL_weights @ x[lo:hi]` for an array `x` with at most two axes (`u0` returns no more). -/
noncomputable def weightRows (w : A1 ℝ) (x : ND ℝ) (lo hi : ℕ) : Py (ND ℝ) :=
  match x.shape with
  | [] => .error .indexError
  | d :: ds => if w.n = min hi d - lo then .ok ⟨ds, fun ix => ∑ i ∈ range w.n, 2 * Real.pi * w.get i * x.get ((lo + i) :: ix)⟩
    else .error .shapeError

/-- Lines 287-288: the weights; `z` is `u0(0)`. -/
noncomputable def actWeightsReturned (E : Ext) (z : Py (ND ℝ)) : Py (A1 ℝ) := do
  let z ← z
  let n ← z.len
  let q ← gaussLegendreQuad E (n / 2) 0 1
  return q.2

/-- `flux_act_up(tau, is_antiderivative_wrt_tau)`, `subroutines.py` 287-299; `x` is `u0(tau, is_antiderivative_wrt_tau)`. -/
noncomputable def fluxActUpReturned (E : Ext) (z x : Py (ND ℝ)) : Py (ND ℝ) := do
  let w ← actWeightsReturned E z
  let x ← x
  let s ← weightRows w x 0 w.n
  return s.squeeze

/-- `flux_act_down_diffuse(tau, is_antiderivative_wrt_tau)`, `subroutines.py` 287-288 and 301-316; `x` is
`u0(tau, is_antiderivative_wrt_tau, False, _return_act_dscale_for_reclass=True)`. -/
noncomputable def fluxActDownReturned (E : Ext) (z : Py (ND ℝ)) (x : Py (ND ℝ × ND ℝ)) : Py (ND ℝ) := do
  let w ← actWeightsReturned E z
  let x ← x
  let d ← x.1.len
  let s ← weightRows w x.1 w.n d
  let r ← ND.bin (fun x y => x + y) s x.2
  return r.squeeze

open Classical in
/-- `u0(tau, is_antiderivative_wrt_tau, False, _return_act_dscale_for_reclass=True)`, `_assemble_intensity_and_fluxes.py` 353-376 and 425-433: the second
entry is a number if no layer is scaled. -/
noncomputable def Solved.u0ReclassReturned (R : Solved) (tau : A1 ℝ) (anti : Bool) : Py (ND ℝ × ND ℝ) := do
  let a ← R.u0 tau anti
  return (a.toND.squeeze, if ∃ k < R.I.NLayers, R.I.scale k ≠ 1 then (R.I.actReclass tau anti).toND else ⟨[], fun _ => 0⟩)

/-- What `Planck(T, WVNM)` returns, line 350. -/
noncomputable def planckReturned (T : A1 ℝ) (wvnm : ℝ) : ND ℝ := (planck T wvnm).toND.squeeze

end Pydisort

import Verif.Model.Pydisort

/-!
# Model of `interpolate` (`subroutines.py` 614-705)
-/

namespace Pydisort
open Finset

/-- What an intensity function returns: the array of values with axis 0 for the polar angle (the other axes are flattened into one) and
the remaining entries of the returned tuple, in order. (A number is an array of length one.) -/
structure UOut where
  values : A2 ℝ
  extra : List (A1 ℝ)

/-- The argument of `interpolate`, told apart by `u.__code__.co_argcount` (lines 644-645, 674): five positional parameters
`(tau, phi, is_antiderivative_wrt_tau, return_Fourier_error, return_tau_arr)` or four
`(tau, is_antiderivative_wrt_tau, return_tau_arr, _return_act_dscale_for_reclass)`. -/
inductive UFn where
  | five (f : A1 ℝ → A1 ℝ → Bool → Bool → Bool → Py UOut)
  | four (f : A1 ℝ → Bool → Bool → Bool → Py UOut)

open Classical in
/-- `scipy.interpolate.BarycentricInterpolator(xi)` with `set_yi(yi)`, at one point: the data value at a node, elsewhere the barycentric
formula with the weights `1 / Π_{k ≠ i} (x_i - x_k)`. (SciPy also multiplies all differences by one constant, which cancels in the
quotient.) -/
noncomputable def barycentric (n : ℕ) (xi yi : Vec) (x : ℝ) : ℝ :=
  if h : ∃ i < n, x = xi i then yi h.choose
  else (∑ i ∈ range n, (1 / ∏ k ∈ (range n).erase i, (xi i - xi k)) / (x - xi i) * yi i)
    / ∑ i ∈ range n, (1 / ∏ k ∈ (range n).erase i, (xi i - xi k)) / (x - xi i)

/-- The scalar `0` as an array of length one (`np.atleast_1d`). -/
def zero1 : A1 ℝ := ⟨1, fun _ => 0⟩

/-- Lines 638-639, `N = len(u(0, 0)) // 2` and `mu_arr_pos`. The second `0` is the azimuth of `u` or `is_antiderivative_wrt_tau` of `u0`. -/
noncomputable def interpNodes (E : Ext) (U : UFn) : Py (ℕ × A1 ℝ) := do
  let o ← match U with
    | .five f => f zero1 zero1 false false false
    | .four f => f zero1 false false false
  let N := o.values.r / 2
  let q ← gaussLegendreQuad E N 0 1
  return (N, q.1)

/-- Lines 658-672 and 687-701 up to the `np.squeeze`: `results` is `np.empty`, the two masks `mu > 0` and its complement cover it. `set_yi`
raises unless it is given as many rows as there are nodes. -/
noncomputable def interpValues (N : ℕ) (nodes : A1 ℝ) (mu : A1 ℝ) (cache : A2 ℝ) : Py (A2 ℝ) :=
  if min N cache.r = N ∧ cache.r - N = N then
    .ok ⟨mu.n, cache.c, fun i r =>
      if 0 < mu.get i then barycentric N nodes.get (fun j => cache.get j r) (mu.get i)
      else barycentric N (fun j => -nodes.get j) (fun j => cache.get (N + j) r) (mu.get i)⟩
  else .error (.valueError "x and y arrays must be equal in length along interpolation axis.")

open Classical in
/-- `interpolate(u)(mu, tau, phi, is_antiderivative_wrt_tau, return_Fourier_error, return_tau_arr)` for the five-parameter `u`,
lines 638-672. -/
noncomputable def interpolate5 (E : Ext) (f : A1 ℝ → A1 ℝ → Bool → Bool → Bool → Py UOut) (mu tau phi : A1 ℝ)
    (anti fourierError tauArr : Bool) : Py UOut := do
  let p ← interpNodes E (.five f)
  if ¬ ∀ i < mu.n, |mu.get i| ≤ 1 then .error (.valueError "mu values must be between -1 and 1.")
  if fourierError = true ∨ tauArr = true then
    let o ← f tau phi anti fourierError tauArr
    let v ← interpValues p.1 p.2 mu o.values
    return ⟨v, o.extra⟩
  else
    let o ← f tau phi anti false false
    let v ← interpValues p.1 p.2 mu o.values
    return ⟨v, []⟩

open Classical in
/-- `interpolate(u0)(mu, tau, is_antiderivative_wrt_tau, return_Fourier_error, return_tau_arr)` for the four-parameter `u0`, lines 638-644 and
674-701. Line 682 passes `return_Fourier_error` and `return_tau_arr` as the third and fourth argument of `u0`. -/
noncomputable def interpolate4 (E : Ext) (f : A1 ℝ → Bool → Bool → Bool → Py UOut) (mu tau : A1 ℝ)
    (anti fourierError tauArr : Bool) : Py UOut := do
  let p ← interpNodes E (.four f)
  if ¬ ∀ i < mu.n, |mu.get i| ≤ 1 then .error (.valueError "mu values must be between -1 and 1.")
  if fourierError = true ∨ tauArr = true then
    let o ← f tau anti fourierError tauArr
    let v ← interpValues p.1 p.2 mu o.values
    return ⟨v, o.extra⟩
  else
    let o ← f tau anti false false
    let v ← interpValues p.1 p.2 mu o.values
    return ⟨v, []⟩

namespace Solved
variable (R : Solved)

/-- `u0(tau, is_antiderivative_wrt_tau, return_tau_arr, _return_act_dscale_for_reclass)`, `_assemble_intensity_and_fluxes.py` 334 and 430-440: the
extra outputs in order. -/
noncomputable def u0Full (tau : A1 ℝ) (anti retTau retAct : Bool) : Py UOut := do
  let v ← R.u0 tau anti
  return ⟨v, (if retTau = true then [⟨R.I.NLayers, R.I.tauArr⟩] else [])
    ++ (if retAct = true then [R.I.actReclass tau anti] else [])⟩

/-- `u(tau, phi, is_antiderivative_wrt_tau, return_Fourier_error, return_tau_arr)`, `_assemble_intensity_and_fluxes.py` 170 and 256-329, or
`u_corrected`, `pydisort.py` 643-694: the order of the outputs. The estimate, a number, is given as an
array of length one. -/
noncomputable def uFull (tau phi : A1 ℝ) (anti retErr retTau : Bool) : Py UOut := do
  let v ← R.u tau phi anti
  let e ← if retErr = true then (R.fourierError tau phi anti).map (fun x => [⟨1, fun _ => x⟩]) else .ok []
  return ⟨⟨v.d0, v.d1 * v.d2, fun i r => v.get i (r / v.d2) (r % v.d2)⟩,
    e ++ if retTau = true then [⟨R.I.NLayers, R.I.tauArr⟩] else []⟩

end Solved

end Pydisort

import Verif.Subroutines.Core
import Verif.Model.Coeffs
import Mathlib.Analysis.SpecialFunctions.Exp

/-!
# Models of the thermal helpers of `subroutines.py` (322-486)
-/

namespace Pydisort
open Finset

/-- `scipy.constants.h`, J s. -/
noncomputable def constH : ℝ := 6.62607015e-34
/-- `scipy.constants.c`, m / s. -/
noncomputable def constC : ℝ := 299792458
/-- `scipy.constants.k`, J / K. -/
noncomputable def constK : ℝ := 1.380649e-23

/-- Line 347: the argument of `np.exp` for one non-zero temperature. -/
noncomputable def planckExponent (T wvnm : ℝ) : ℝ := -100 * constH * constC * wvnm / (constK * T)

open Classical in
/-- `Planck(T, WVNM)`, `subroutines.py` 322-350, for `T` with at most one axis (`np.atleast_1d` has been applied; the final `np.squeeze` is
left to the callers). `results` starts as zeros (342). If some temperature is non-zero (343), zeros are written where `T == 0` (344) and
the value of line 348 elsewhere. -/
noncomputable def planck (T : A1 ℝ) (wvnm : ℝ) : A1 ℝ :=
  if ∃ k < T.n, T.get k ≠ 0 then
    ⟨T.n, fun i =>
      if T.get i ≠ 0 then
        let expterm := Real.exp (planckExponent (T.get i) wvnm)
        (2e8 * constH * constC ^ 2 * wvnm ^ 3 * expterm) / (1 - expterm)
      else 0⟩
  else ⟨T.n, fun _ => 0⟩

/-- `scipy.integrate.quad_vec(f, lo, hi, **kwargs)[0]` for vector-valued integrands: an oracle. -/
abbrev QuadVec := (ℝ → A1 ℝ) → ℝ → ℝ → A1 ℝ

/-- `blackbody_contrib_to_BCs(T, WVNMLO, WVNMHI)`, `subroutines.py` 354-377 (without the final `np.squeeze`). -/
noncomputable def blackbodyContrib (Q : QuadVec) (T : A1 ℝ) (lo hi : ℝ) : A1 ℝ := Q (fun wvnm => planck T wvnm) lo hi

/-- `v[1:]`. -/
def A1.tail (v : A1 ℝ) : A1 ℝ := ⟨v.n - 1, fun i => v.get (i + 1)⟩
/-- `v[:-1]`. -/
def A1.init (v : A1 ℝ) : A1 ℝ := ⟨v.n - 1, v.get⟩

open Classical in
/-- `linear_spline_coefficients(x, y, check_inputs)`, `subroutines.py` 381-409. `np.diff(x) > 0` is checked for all consecutive pairs. The
result `np.array((intercepts, slopes)).T` has one row per segment. -/
noncomputable def linearSpline (x y : A1 ℝ) (checkInputs : Bool) : Py (A2 ℝ) := do
  if checkInputs = true then
    if ¬ x.n > 1 then .error (.valueError "At least 2 points are required.")
    if ¬ x.n = y.n then .error (.valueError "The number of x and y points must be equal.")
    if ¬ ∀ i, i + 1 < x.n → x.get (i + 1) - x.get i > 0 then
      .error (.valueError "The x values must be sorted in ascending order.")
  let dy ← A1.bin (· - ·) y.tail y.init
  let dx ← A1.bin (· - ·) x.tail x.init
  let slopes ← A1.bin (· / ·) dy dx
  let sx ← A1.bin (· * ·) slopes x.init
  let intercepts ← A1.bin (· - ·) y.init sx
  if intercepts.n ≠ slopes.n then .error (.valueError "inhomogeneous shape")
  return ⟨slopes.n, 2, fun l j => if j = 0 then intercepts.get l else slopes.get l⟩

/-- `generate_s_poly_coeffs(tau_arr, TEMPER, WVNMLO, WVNMHI)`, `subroutines.py` 413-454. With one temperature (no layers) `Planck` returns a
scalar, which cannot be sliced. -/
noncomputable def generateSPoly (Q : QuadVec) (tauArr temper : A1 ℝ) (lo hi : ℝ) : Py (A2 ℝ) := do
  if ¬ temper.n = tauArr.n + 1 then
    .error (.valueError "Missing temperature specification at some boundaries / interfaces.")
  let tau0 ← prepend tauArr tauArr.n 0
  if temper.n = 1 then .error .typeError
  linearSpline tau0 (Q (fun wvnm => planck temper wvnm) lo hi) false

/-- Result of `generate_emissivity_from_BDRF`: a number or an array. -/
inductive Emis where
  | scalar (x : ℝ)
  | arr (v : A1 ℝ)

/-- `generate_emissivity_from_BDRF(N, zeroth_BDRF_Fourier_mode)`, `subroutines.py` 459-486. A function result `Z` of shape `(r, c)` is
multiplied by `mu_arr_pos[None, :]` and contracted with `W`; a scalar result gives the shape `(1, N)`. -/
noncomputable def emissivity (E : Ext) (N : ℕ) (mode : BDRFMode) : Py Emis :=
  match mode with
  | .scalar rho => .ok (.scalar (1 - rho))
  | .func f => do
    let q ← gaussLegendreQuad E N 0 1
    match f q.1 q.1 with
    | .scalar z => .ok (.arr ⟨1, fun _ => 1 - ∑ j ∈ range N, 2 * z * q.1.get j * q.2.get j⟩)
    | .arr Z => do
      let c ← bdim Z.c N
      if c ≠ N then .error .shapeError
      return .arr ⟨Z.r, fun i => 1 - ∑ j ∈ range N, 2 * Z.get i (bix Z.c j) * q.1.get j * q.2.get j⟩

end Pydisort

import Verif.Subroutines.Core

/-!
# Model of `Clenshaw_Curtis_quad` (`subroutines.py` 142-175)
-/

namespace Pydisort
open Finset

/-- `scipy.fft.idct(x, type=1)` of an array of length `n ≥ 2`: the DCT-I
`x_0 + (-1)^k x_{n-1} + 2 Σ_{j=1}^{n-2} x_j cos(π k j / (n-1))` divided by `2 (n - 1)`. (SciPy; its documentation is the source of the
formula. Shorter arrays raise.) -/
noncomputable def idct1 (x : A1 ℝ) : Py (A1 ℝ) :=
  if x.n < 2 then .error (.valueError "DCT-I is not defined for size < 2")
  else .ok ⟨x.n, fun k => (x.get 0 + (-1) ^ k * x.get (x.n - 1)
    + 2 * ∑ j ∈ range (x.n - 2), x.get (j + 1) * Real.cos (Real.pi * k * (j + 1 : ℕ) / (x.n - 1 : ℕ))) / (2 * (x.n - 1 : ℕ))⟩

/-- Line 167, `phi_arr_pos`, where `K` is the decremented `Nphi` and `M` is `Nphi_pos`. -/
noncomputable def ccPos (K M : ℕ) : A1 ℝ := ⟨M, fun i => Real.cos (Real.pi * i / K)⟩

/-- Line 168, `np.concatenate([-phi_arr_pos, [0], np.flip(phi_arr_pos)])`. -/
def ccNodes (p : A1 ℝ) : A1 ℝ :=
  ⟨p.n + 1 + p.n, fun i => if i < p.n then -p.get i else if i = p.n then 0 else p.get (p.n - 1 - (i - (p.n + 1)))⟩

/-- Line 171, `weights_phi_pos[0] /= 2`. -/
noncomputable def halveFirst (w : A1 ℝ) : A1 ℝ := ⟨w.n, fun i => if i = 0 then w.get 0 / 2 else w.get i⟩

/-- Line 172, `np.hstack((weights_phi_pos, np.flip(weights_phi_pos[:-1])))`. -/
def ccMirror (w : A1 ℝ) : A1 ℝ :=
  ⟨w.n + (w.n - 1), fun i => if i < w.n then w.get i else w.get (w.n - 2 - (i - w.n))⟩

/-- `Clenshaw_Curtis_quad(Nphi, c, d)`, `subroutines.py` 142-175. `Nphi` is a Python integer. -/
noncomputable def clenshawCurtisQuad (Nphi : ℤ) (c d : ℝ) : Py (A1 ℝ × A1 ℝ) :=
  if ¬ (Nphi > 2 ∧ Nphi % 2 = 1) then
    .error (.valueError "The number of quadrature nodes must be odd and greater than 2.")
  else do
    let K := (Nphi - 1).toNat
    let M := K / 2
    let phiArr := ccNodes (ccPos K M)
    let diff ← prepend ⟨M, fun i => 2 / (1 - 4 * ((i + 1 : ℕ) : ℝ) ^ 2)⟩ M 2
    let w ← idct1 diff
    let full := ccMirror (halveFirst w)
    return (transformInterval phiArr c d (-1) 1, transformWeights full c d (-1) 1)

end Pydisort

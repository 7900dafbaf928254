import Verif.Model.GenSol
import Mathlib.Analysis.SpecialFunctions.Trigonometric.Basic
import Mathlib.Analysis.Real.Sqrt
import Mathlib.Data.Nat.Choose.Basic

/-!
# Model of the parts of `subroutines.py` that `pydisort` calls
-/

namespace Pydisort
open Finset

/-- `prepend(arr, arr_len, value)`, `subroutines.py` 7-29. `new_arr[1:] = arr` is an assignment into a
slice of length `arr_len`; every entry of the `np.empty` buffer is overwritten. -/
def prepend (arr : A1 ℝ) (arrLen : ℕ) (value : ℝ) : Py (A1 ℝ) := do
  let body ← assign1 arrLen arr
  return ⟨arrLen + 1, fun i => if i = 0 then value else body (i - 1)⟩

/-- `transform_interval(arr, c, d, a, b)`, `subroutines.py` 33-55. -/
noncomputable def transformInterval (arr : A1 ℝ) (c d a b : ℝ) : A1 ℝ :=
  arr.map fun x => (x - a) * (d - c) / (b - a) + c

/-- `transform_weights(weights, c, d, a, b)`, `subroutines.py` 59-81. -/
noncomputable def transformWeights (w : A1 ℝ) (c d a b : ℝ) : A1 ℝ :=
  w.map fun x => x * (d - c) / (b - a)

/-- `Gauss_Legendre_quad(N, c, d)`, `subroutines.py` 116-138. `leggauss(0)` raises `ValueError`.
Simplification: `N` is a natural number (`int(N)` of a negative number also raises). -/
noncomputable def gaussLegendreQuad (E : Ext) (N : ℕ) (c d : ℝ) : Py (A1 ℝ × A1 ℝ) :=
  if N = 0 then .error (.valueError "deg must be a positive integer")
  else .ok (transformInterval ⟨N, (E.leggauss N).1⟩ c d (-1) 1,
    transformWeights ⟨N, (E.leggauss N).2⟩ c d (-1) 1)

/-- The formula on lines 107-111 of `subroutines.py` for one set of angles. -/
noncomputable def nuVal (mu phi mup phip : ℝ) : ℝ :=
  mup * mu + Real.sqrt (1 - mup ^ 2) * Real.sqrt (1 - mu ^ 2) * Real.cos (phip - phi)

/-- `calculate_nu(mu, phi, mu_p, phi_p)`, `subroutines.py` 85-112: axes `mu, phi, mu_p, phi_p`, then
`np.squeeze`. -/
noncomputable def calculateNu (mu phi mup phip : A1 ℝ) : ND ℝ :=
  ND.squeeze ⟨[mu.n, phi.n, mup.n, phip.n], fun ix =>
    nuVal (mu.get (ix.getD 0 0)) (phi.get (ix.getD 1 0)) (mup.get (ix.getD 2 0)) (phip.get (ix.getD 3 0))⟩

/-- `atleast_2d_append(ary)`, `subroutines.py` 219-254, for a single argument: 0-d to `(1, 1)`,
1-d to `(n, 1)`, otherwise unchanged. -/
def atleast2dAppend {α : Type} (a : ND α) : ND α :=
  match a.shape with
  | [] => ⟨[1, 1], fun _ => a.get []⟩
  | [n] => ⟨[n, 1], fun ix => a.get (ix.take 1)⟩
  | _ => a

/-- `atleast_2d_append(*arys)`, `subroutines.py` 240-254: a single result is returned by itself, otherwise the list. -/
def atleast2dAppendArgs {α : Type} (arys : List (ND α)) : ND α ⊕ List (ND α) :=
  match arys.map atleast2dAppend with
  | [r] => .inl r
  | res => .inr res

/-- Use of an array where a rank-2 array is needed. -/
def ND.toA2 {α : Type} (a : ND α) : Py (A2 α) :=
  match a.shape with
  | [r, c] => .ok ⟨r, c, fun i j => a.get [i, j]⟩
  | _ => .error .shapeError

/-- `affine_transform_poly_coeffs` 600-608: entry `[l, i, j]` of `T`; `pascal(n, kind="upper")[i, j]` is
the binomial coefficient `j choose i`. -/
noncomputable def affineT (a b : ℝ) (i j : ℕ) : ℝ :=
  (j.choose i : ℝ) * (1 / a) ^ j * (-b) ^ (if j.choose i = 0 then 0 else j - i)

open Classical in
/-- `affine_transform_poly_coeffs(poly_coeffs, a_arr, b_arr)`, `subroutines.py` 574-610. The test on
line 594 is `np.any(a_arr) == 0`, i.e. "no entry is non-zero". The array axes labelled `l` of `T` and
`poly_coeffs` are broadcast by `einsum`. -/
noncomputable def affineTransform (poly : A2 ℝ) (a b : A1 ℝ) : Py (A2 ℝ) :=
  if ¬ ∃ k < a.n, a.get k ≠ 0 then .error (.valueError "The scale factors must be non-zero.")
  else do
    let n ← bdim a.n b.n
    let r ← bdim n poly.r
    return ⟨r, poly.c, fun l i => ∑ j ∈ range poly.c,
      affineT (a.get (bix a.n (bix n l))) (b.get (bix b.n (bix n l))) i j * poly.get (bix poly.r l) j⟩

end Pydisort

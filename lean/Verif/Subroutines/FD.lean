import Verif.NumPy

/-!
# Model of `generate_FD_mat` (`subroutines.py` 179-215)
-/

namespace Pydisort
open Finset

/-- `np.linspace(a, b, n)`: `a + k (b - a) / (n - 1)`, and just `a` for `n = 1`. -/
noncomputable def linspace (a b : ℝ) (n : ℕ) : A1 ℝ :=
  ⟨n, fun k => if n = 1 then a else a + k * ((b - a) / ((n : ℝ) - 1))⟩

/-- `M[i, j] = v` for a sparse matrix with `n` rows and columns and Python (possibly negative) indices; an index outside the matrix
raises `IndexError`. -/
def setItem (n : ℕ) (M : Mat) (i j : ℤ) (v : ℝ) : Py Mat :=
  let i' := if i < 0 then i + n else i
  let j' := if j < 0 then j + n else j
  if 0 ≤ i' ∧ i' < n ∧ 0 ≤ j' ∧ j' < n then .ok fun r c => if r = i'.toNat ∧ c = j'.toNat then v else M r c
  else .error .indexError

/-- `generate_FD_mat(Ntau, a, b)`, `subroutines.py` 179-215: the grid and the (dense content of the) matrix. `linspace` refuses a
negative number of points; `tau_arr[1]` (line 200) and the writes of lines 206-211 raise `IndexError` for fewer than three points.
`diagonal` (line 202) is the constant `1 / (2 h)`; line 203 puts it on the first superdiagonal of an `Ntau × Ntau` matrix, line 204
puts its negative on the first subdiagonal. -/
noncomputable def generateFDMat (Ntau : ℤ) (a b : ℝ) : Py (A1 ℝ × A2 ℝ) :=
  if Ntau < 0 then .error (.valueError "Number of samples must be non-negative.")
  else do
    let n := Ntau.toNat
    let tau := linspace a b n
    if tau.n < 2 then .error .indexError
    let h := tau.get 1 - tau.get 0
    let M : Mat := fun r c => if c = r + 1 then 1 / (2 * h) else 0
    let M : Mat := fun r c => if r = c + 1 then -(1 / (2 * h)) else M r c
    let M ← setItem n M 0 0 (-3 / (2 * h))
    let M ← setItem n M 0 1 (2 / h)
    let M ← setItem n M 0 2 (-1 / (2 * h))
    let M ← setItem n M (-1) (-1) (3 / (2 * h))
    let M ← setItem n M (-1) (-2) (-2 / h)
    let M ← setItem n M (-1) (-3) (1 / (2 * h))
    return (tau, ⟨n, n, M⟩)

end Pydisort

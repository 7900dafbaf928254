import Verif.NumPy

/-!
# Model of `to_diag_ordered_form` (`subroutines.py` 709-742)
-/

namespace Pydisort

/-- NumPy integer indexing of an axis of length `n`: negative indices count from the end, others outside the axis raise. -/
def pyIndex (n : ℕ) (i : ℤ) : Py ℕ :=
  if 0 ≤ i ∧ i < n then .ok i.toNat else if -n ≤ i ∧ i < 0 then .ok (i + n).toNat else .error .indexError

open Classical in
/-- `A[rows, cols[None, :]]` for an array of row indices of shape `(k, n)`, here given as a function; every index is checked. -/
noncomputable def fancyRows (A : A2 ℝ) (k n : ℕ) (rows : ℕ → ℕ → ℤ) : Py (A2 ℝ) :=
  if ∃ p < k, ∃ j < n, (∃ e, pyIndex A.r (rows p j) = .error e) ∨ A.c ≤ j then .error .indexError
  else .ok ⟨k, n, fun p j => match pyIndex A.r (rows p j) with
    | .ok i => A.get i j
    | .error _ => 0⟩

/-- `to_diag_ordered_form(A, Nsuperdiags, Nsubdiags)`, `subroutines.py` 709-742. `np.arange(Nsuperdiags, -1, -1)` is
`Nsuperdiags, …, 0` and `np.arange(n - 1, n - Nsubdiags - 1, -1)` is `n - 1, …, n - Nsubdiags`. -/
noncomputable def toDiagOrdered (A : A2 ℝ) (nsup nsub : ℕ) : Py (A2 ℝ) := do
  let n := A.r
  let up ← fancyRows A (nsup + 1) n (fun p j => (j : ℤ) - ((nsup : ℤ) - p))
  let lo ← fancyRows A nsub n (fun p j => (j : ℤ) - ((n : ℤ) - 1 - p))
  return ⟨nsup + 1 + nsub, n, fun p j => if p < nsup + 1 then up.get p j else lo.get (p - (nsup + 1)) j⟩

end Pydisort

import Verif.Subroutines.Diag
import Mathlib.Data.Finset.Sort
import Mathlib.Algebra.BigOperators.Intervals

/-!
# Array program of `_mathscr_v` (`subroutines.py` 746-862)

`Model/MathscrV.lean` gives one entry of the result; here every NumPy operation is kept, and the call of `_mathscr_v` by the evaluation functions with
`np.unique`.
-/

namespace Pydisort
open Finset

/-- `np.cumprod` of a rank-1 array. -/
noncomputable def npCumprod (v : Vec) : Vec := fun i => ∏ j ∈ range (i + 1), v j

/-- An integer of 64 bits: overflow wraps around. -/
def wrap64 (i : ℤ) : ℤ := Int.bmod i (2 ^ 64)

/-- `np.cumprod` of a rank-1 array of 64-bit integers. -/
def npCumprod64 (v : ℕ → ℤ) : ℕ → ℤ
  | 0 => wrap64 (v 0)
  | i + 1 => wrap64 (npCumprod64 v i * v (i + 1))

/-- `A[:, a:b]`. -/
def A2.cols {α : Type} (A : A2 α) (a b : ℕ) : A2 α := ⟨A.r, min b A.c - min a A.c, fun i j => A.get i (a + j)⟩

open Classical in
/-- `A[:, l]` for an integer array `l`. -/
noncomputable def A2.takeCols {α : Type} (A : A2 α) (l : A1 ℕ) : Py (A2 α) :=
  if ∃ t < l.n, A.c ≤ l.get t then .error .indexError else .ok ⟨A.r, l.n, fun i t => A.get i (l.get t)⟩

open Classical in
/-- `A[l]` for an integer array `l`. -/
noncomputable def A2.takeRows {α : Type} (A : A2 α) (l : A1 ℕ) : Py (A2 α) :=
  if ∃ t < l.n, A.r ≤ l.get t then .error .indexError else .ok ⟨l.n, A.c, fun t j => A.get (l.get t) j⟩

open Classical in
/-- `A[l]` (or `A[l, :, :]`) for an integer array `l`. -/
noncomputable def A3.take0 {α : Type} (A : A3 α) (l : A1 ℕ) : Py (A3 α) :=
  if ∃ t < l.n, A.d0 ≤ l.get t then .error .indexError else .ok ⟨l.n, A.d1, A.d2, fun t i j => A.get (l.get t) i j⟩

open Classical in
/-- `np.take(A, jj, axis=1)` for an index array `jj` of shape `(r, c)`. -/
noncomputable def A2.takeAxis1 (A : A2 ℝ) (r c : ℕ) (jj : ℕ → ℕ → ℤ) : Py (A3 ℝ) :=
  if ∃ i < r, ∃ p < c, ∃ e, pyIndex A.c (jj i p) = .error e then .error .indexError
  else .ok ⟨A.r, r, c, fun l i p => match pyIndex A.c (jj i p) with
    | .ok j => A.get l j
    | .error _ => 0⟩

/-- `np.einsum("lij, lj -> il", G, c)`. -/
def einsumLijLj (G : A3 ℝ) (c : A2 ℝ) : Py (A2 ℝ) := do
  let nl ← bdim G.d0 c.r
  let nj ← bdim G.d2 c.c
  return ⟨G.d1, nl, fun i l => ∑ j ∈ range nj, G.get (bix G.d0 l) i (bix G.d2 j) * c.get (bix c.r l) (bix c.c j)⟩

/-- `np.einsum("lkp, lip -> lki", P, T)`. -/
def einsumLkpLip (P T : A3 ℝ) : Py (A3 ℝ) := do
  let nl ← bdim P.d0 T.d0
  let np ← bdim P.d2 T.d2
  return ⟨nl, P.d1, T.d1, fun l k i => ∑ p ∈ range np, P.get (bix P.d0 l) k (bix P.d2 p) * T.get (bix T.d0 l) i (bix T.d2 p)⟩

/-- `np.einsum("lqk, plk -> lqp", G, b)`. (In the code the arrow is written `- >`; with `optimize=True` blanks are removed before the string is read.) -/
def einsumLqkPlk (G b : A3 ℝ) : Py (A3 ℝ) := do
  let nl ← bdim G.d0 b.d1
  let nk ← bdim G.d2 b.d2
  return ⟨nl, G.d1, b.d0, fun l q p => ∑ k ∈ range nk, G.get (bix G.d0 l) q (bix G.d2 k) * b.get p (bix b.d1 l) (bix b.d2 k)⟩

/-- `np.einsum("tqp, tp -> qt", b, P)`. -/
def einsumTqpTp (b : A3 ℝ) (P : A2 ℝ) : Py (A2 ℝ) := do
  let nt ← bdim b.d0 P.r
  let np ← bdim b.d2 P.c
  return ⟨b.d1, nt, fun q t => ∑ p ∈ range np, b.get (bix b.d0 t) q (bix b.d2 p) * P.get (bix P.r t) (bix P.c p)⟩

/-- Lines 838-841: `fac`, created by `np.empty` (content `junk`). -/
noncomputable def facArr (junk : Vec) (Nc : ℕ) : Vec :=
  let fac0 := setSlice junk 0 1 (fun _ => 1)
  if Nc > 1 then setSlice fac0 1 Nc (fun i => (npCumprod64 (fun j => 1 + (j : ℤ)) i : ℝ)) else fac0

/-- Lines 786-797, `Nscoeffs == 1`. -/
noncomputable def mathscrArr1 (tau scale_tau : A1 ℝ) (l : A1 ℕ) (s : A2 ℝ) (G : A3 ℝ) (K g : A2 ℝ) (anti : Bool) : Py (A2 ℝ) := do
  let K_inv := K.map (fun x => 1 / x)
  let c ← A2.bin (fun a b => a * b) (s.cols 0 1) K_inv
  let c0w ← A2.bin (fun a b => a * b) c g
  let d0 ← einsumLijLj G c0w
  let p0 ← if anti = true then A1.bin (fun a b => a / b) tau scale_tau else .ok (tau.map fun _ => 1)
  let d0l ← d0.takeCols l
  A2.bin (fun a b => a * b) d0l p0.row

/-- Lines 800-819, `Nscoeffs == 2`. -/
noncomputable def mathscrArr2 (tau scale_tau : A1 ℝ) (l : A1 ℕ) (s : A2 ℝ) (G : A3 ℝ) (K g : A2 ℝ) (anti : Bool) : Py (A2 ℝ) := do
  let K_inv := K.map (fun x => 1 / x)
  let s1 := s.cols 1 2
  let s0 := s.cols 0 1
  let K_inv2 := K_inv.map (fun x => x * x)
  let s1K ← A2.bin (fun a b => a * b) s1 K_inv
  let c0w ← A2.bin (fun a b => a * b) s1K g
  let s0K ← A2.bin (fun a b => a * b) s0 K_inv
  let s1K2 ← A2.bin (fun a b => a * b) s1 K_inv2
  let sm ← A2.bin (fun a b => a + b) s0K s1K2
  let c1w ← A2.bin (fun a b => a * b) sm g
  let d0 ← einsumLijLj G c0w
  let d1 ← einsumLijLj G c1w
  let p0 := if anti = true then tau.map (fun x => x * x / 2) else tau
  let p1 := if anti = true then tau else tau.map (fun _ => 1)
  let d0l ← d0.takeCols l
  let x ← A2.bin (fun a b => a * b) d0l p0.row
  let d1l ← d1.takeCols l
  let y ← A2.bin (fun a b => a * b) d1l p1.row
  let z ← A2.bin (fun a b => a + b) x y
  if anti = true then A2.bin (fun a b => a / b) z scale_tau.row else .ok z

/-- Lines 825-862, `Nscoeffs > 2`. -/
noncomputable def mathscrArrN (junk : Vec) (tau scale_tau : A1 ℝ) (l : A1 ℕ) (Nc : ℕ) (s : A2 ℝ) (G : A3 ℝ) (K g : A2 ℝ) (anti : Bool) : Py (A2 ℝ) := do
  let K_invP : A3 ℝ := ⟨K.r, K.c, Nc, fun l k => npCumprod (fun _ => 1 / K.get l k)⟩
  let jj : ℕ → ℕ → ℤ := fun i p => (i : ℤ) - p
  let fac_rev : A1 ℝ := ⟨Nc, fun i => facArr junk Nc (Nc - 1 - i)⟩
  let inv_fac_rev : A1 ℝ := fac_rev.map (fun x => 1 / x)
  let weighted ← A2.bin (fun a b => a * b) ⟨s.r, s.c, fun l i => s.get l (s.c - 1 - i)⟩ fac_rev.row
  let taken ← weighted.takeAxis1 Nc Nc jj
  let lower_tri : A3 ℝ := ⟨taken.d0, Nc, Nc, fun l i p => if jj i p ≥ 0 then taken.get l i p else 0⟩
  let unweighted ← einsumLkpLip K_invP lower_tri
  let sigma : A3 ℝ := ⟨Nc, unweighted.d0, unweighted.d1, fun i l k => unweighted.get l k i * inv_fac_rev.get i⟩
  let nl ← bdim sigma.d1 g.r
  let nk ← bdim sigma.d2 g.c
  let right : A3 ℝ := ⟨Nc, nl, nk, fun i l k => sigma.get i (bix sigma.d1 l) (bix sigma.d2 k) * g.get (bix g.r l) (bix g.c k)⟩
  let b ← einsumLqkPlk G right
  let powers : ℕ → ℕ := fun i => Nc - 1 - i
  let tau_poly ← if anti = true then do
      let den ← A1.bin (fun a b => a * b) ⟨Nc, fun i => ((powers i + 1 : ℕ) : ℝ)⟩ scale_tau
      A2.bin (fun a b => a / b) ⟨tau.n, Nc, fun t i => tau.get t ^ (powers i + 1)⟩ den.row
    else .ok ⟨tau.n, Nc, fun t i => tau.get t ^ powers i⟩
  let bl ← b.take0 l
  einsumTqpTp bl tau_poly

/-- `_mathscr_v(tau, scale_tau, l, Nscoeffs, s_poly_coeffs, G, K, G_inv_mu_inv, is_antiderivative_wrt_tau)`. -/
noncomputable def mathscrArr (junk : Vec) (tau scale_tau : A1 ℝ) (l : A1 ℕ) (Nc : ℕ) (s : A2 ℝ) (G : A3 ℝ) (K g : A2 ℝ) (anti : Bool) : Py (A2 ℝ) :=
  if Nc = 1 then mathscrArr1 tau scale_tau l s G K g anti
  else if Nc = 2 then mathscrArr2 tau scale_tau l s G K g anti
  else mathscrArrN junk tau scale_tau l Nc s G K g anti

/-- `np.unique(l, return_inverse=True)`: the sorted values, and the position of each entry among them. -/
def npUnique (l : A1 ℕ) : A1 ℕ × A1 ℕ :=
  let u := ((range l.n).image l.get).sort (fun a b => a ≤ b)
  (⟨u.length, fun i => u.getD i 0⟩, ⟨l.n, fun t => u.idxOf (l.get t)⟩)

/-- The call in the evaluation functions (`_assemble_intensity_and_fluxes.py` 237-247, 412-422, 471-483, 553-565): the arrays are restricted to the layers
that occur in `l`. -/
noncomputable def mathscrCall (junk : Vec) (tau scale_tau : A1 ℝ) (l : A1 ℕ) (Nc : ℕ) (s : A2 ℝ) (G : A3 ℝ) (K g : A2 ℝ) (anti : Bool) : Py (A2 ℝ) := do
  let s' ← s.takeRows (npUnique l).1
  let G' ← G.take0 (npUnique l).1
  let K' ← K.takeRows (npUnique l).1
  let g' ← g.takeRows (npUnique l).1
  mathscrArr junk tau scale_tau (npUnique l).2 Nc s' G' K' g' anti

end Pydisort

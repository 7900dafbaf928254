import Verif.Model.Returned

/-!
# Model of `_compare` (`subroutines.py` 866-974)

What the function prints is part of its result here. The reference arrays are those of the `.npz` files: fluxes with one entry per depth, intensities
with axes `mu, tau, phi`.
-/

namespace Pydisort

/-- The indices of an array in C order. -/
def indices : List ℕ → List (List ℕ)
  | [] => [[]]
  | d :: ds => (List.range d).flatMap fun i => (indices ds).map (i :: ·)

/-- Position of an index in C order. -/
def flatIx : List ℕ → List ℕ → ℕ
  | _ :: ds, i :: is => i * ds.prod + flatIx ds is
  | _, _ => 0

/-- `np.max(a)`; an array without entries raises. -/
noncomputable def ndMax (a : ND ℝ) : Py ℝ :=
  match (indices a.shape).map a.get with
  | [] => .error (.valueError "zero-size array to reduction operation maximum which has no identity")
  | x :: xs => .ok (xs.foldl max x)

/-- `a.reshape(s)`, C order. -/
def ND.reshape (a : ND ℝ) (s : List ℕ) : Py (ND ℝ) :=
  if a.shape.prod = s.prod then .ok ⟨s, fun ix => a.get ((indices a.shape).getD (flatIx s ix) [])⟩
  else .error (.valueError "cannot reshape array")

open Classical in
/-- `a[idx]` for an array of non-negative integers. -/
noncomputable def ND.take (a : ND ℝ) (idx : A1 ℕ) : Py (ND ℝ) :=
  match a.shape with
  | [] => .error .indexError
  | d :: ds => if ∃ k < idx.n, d ≤ idx.get k then .error .indexError
    else .ok ⟨idx.n :: ds, fun ix => a.get (idx.get (ix.headD 0) :: ix.tail)⟩

/-- `a[mask]` for a rank-3 array and a Boolean array: the rows at which the mask is true. -/
def A3.masked (a : A3 ℝ) (mask : A1 Bool) : Py (A3 ℝ) :=
  if mask.n = a.d0 then
    .ok ⟨((List.range mask.n).filter (mask.get ·)).length, a.d1, a.d2, fun j => a.get (((List.range mask.n).filter (mask.get ·)).getD j 0)⟩
  else .error .indexError

/-- The largest of `v 0, …, v n`. -/
noncomputable def maxUpTo : ℕ → (ℕ → ℝ) → ℝ
  | 0, v => v 0
  | n + 1, v => max (maxUpTo n v) (v (n + 1))

/-- `np.max(a, axis=0)` of a rank-3 array. (NumPy does not raise if the result has no entries either; line 944 or 945 then raises `ValueError`.) -/
noncomputable def A3.maxAxis0 (a : A3 ℝ) : Py (A2 ℝ) :=
  if a.d0 = 0 then .error (.valueError "zero-size array to reduction operation maximum which has no identity")
  else .ok ⟨a.d1, a.d2, fun t p => maxUpTo (a.d0 - 1) fun i => a.get i t p⟩

/-- `np.max(a, axis=1)` of a rank-2 array, see `A3.maxAxis0`. -/
noncomputable def A2.maxAxis1 (a : A2 ℝ) : Py (A1 ℝ) :=
  if a.c = 0 then .error (.valueError "zero-size array to reduction operation maximum which has no identity")
  else .ok ⟨a.r, fun t => maxUpTo (a.c - 1) fun p => a.get t p⟩

open Classical in
/-- `np.argmax`: the first position of the largest entry. -/
noncomputable def npArgmax (v : A1 ℝ) : Py ℕ :=
  if v.n = 0 then .error (.valueError "attempt to get argmax of an empty sequence")
  else .ok (argmaxTrue v.n fun i => ∀ j < v.n, v.get j ≤ v.get i)

/-- `v[k]`. -/
def A1.item (v : A1 ℝ) (k : ℕ) : Py ℝ := if k < v.n then .ok (v.get k) else .error .indexError

/-- One of the comparisons of fluxes: the two returned arrays and the two printed numbers. -/
structure FluxReport where
  diff : ND ℝ
  ratio : ND ℝ
  maxDiff : ℝ
  maxRatio : ℝ

/-- `np.divide(d, r, out=np.zeros_like(d), where=(r != 0))`. -/
noncomputable def divideWhere (d r : ℝ) : ℝ := if r ≠ 0 then d / r else 0

/-- Lines 891-899 (and 904-915, 920-931): a comparison of fluxes. -/
noncomputable def compareFlux (ref : A1 ℝ) (x : ND ℝ) : Py FluxReport := do
  let diff ← ND.bin (fun r y => |r - y|) ref.toND x
  let ratio ← ND.bin divideWhere diff ref.toND
  let m ← ndMax diff
  let r ← ndMax ratio
  return ⟨diff, ratio, m, r⟩

/-- The comparison of intensities: the two returned arrays, and the printed depths and numbers. -/
structure IntensityReport where
  diff : A3 ℝ
  ratio : A3 ℝ
  diffTau : ℝ
  maxDiff : ℝ
  ratioTau : ℝ
  maxRatio : ℝ

/-- `np.argmax(np.max(np.max(a, axis=0), axis=1))`, lines 944-945. -/
noncomputable def argmaxDepth (a : A3 ℝ) : Py ℕ := do
  let b ← a.maxAxis0
  let c ← b.maxAxis1
  npArgmax c

/-- `np.max(a[:, t, :])`. -/
noncomputable def maxAtDepth (a : A3 ℝ) (t : ℕ) : Py ℝ := ndMax ⟨[a.d0, a.d2], fun ix => a.get (ix.getD 0 0) t (ix.getD 1 0)⟩

/-- Lines 936-954. -/
noncomputable def compareIntensity (uu : A3 ℝ) (tau : A1 ℝ) (mask : A1 Bool) (reorder : A1 ℕ) (x : ND ℝ) : Py IntensityReport := do
  let y ← x.take reorder
  let u ← y.reshape [uu.d0, uu.d1, uu.d2]
  let diff ← A3.masked ⟨uu.d0, uu.d1, uu.d2, fun i t p => |uu.get i t p - u.get [i, t, p]|⟩ mask
  let ref ← A3.masked uu mask
  let ratio : A3 ℝ := ⟨diff.d0, diff.d1, diff.d2, fun i t p => divideWhere (diff.get i t p) (ref.get i t p)⟩
  let kd ← argmaxDepth diff
  let kr ← argmaxDepth ratio
  let td ← tau.item kd
  let tr ← tau.item kr
  let m ← maxAtDepth diff kd
  let r ← maxAtDepth ratio kr
  return ⟨diff, ratio, td, m, tr, r⟩

/-- The contents of `results`. -/
structure Reference where
  tau : A1 ℝ
  phi : A1 ℝ
  flup : A1 ℝ
  rfldn : A1 ℝ
  rfldir : A1 ℝ
  uu : A3 ℝ

/-- What `_compare` returns and prints. -/
structure Report where
  up : FluxReport
  diffuse : FluxReport
  direct : FluxReport
  intensity : Option IntensityReport

/-- `_compare(results, mu_to_compare, reorder_mu, flux_up, flux_down, u)`, `subroutines.py` 866-974. `flux_down` is called twice. -/
noncomputable def compare (ref : Reference) (mask : A1 Bool) (reorder : A1 ℕ) (fluxUp : A1 ℝ → Py (ND ℝ)) (fluxDown : A1 ℝ → Py (ND ℝ × ND ℝ))
    (u : Option (A1 ℝ → A1 ℝ → Py (ND ℝ))) : Py Report := do
  let x ← fluxUp ref.tau
  let up ← compareFlux ref.flup x
  let y ← fluxDown ref.tau
  let diffuse ← compareFlux ref.rfldn y.1
  let z ← fluxDown ref.tau
  let direct ← compareFlux ref.rfldir z.2
  match u with
  | none => return ⟨up, diffuse, direct, none⟩
  | some u => do
    let v ← u ref.tau ref.phi
    let i ← compareIntensity ref.uu ref.tau mask reorder v
    return ⟨up, diffuse, direct, some i⟩

end Pydisort

import Verif.Model.Returned
import Verif.Subroutines.MathscrArr
import Verif.Subroutines.Thermal

/-!
# Array program of the evaluation functions (`_assemble_intensity_and_fluxes.py` 170-613)

`Model/Assemble.lean` gives one entry of each result; here every NumPy operation is kept: the comparison that finds the layers, fancy indexing, `np.concatenate`,
broadcasts, `np.einsum`, `@`. The arrays have the shapes that the docstring (79-95) gives. `ag` is `autograd_compatible` (only `u` depends on it); results before the final `np.squeeze`.
A scalar `0` that is added to an array is an array all of whose axes have length one. (Without a beam `B_collect` is `None` and is not read; here its slices are formed
and not used.)
-/

namespace Pydisort
open Finset

/-- Rank-4 array. -/
structure A4 (α : Type*) where
  d0 : ℕ
  d1 : ℕ
  d2 : ℕ
  d3 : ℕ
  get : ℕ → ℕ → ℕ → ℕ → α

/-- Elementwise binary operation on rank-4 arrays with broadcasting. -/
def A4.bin {α β γ : Type} (f : α → β → γ) (a : A4 α) (b : A4 β) : Py (A4 γ) := do
  let d0 ← bdim a.d0 b.d0
  let d1 ← bdim a.d1 b.d1
  let d2 ← bdim a.d2 b.d2
  let d3 ← bdim a.d3 b.d3
  return ⟨d0, d1, d2, d3, fun i j k p => f (a.get (bix a.d0 i) (bix a.d1 j) (bix a.d2 k) (bix a.d3 p))
    (b.get (bix b.d0 i) (bix b.d1 j) (bix b.d2 k) (bix b.d3 p))⟩

/-- Elementwise map. -/
def A3.map {α β : Type*} (f : α → β) (v : A3 α) : A3 β := ⟨v.d0, v.d1, v.d2, fun i j k => f (v.get i j k)⟩

open Classical in
/-- `v[l]` for an integer array `l`. -/
noncomputable def A1.take {α : Type} (v : A1 α) (l : A1 ℕ) : Py (A1 α) :=
  if ∃ t < l.n, v.n ≤ l.get t then .error .indexError else .ok ⟨l.n, fun t => v.get (l.get t)⟩

open Classical in
/-- `A[:, l, :]` for an integer array `l`. -/
noncomputable def A3.take1 {α : Type} (A : A3 α) (l : A1 ℕ) : Py (A3 α) :=
  if ∃ t < l.n, A.d1 ≤ l.get t then .error .indexError else .ok ⟨A.d0, l.n, A.d2, fun m t j => A.get m (l.get t) j⟩

open Classical in
/-- `A[:, :, l]` for an integer array `l`. -/
noncomputable def A3.take2 {α : Type} (A : A3 α) (l : A1 ℕ) : Py (A3 α) :=
  if ∃ t < l.n, A.d2 ≤ l.get t then .error .indexError else .ok ⟨A.d0, A.d1, l.n, fun m i t => A.get m i (l.get t)⟩

open Classical in
/-- `A[:, l, :, :]` for an integer array `l`. -/
noncomputable def A4.take1 {α : Type} (A : A4 α) (l : A1 ℕ) : Py (A4 α) :=
  if ∃ t < l.n, A.d1 ≤ l.get t then .error .indexError
  else .ok ⟨A.d0, l.n, A.d2, A.d3, fun m t i j => A.get m (l.get t) i j⟩

/-- `A[:, :, a:b]`. -/
def A3.slice2 {α : Type} (A : A3 α) (a b : ℕ) : A3 α := ⟨A.d0, A.d1, min b A.d2 - min a A.d2, fun m i j => A.get m i (a + j)⟩

/-- `A[:, a:b, :]`. -/
def A3.slice1 {α : Type} (A : A3 α) (a b : ℕ) : A3 α := ⟨A.d0, min b A.d1 - min a A.d1, A.d2, fun m i j => A.get m (a + i) j⟩

/-- `np.concatenate([a, b], axis=-1)`. -/
def A2.catLast {α : Type} (a b : A2 α) : Py (A2 α) :=
  if a.r = b.r then .ok ⟨a.r, a.c + b.c, fun i j => if j < a.c then a.get i j else b.get i (j - a.c)⟩ else .error .shapeError

/-- `np.concatenate([a, b], axis=-1)`. -/
def A3.catLast {α : Type} (a b : A3 α) : Py (A3 α) :=
  if a.d0 = b.d0 ∧ a.d1 = b.d1 then
    .ok ⟨a.d0, a.d1, a.d2 + b.d2, fun m i j => if j < a.d2 then a.get m i j else b.get m i (j - a.d2)⟩
  else .error .shapeError

/-- `A.T`. -/
def A2.T {α : Type} (A : A2 α) : A2 α := ⟨A.c, A.r, fun i j => A.get j i⟩
/-- `A.T`. -/
def A3.T {α : Type} (A : A3 α) : A3 α := ⟨A.d2, A.d1, A.d0, fun i j k => A.get k j i⟩
/-- `A.transpose(0, 2, 1)`. -/
def A3.T021 {α : Type} (A : A3 α) : A3 α := ⟨A.d0, A.d2, A.d1, fun i j k => A.get i k j⟩

/-- `A[-1, :, :]`. -/
def A3.last {α : Type} (A : A3 α) : Py (A2 α) := do
  let m ← pyIndex A.d0 (-1)
  return ⟨A.d1, A.d2, fun i j => A.get m i j⟩

/-- `A[-1, :, :, :]`. -/
def A4.last {α : Type} (A : A4 α) : Py (A3 α) := do
  let m ← pyIndex A.d0 (-1)
  return ⟨A.d1, A.d2, A.d3, fun i j k => A.get m i j k⟩

/-- `A[0, :, :]`. -/
def A3.first {α : Type} (A : A3 α) : Py (A2 α) := do
  let m ← pyIndex A.d0 0
  return ⟨A.d1, A.d2, fun i j => A.get m i j⟩

/-- `A[0, :, :, :]`. -/
def A4.first {α : Type} (A : A4 α) : Py (A3 α) := do
  let m ← pyIndex A.d0 0
  return ⟨A.d1, A.d2, A.d3, fun i j k => A.get m i j k⟩

/-- `np.einsum("mtij, mtj -> mit", A, b)`. -/
def einsumMtijMtj (A : A4 ℝ) (b : A3 ℝ) : Py (A3 ℝ) := do
  let nm ← bdim A.d0 b.d0
  let nt ← bdim A.d1 b.d1
  let nj ← bdim A.d3 b.d2
  return ⟨nm, A.d2, nt, fun m i t => ∑ j ∈ range nj, A.get (bix A.d0 m) (bix A.d1 t) i (bix A.d3 j)
    * b.get (bix b.d0 m) (bix b.d1 t) (bix b.d2 j)⟩

/-- `v @ A`. -/
def matvecLeft (v : A1 ℝ) (A : A2 ℝ) : Py (A1 ℝ) :=
  if v.n = A.r then .ok ⟨A.c, fun t => ∑ i ∈ range v.n, v.get i * A.get i t⟩ else .error .shapeError

/-- `np.argmax(A, axis=1)` of a boolean array. -/
noncomputable def argmaxAxis1 (A : A2 Prop) : Py (A1 ℕ) :=
  if A.c = 0 then .error (.valueError "attempt to get argmax of an empty sequence")
  else .ok ⟨A.r, fun t => argmaxTrue A.c (A.get t)⟩

/-- The depths of an evaluation: layer indices, `scaled_tau_arr_l`, `scaled_tau_arr_lm1`, `scaled_tau`. -/
structure Depths where
  l : A1 ℕ
  top : A1 ℝ
  bot : A1 ℝ
  st : A1 ℝ

namespace AsmIn
variable (I : AsmIn) (S : Sols)

/-- `K_collect`. -/
def KArr : A3 ℝ := ⟨I.NFourier, I.NLayers, 2 * I.N, S.K⟩
/-- `G_collect`. -/
def GArr : A4 ℝ := ⟨I.NFourier, I.NLayers, 2 * I.N, 2 * I.N, S.G⟩
/-- `GC_collect`. -/
def GCArr : A4 ℝ := ⟨I.NFourier, I.NLayers, 2 * I.N, 2 * I.N, S.GC⟩
/-- `B_collect`. -/
def BArr : A3 ℝ := ⟨I.NFourier, I.NLayers, 2 * I.N, S.B⟩
/-- `G_inv_mu_inv`. -/
def gimArr : A2 ℝ := ⟨I.NLayers, 2 * I.N, S.Gim⟩
/-- `scaled_s_poly_coeffs`. -/
def sArr : A2 ℝ := ⟨I.NLayers, I.Nscoeffs, I.s⟩
/-- `scale_tau`. -/
def scaleArr : A1 ℝ := ⟨I.NLayers, I.scale⟩
/-- `tau_arr`. -/
def tauA : A1 ℝ := ⟨I.NLayers, I.tauArr⟩
/-- `scaled_tau_arr_with_0`. -/
def tau0Arr : A1 ℝ := ⟨I.NLayers + 1, I.tau0⟩
/-- `-scale_tau / mu0`. -/
noncomputable def negRate : A1 ℝ := I.scaleArr.map fun x => -x / I.mu0
/-- `np.exp(-x / mu0)`. -/
noncomputable def attArr (x : A1 ℝ) : A1 ℝ := x.map fun t => Real.exp (-t / I.mu0)

open Classical in
/-- Lines 181-195 (and 345-357, 369-370, 454-468, 536-550). -/
noncomputable def depths (tau : A1 ℝ) : Py Depths := do
  I.checkTau tau
  let c ← A2.bin (fun x y : ℝ => x ≤ y) tau.col I.tauA.row
  let l ← argmaxAxis1 c
  let bot ← (I.tau0Arr.tail).take l
  let top ← I.tau0Arr.take l
  let st ← if ∃ k < I.scaleArr.n, I.scaleArr.get k ≠ 1 then do
      let ta ← I.tauA.take l
      let d ← A1.bin (fun x y => x - y) ta tau
      let sl ← I.scaleArr.take l
      let sd ← A1.bin (fun x y => x * y) d sl
      A1.bin (fun x y => x - y) bot sd
    else .ok tau
  return ⟨l, top, bot, st⟩

/-- Lines 373-379, 485-491, 567-573 (with `K = K_collect_0`) and 266-272 (with `K = K_collect[-1]`): `exponent`. -/
noncomputable def expArr2 (K : A2 ℝ) (D : Depths) : Py (A2 ℝ) := do
  let k1 ← (K.cols 0 I.N).takeRows D.l
  let d1 ← A1.bin (fun x y => x - y) D.st D.top
  let x1 ← A2.bin (fun x y => x * y) k1 d1.col
  let k2 ← (K.cols I.N K.c).takeRows D.l
  let d2 ← A1.bin (fun x y => x - y) D.st D.bot
  let x2 ← A2.bin (fun x y => x * y) k2 d2.col
  A2.catLast x1 x2

/-- The einsum of lines 389-395, 398-402, 501-505, 513, 585, 596: with the antiderivative the exponentials are divided by
`(scale_tau[:, None] * K)[l, :]`. -/
noncomputable def homArr2 (K : A2 ℝ) (GC : A3 ℝ) (D : Depths) (anti : Bool) : Py (A2 ℝ) := do
  let ex ← I.expArr2 K D
  let gc ← GC.take0 D.l
  if anti = true then do
    let sk ← A2.bin (fun x y => x * y) I.scaleArr.col K
    let skl ← sk.takeRows D.l
    let e ← A2.bin (fun x y => x / y) (ex.map Real.exp) skl
    einsumLijLj gc e
  else einsumLijLj gc (ex.map Real.exp)

/-- Lines 384-386, 399-401, 496-498, 510, 591: the direct beam's part, for `B` with axes `mu, layer`. -/
noncomputable def beamArr2 (B : A2 ℝ) (D : Depths) (anti : Bool) : Py (A2 ℝ) :=
  if I.beam = true then
    if anti = true then do
      let q ← A2.bin (fun x y => x / y) B I.negRate.row
      let ql ← q.takeCols D.l
      A2.bin (fun x y => x * y) ql (I.attArr D.st).row
    else do
      let bl ← B.takeCols D.l
      A2.bin (fun x y => x * y) bl (I.attArr D.st).row
  else .ok ⟨1, 1, fun _ _ => 0⟩

/-- Lines 411-422, 470-483, 552-565: the isotropic source's part, for `G` with axes `layer, mu, mode`. -/
noncomputable def isoArr (junk : Vec) (G : A3 ℝ) (D : Depths) (anti : Bool) : Py (A2 ℝ) := do
  let K0 ← (I.KArr S).first
  mathscrCall junk D.st I.scaleArr D.l I.Nscoeffs I.sArr G K0 (I.gimArr S) anti

/-- Lines 334-433: `u0(tau, is_antiderivative_wrt_tau)`. -/
noncomputable def u0Arr (junk : Vec) (tau : A1 ℝ) (anti : Bool) : Py (A2 ℝ) := do
  let D ← I.depths tau
  let K0 ← (I.KArr S).first
  let GC0 ← (I.GCArr S).first
  let B0 ← (I.BArr S).first
  let h ← I.homArr2 K0 GC0 D (anti && I.beam)
  let b ← I.beamArr2 B0.T D (anti && I.beam)
  let u0 ← A2.bin (fun x y => x + y) h b
  if I.iso = true then do
    let G0 ← (I.GArr S).first
    let v ← I.isoArr S junk G0 D anti
    let w ← A2.bin (fun x y => x + y) u0 v
    return w.map fun x => I.rescale * x
  else return u0.map fun x => I.rescale * x

open Classical in
/-- Lines 358-371: the extra output of `u0` with `_return_act_dscale_for_reclass = True`. -/
noncomputable def actReclassArr (tau : A1 ℝ) (anti : Bool) : Py (A1 ℝ) := do
  let D ← I.depths tau
  if ∃ k < I.scaleArr.n, I.scaleArr.get k ≠ 1 then
    if anti = true then do
      let sl ← I.scaleArr.take D.l
      let x ← A1.bin (fun x y => x / y) ((I.attArr D.st).map fun x => I.I0 * x) (sl.map fun x => -x / I.mu0)
      A1.bin (fun x y => x - y) x ((I.attArr tau).map fun x => I.I0 * x * -I.mu0)
    else A1.bin (fun x y => x - y) ((I.attArr D.st).map fun x => I.I0 * x) ((I.attArr tau).map fun x => I.I0 * x)
  else return ⟨1, fun _ => 0⟩

/-- `2 * pi * (mu_arr_pos * W) @ u` (lines 519 and 601). -/
noncomputable def quadArr (u : A2 ℝ) : Py (A1 ℝ) := do
  let mw ← A1.bin (fun x y => x * y) (⟨I.N, I.mu⟩ : A1 ℝ) ⟨I.N, I.W⟩
  matvecLeft (mw.map fun x => 2 * Real.pi * x) u

/-- Lines 446-524: `flux_up(tau, is_antiderivative_wrt_tau)`. -/
noncomputable def fluxUpArr (junk : Vec) (tau : A1 ℝ) (anti : Bool) : Py (A1 ℝ) := do
  let D ← I.depths tau
  let v : A2 ℝ ← if I.iso = true then do
      let G0 ← (I.GArr S).first
      I.isoArr S junk (G0.slice1 0 I.N) D anti
    else .ok ⟨1, 1, fun _ _ => 0⟩
  let K0 ← (I.KArr S).first
  let GC0 ← (I.GCArr S).first
  let B0 ← (I.BArr S).first
  let h ← I.homArr2 K0 (GC0.slice1 0 I.N) D anti
  let b ← I.beamArr2 (B0.cols 0 I.N).T D anti
  let x ← A2.bin (fun x y => x + y) h b
  let u0_pos ← A2.bin (fun x y => x + y) x v
  let flux ← I.quadArr u0_pos
  return flux.map fun x => I.rescale * x

/-- Line 580: `(B_neg / (-scale_tau / mu0)[None, l])[:, l] * np.exp(-scaled_tau / mu0)[None, :]`. -/
noncomputable def downBeamArr (B : A2 ℝ) (D : Depths) (anti : Bool) : Py (A2 ℝ) :=
  if I.beam = true ∧ anti = true then do
    let r ← I.negRate.row.takeCols D.l
    let q ← A2.bin (fun x y => x / y) B r
    let ql ← q.takeCols D.l
    A2.bin (fun x y => x * y) ql (I.attArr D.st).row
  else I.beamArr2 B D anti

/-- Lines 581, 592 and 576: `direct_beam`. -/
noncomputable def directArr (tau : A1 ℝ) (anti : Bool) : A1 ℝ :=
  if I.beam = true then
    if anti = true then (I.attArr tau).map fun x => I.I0 * I.mu0 * x * -I.mu0 else (I.attArr tau).map fun x => I.I0 * I.mu0 * x
  else ⟨1, fun _ => 0⟩

/-- Lines 582, 593 and 577: `direct_beam_scaled` (with the antiderivative a row, because of `[None, l]`). -/
noncomputable def directScaledArr (D : Depths) (anti : Bool) : Py (A2 ℝ) :=
  if I.beam = true then
    if anti = true then do
      let r ← I.negRate.row.takeCols D.l
      A2.bin (fun x y => x / y) ((I.attArr D.st).map fun x => I.I0 * I.mu0 * x).row r
    else .ok ((I.attArr D.st).map fun x => I.I0 * I.mu0 * x).row
  else .ok ⟨1, 1, fun _ _ => 0⟩

/-- Lines 527-613: `flux_down(tau, is_antiderivative_wrt_tau)`. `diffuse_flux` is a row here, as it is in the code for the antiderivative with a beam; the
squeeze removes the axis. The flag tells whether the direct flux is an array (it is a scalar without a beam). -/
noncomputable def fluxDownArr (junk : Vec) (tau : A1 ℝ) (anti : Bool) : Py (A2 ℝ × A1 ℝ × Bool) := do
  let D ← I.depths tau
  let v : A2 ℝ ← if I.iso = true then do
      let G0 ← (I.GArr S).first
      I.isoArr S junk (G0.slice1 I.N (2 * I.N)) D anti
    else .ok ⟨1, 1, fun _ _ => 0⟩
  let K0 ← (I.KArr S).first
  let GC0 ← (I.GCArr S).first
  let B0 ← (I.BArr S).first
  let b ← I.downBeamArr (B0.cols I.N (2 * I.N)).T D anti
  let ds ← I.directScaledArr D anti
  let h ← I.homArr2 K0 (GC0.slice1 I.N (2 * I.N)) D anti
  let x ← A2.bin (fun x y => x + y) h b
  let u0_neg ← A2.bin (fun x y => x + y) x v
  let q ← I.quadArr u0_neg
  let d1 ← A2.bin (fun x y => x + y) q.row ds
  let d2 ← A2.bin (fun x y => x - y) d1 (I.directArr tau anti).row
  return (d2.map fun x => I.rescale * x, (I.directArr tau anti).map fun x => I.rescale * x, I.beam)

/-- Lines 197-203: `exponent`. -/
noncomputable def expArr3 (D : Depths) : Py (A3 ℝ) := do
  let k1 ← ((I.KArr S).slice2 0 I.N).take1 D.l
  let d1 ← A1.bin (fun x y => x - y) D.st D.top
  let x1 ← A3.bin (fun x y => x * y) k1 ⟨1, d1.n, 1, fun _ t _ => d1.get t⟩
  let k2 ← ((I.KArr S).slice2 I.N (2 * I.N)).take1 D.l
  let d2 ← A1.bin (fun x y => x - y) D.st D.bot
  let x2 ← A3.bin (fun x y => x * y) k2 ⟨1, d2.n, 1, fun _ t _ => d2.get t⟩
  A3.catLast x1 x2

/-- Lines 213-218 and 228-230: the einsum. -/
noncomputable def homArr3 (D : Depths) (anti : Bool) : Py (A3 ℝ) := do
  let ex ← I.expArr3 S D
  let gc ← (I.GCArr S).take1 D.l
  if anti = true then do
    let sk ← A3.bin (fun x y => x * y) ⟨1, I.scaleArr.n, 1, fun _ k _ => I.scaleArr.get k⟩ (I.KArr S)
    let skl ← sk.take1 D.l
    let e ← A3.bin (fun x y => x / y) (ex.map Real.exp) skl
    einsumMtijMtj gc e
  else einsumMtijMtj gc (ex.map Real.exp)

/-- Lines 205-210 and 222-226: `direct_beam_contribution`. -/
noncomputable def beamArr3 (D : Depths) (anti : Bool) : Py (A3 ℝ) :=
  let att : A3 ℝ := ⟨1, 1, (I.attArr D.st).n, fun _ _ => (I.attArr D.st).get⟩
  if I.beam = true then
    if anti = true then do
      let q ← A3.bin (fun x y => x / y) (I.BArr S).T021 ⟨1, 1, I.negRate.n, fun _ _ => I.negRate.get⟩
      let ql ← q.take2 D.l
      A3.bin (fun x y => x * y) ql att
    else do
      let bl ← (I.BArr S).T021.take2 D.l
      A3.bin (fun x y => x * y) bl att
  else .ok ⟨1, 1, 1, fun _ _ _ => 0⟩

/-- Lines 205-254: `um`. -/
noncomputable def umArr (ag : Bool) (junk : Vec) (D : Depths) (anti : Bool) : Py (A3 ℝ) := do
  let b ← I.beamArr3 S D anti
  let h ← I.homArr3 S D anti
  let um ← A3.bin (fun x y => x + y) h b
  if I.iso = true then do
    let G0 ← (I.GArr S).first
    let v ← I.isoArr S junk G0 D anti
    if I.NFourier = 1 then A3.bin (fun x y => x + y) um ⟨1, v.r, v.c, fun _ => v.get⟩
    else A3.addFirst ag um 1 ⟨1, v.r, v.c, fun _ => v.get⟩
  else .ok um

/-- Lines 256-260: `np.sum(um[:, :, :, None] * np.cos(np.arange(NFourier)[:, None] * (phi0 - phi)[None, :])[:, None, None, :], axis=0)`. -/
noncomputable def sumModesArr (um : A3 ℝ) (phi : A1 ℝ) : Py (A3 ℝ) := do
  let ar : A1 ℝ := ⟨I.NFourier, fun m => (m : ℝ)⟩
  let c ← A2.bin (fun x y => x * y) ar.col (phi.map fun p => I.phi0 - p).row
  let c := c.map Real.cos
  let p ← A4.bin (fun x y => x * y) ⟨um.d0, um.d1, um.d2, 1, fun m i t _ => um.get m i t⟩ ⟨c.r, 1, 1, c.c, fun m _ _ p => c.get m p⟩
  return ⟨p.d1, p.d2, p.d3, fun i t q => ∑ m ∈ range p.d0, p.get m i t q⟩

/-- Lines 170-260: `u` before the squeeze. -/
noncomputable def uArr (ag : Bool) (junk : Vec) (tau phi : A1 ℝ) (anti : Bool) : Py (A3 ℝ) := do
  let D ← I.depths tau
  let um ← I.umArr S ag junk D anti
  I.sumModesArr um phi

/-- Lines 274-278 and 290-293: the direct beam's part of `ulast`. `B_collect.T[-1, :, l]` has the axes of the indices `-1` and `l` (they are separated by a slice) in
front: entry `[t, k]` is `B_collect.T[-1, k, l[t]]`. -/
noncomputable def ulastBeamArr (D : Depths) (anti : Bool) : Py (A2 ℝ) :=
  if I.beam = true then
    if anti = true then do
      let bt ← (I.BArr S).T.last
      let q ← A2.bin (fun x y => x / y) bt I.negRate.row
      let ql ← q.takeCols D.l
      A2.bin (fun x y => x * y) ql (I.attArr D.st).row
    else do
      let bt ← (I.BArr S).T.last
      let bl ← bt.takeCols D.l
      A2.bin (fun x y => x * y) bl.T (I.attArr D.st).row
  else .ok ⟨1, 1, fun _ _ => 0⟩

/-- Lines 265-301: `ulast`. -/
noncomputable def ulastArr (D : Depths) (anti : Bool) : Py (A2 ℝ) := do
  let K ← (I.KArr S).last
  let GC ← (I.GCArr S).last
  let b ← I.ulastBeamArr S D anti
  let h ← I.homArr2 K GC D anti
  A2.bin (fun x y => x + y) h b

open Classical in
/-- Lines 265-316: `Fourier_error`. The division writes into an array of the shape of `u`, where `|u| > 1e-8`. -/
noncomputable def fourierErrorArr (ag : Bool) (junk : Vec) (tau phi : A1 ℝ) (anti : Bool) : Py ℝ := do
  let u ← I.uArr S ag junk tau phi anti
  let D ← I.depths tau
  let ul ← I.ulastArr S D anti
  let u_abs := u.map fun x => |x|
  let c := phi.map fun p => Real.cos (((I.NFourier - 1 : ℕ) : ℝ) * (I.phi0 - p))
  let num ← A3.bin (fun x y => x * y) ⟨ul.r, ul.c, 1, fun i t _ => ul.get i t⟩ ⟨1, 1, c.n, fun _ _ => c.get⟩
  let q ← A3.bin (fun x y => if y > 1 / 10 ^ 8 then x / y else 0) (num.map fun x => |x|) u_abs
  if q.d0 = u_abs.d0 ∧ q.d1 = u_abs.d1 ∧ q.d2 = u_abs.d2 then npMax3 q else .error .shapeError

end AsmIn
end Pydisort

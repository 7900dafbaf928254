import Verif.Model.EvalArr

/-!
# Array program of the Nakajima-Tanaka corrections (`pydisort.py` 407-694)

`Model/NT.lean` gives one entry of each result; here every NumPy operation is kept: `np.unique` and its inverse, fancy indexing, `np.concatenate`, broadcasts,
`np.cumsum` of reversed arrays, masks, the tests `any_pos`, `any_neg`, and the two ways of adding to half of the streams. `ag` is `autograd_compatible`.

`l_uniq, l_inv` are `np.unique(l, return_inverse=True)` whether computed on line 415 or (with an internal source) taken from `u_star`. The variables captured by the
two functions have the shapes that `pydisort` gives them: `NLayers` entries or rows, `f_arr` too because some entry of it is positive.
-/

namespace Pydisort
open Finset

/-- `np.concatenate([x[:, None, :] for x in xs], axis=1)`, `n` arrays. -/
def stackAxis1 (n : ℕ) (xs : ℕ → A2 ℝ) : Py (A3 ℝ) :=
  if n = 0 then .error (.valueError "need at least one array to concatenate")
  else if ∀ k < n, (xs k).r = (xs 0).r ∧ (xs k).c = (xs 0).c then .ok ⟨(xs 0).r, n, (xs 0).c, fun i k p => (xs k).get i p⟩
  else .error .shapeError

/-- `np.concatenate((a, b), axis=0)`. -/
def A2.catRows (a b : A2 ℝ) : Py (A2 ℝ) :=
  if a.c = b.c then .ok ⟨a.r + b.r, a.c, fun i j => if i < a.r then a.get i j else b.get (i - a.r) j⟩ else .error .shapeError

/-- `np.concatenate((a, b))`. -/
def A1.cat (a b : A1 ℝ) : A1 ℝ := ⟨a.n + b.n, fun i => if i < a.n then a.get i else b.get (i - a.n)⟩

/-- `np.cumsum(A, axis=1)`. -/
def A2.cumsum1 (A : A2 ℝ) : A2 ℝ := ⟨A.r, A.c, fun i => cumsum (A.get i)⟩

/-- `A[:, ::-1]`. -/
def A2.flip1 (A : A2 ℝ) : A2 ℝ := ⟨A.r, A.c, fun i j => A.get i (A.c - 1 - j)⟩

/-- `A[:, :, None]`. -/
def A2.deep (A : A2 ℝ) : A3 ℝ := ⟨A.r, A.c, 1, fun i j _ => A.get i j⟩

/-- `v[None, :, None]`. -/
def A1.mid (v : A1 ℝ) : A3 ℝ := ⟨1, v.n, 1, fun _ j _ => v.get j⟩

/-- `v[:, None, None]`. -/
def A1.lead (v : A1 ℝ) : A3 ℝ := ⟨v.n, 1, 1, fun i _ _ => v.get i⟩

/-- `l.min()`. -/
def A1.amin (l : A1 ℕ) : Py ℕ :=
  if h : 0 < l.n then .ok ((range l.n).inf' (nonempty_range_iff.mpr (Nat.pos_iff_ne_zero.mp h)) l.get)
  else .error (.valueError "zero-size array to reduction operation minimum which has no identity")

/-- `l.max()`. -/
def A1.amax (l : A1 ℕ) : Py ℕ :=
  if h : 0 < l.n then .ok ((range l.n).sup' (nonempty_range_iff.mpr (Nat.pos_iff_ne_zero.mp h)) l.get)
  else .error (.valueError "zero-size array to reduction operation maximum which has no identity")

/-- `A[:, :n] = B` (the shape of the slice is kept). -/
def A2.setCols (A : A2 ℝ) (n : ℕ) (B : A2 ℝ) : Py (A2 ℝ) :=
  if (B.r = A.r ∨ B.r = 1) ∧ (B.c = min n A.c ∨ B.c = 1) then
    .ok ⟨A.r, A.c, fun i j => if j < min n A.c then B.get (bix B.r i) (bix B.c j) else A.get i j⟩
  else .error .shapeError

/-- `np.sum(A, axis=0)`. -/
def A2.sum0 (A : A2 ℝ) : A1 ℝ := ⟨A.c, fun j => ∑ i ∈ range A.r, A.get i j⟩

namespace NTIn
variable (I : NTIn)

/-- `mu_arr`. -/
def muA : A1 ℝ := ⟨2 * I.N, I.muArr⟩
/-- `mu_arr_pos`. -/
def muPosA : A1 ℝ := ⟨I.N, I.mu⟩
/-- `M_inv`. -/
def MinvA : A1 ℝ := ⟨I.N, I.M_inv⟩
/-- `scaled_tau_arr_with_0`. -/
def tau0A : A1 ℝ := ⟨I.NLayers + 1, I.tau0⟩
/-- `scaled_thickness_arr`. -/
def thickA : A1 ℝ := ⟨I.NLayers, I.thick⟩
/-- `scale_tau`. -/
def scaleA : A1 ℝ := ⟨I.NLayers, I.scale⟩
/-- `scaled_omega_arr`. -/
def omegaSA : A1 ℝ := ⟨I.NLayers, I.omegaS⟩
/-- `omega_arr`. -/
def omegaA : A1 ℝ := ⟨I.NLayers, I.omega⟩
/-- `f_arr`. -/
def fA : A1 ℝ := ⟨I.NLayers, I.f⟩
/-- `tau_arr`. -/
def tauAr : A1 ℝ := ⟨I.NLayers, I.tauArr⟩
/-- `1 / mu0`. -/
noncomputable def mu0Inv : ℝ := 1 / I.mu0

/-- Lines 416-422. -/
noncomputable def tmsDepths (tau : A1 ℝ) (l : A1 ℕ) : Py Depths := do
  let bot ← (I.tau0A.tail).take l
  let top ← I.tau0A.take l
  let ta ← I.tauAr.take l
  let d ← A1.bin (fun x y => x - y) ta tau
  let sl ← I.scaleA.take l
  let sd ← A1.bin (fun x y => x * y) d sl
  let st ← A1.bin (fun x y => x - y) bot sd
  return ⟨l, top, bot, st⟩

/-- Lines 428-449: `mathscr_B`. -/
noncomputable def tmsBArr (nu : A2 ℝ) (uniq : A1 ℕ) : Py (A3 ℝ) := do
  let wa ← (A2.mk I.NLayers I.NLegAll I.wLegAll).takeRows uniq
  let pTrue ← stackAxis1 wa.r (fun k => nu.map (legSeries wa.c (wa.get k)))
  let ws ← (A2.mk I.NLayers I.NLeg I.wLeg).takeRows uniq
  let pTrun ← stackAxis1 ws.r (fun k => nu.map (legSeries ws.c (ws.get k)))
  let w ← I.omegaSA.take uniq
  let c ← A3.bin (fun x y => x * y) (w.map fun x => x * I.I0div4pi).mid (I.muA.map fun m => I.mu0 / (I.mu0 + m)).lead
  let g ← (I.fA.map fun x => 1 - x).take uniq
  let q ← A3.bin (fun x y => x / y) pTrue g.mid
  let d ← A3.bin (fun x y => x - y) q pTrun
  A3.bin (fun x y => x * y) c d

/-- Lines 452-480 and the concatenation on line 486: `TMS_correction_pos`, `TMS_correction_neg`. -/
noncomputable def tmsOwnArr (D : Depths) (uniq inv : A1 ℕ) (anti : Bool) : Py (A2 ℝ) := do
  let e := D.st.map fun x => Real.exp (-x / I.mu0)
  let x1 ← A1.bin (fun x y => x - y) D.st D.bot
  let x2 ← A2.bin (fun x y => x / y) x1.row I.muPosA.col
  let x3 ← A2.bin (fun x y => x - y) x2 (D.bot.map fun x => x / I.mu0).row
  let y1 ← A1.bin (fun x y => x - y) D.top D.st
  let y2 ← A2.bin (fun x y => x / y) y1.row I.muPosA.col
  let y3 ← A2.bin (fun x y => x - y) y2 (D.top.map fun x => x / I.mu0).row
  if anti = true then do
    let sl ← I.scaleA.take uniq
    let r ← (sl.map fun s => -s / I.mu0).take inv
    let sm ← A2.bin (fun x y => x / y) sl.row I.muPosA.col
    let er ← A1.bin (fun x y => x / y) e r
    let si ← sm.takeCols inv
    let x4 ← A2.bin (fun x y => x / y) (x3.map Real.exp) si
    let pos ← A2.bin (fun x y => x - y) er.row x4
    let y4 ← A2.bin (fun x y => x / y) (y3.map Real.exp) si
    let neg ← A2.bin (fun x y => x + y) er.row y4
    A2.catRows pos neg
  else do
    let pos ← A2.bin (fun x y => x - y) e.row (x3.map Real.exp)
    let neg ← A2.bin (fun x y => x - y) e.row (y3.map Real.exp)
    A2.catRows pos neg

/-- Lines 495-500: `exp_taufront_mu0_inv`. -/
noncomputable def expFrontArr : A1 ℝ := (A1.mk 1 fun _ => 1).cat (I.tau0A.init.tail.map fun x => Real.exp (-x * I.mu0Inv))

/-- Line 507: `log_decay`. -/
noncomputable def logDecayArr : Py (A2 ℝ) := A2.bin (fun x y => x * y) (I.thickA.map fun x => -x).row I.MinvA.col

/-- Lines 510-511: `decay_prod`. -/
noncomputable def decayProdArr : Py (A2 ℝ) := do
  let ld ← I.logDecayArr
  A2.catLast ⟨I.N, 1, fun _ _ => 1⟩ (ld.cumsum1.map Real.exp)

/-- Line 515: `integration_factor`. -/
noncomputable def intFactorArr : Py (A2 ℝ) := A2.bin (fun x y => x / y) I.muPosA.col I.scaleA.row

/-- Lines 521-536: `Rpos`. -/
noncomputable def RposArr (anti : Bool) : Py (A2 ℝ) := do
  let dp ← I.decayProdArr
  let th ← A2.bin (fun x y => x * y) I.thickA.row (I.MinvA.map fun x => x + I.mu0Inv).col
  let e0 := th.map fun x => -(Real.exp (-x) - 1)
  let em1 ← if anti = true then do
      let f ← I.intFactorArr
      A2.bin (fun x y => x * y) f e0
    else .ok e0
  let lt ← A2.bin (fun x y => x * y) em1 I.expFrontArr.row
  let w ← A2.bin (fun x y => x * y) lt (dp.cols 0 I.NLayers)
  let cs := w.flip1.cumsum1.flip1
  let rest ← A2.bin (fun x y => x / y) (cs.cols 1 cs.c) (dp.cols 1 I.NLayers)
  A2.catLast rest ⟨I.N, 1, fun _ _ => 0⟩

open Classical in
/-- Lines 552-580: `Rneg`. -/
noncomputable def RnegArr (anti : Bool) : Py (A2 ℝ) := do
  let dp ← I.decayProdArr
  let ld ← I.logDecayArr
  let decay := ld.map Real.exp
  let th ← A2.bin (fun x y => x * y) I.thickA.row (I.MinvA.map fun x => x - I.mu0Inv).col
  let mask := th.map fun x => (if x ≥ 0 then 1 else 0 : ℝ)
  let nmask := th.map fun x => (if x ≥ 0 then 0 else 1 : ℝ)
  let x1 := (I.tau0A.tail.map fun x => Real.exp (-x * I.mu0Inv)).row
  let x0 ← A2.bin (fun x y => x * y) decay I.expFrontArr.row
  let em1 := th.map fun x => Real.exp (-|x|) - 1
  let neg ← A2.bin (fun x y => x * y) em1 x0
  let pos ← A2.bin (fun x y => x * y) (em1.map fun x => -x) x1
  let a ← A2.bin (fun x y => x * y) pos mask
  let b ← A2.bin (fun x y => x * y) neg nmask
  let t0 ← A2.bin (fun x y => x + y) a b
  let t ← if anti = true then do
      let f ← I.intFactorArr
      A2.bin (fun x y => x * y) (f.map fun x => -x) t0
    else .ok t0
  let w ← A2.bin (fun x y => x / y) t (dp.cols 1 dp.c)
  let cs := w.cumsum1
  let rest ← A2.bin (fun x y => x * y) (dp.cols 1 I.NLayers) (cs.cols 0 (cs.c - 1))
  A2.catLast ⟨I.N, 1, fun _ _ => 0⟩ rest

/-- Lines 518-546: the contribution of the layers below. -/
noncomputable def addBelow (ag anti : Bool) (D : Depths) (inv : A1 ℕ) (B sol : A3 ℝ) : Py (A3 ℝ) := do
  let R ← I.RposArr anti
  let bl ← (I.tau0A.tail).take D.l
  let d ← A1.bin (fun x y => x - y) D.st bl
  let ex ← A2.bin (fun x y => x * y) I.MinvA.col d.row
  let tmp ← R.takeCols D.l
  let te ← A2.bin (fun x y => x * y) tmp (ex.map Real.exp)
  let Bi ← (B.rows 0 I.N).take1 inv
  let x ← A3.bin (fun x y => x * y) te.deep Bi
  A3.addFirst ag sol I.N x

/-- Lines 551-589: the contribution of the layers above. -/
noncomputable def addAbove (ag anti : Bool) (D : Depths) (inv : A1 ℕ) (B sol : A3 ℝ) : Py (A3 ℝ) := do
  let R ← I.RnegArr anti
  let fl ← (I.tau0A.init).take D.l
  let d ← A1.bin (fun x y => x - y) fl D.st
  let ex ← A2.bin (fun x y => x * y) I.MinvA.col d.row
  let tmp ← R.takeCols D.l
  let te ← A2.bin (fun x y => x * y) tmp (ex.map Real.exp)
  let Bi ← (B.rows I.N B.d0).take1 inv
  let x ← A3.bin (fun x y => x * y) te.deep Bi
  A3.addLast ag sol I.N x

/-- Lines 409-596: `TMS_correction`. -/
noncomputable def tmsArr (ag : Bool) (tau phi : A1 ℝ) (anti : Bool) (l : A1 ℕ) : Py (A3 ℝ) := do
  let uniq := (npUnique l).1
  let inv := (npUnique l).2
  let D ← I.tmsDepths tau l
  let nu ← I.nuTMS phi
  let B ← I.tmsBArr nu uniq
  let own ← I.tmsOwnArr D uniq inv anti
  let Bi ← B.take1 inv
  let sol ← A3.bin (fun x y => x * y) Bi own.deep
  if I.NLayers > 1 then do
    let mn ← l.amin
    let mx ← l.amax
    let sol ← if mn < I.NLayers - 1 then I.addBelow ag anti D inv B sol else .ok sol
    if mx > 0 then I.addAbove ag anti D inv B sol else .ok sol
  else .ok sol

/-- Lines 601-610: `Leg_coeffs_residue_avg`. -/
noncomputable def residueArr : Py (A1 ℝ) := do
  let o ← A1.bin (fun x y => x * y) I.fA I.omegaA
  let ot ← A1.bin (fun x y => x * y) o I.tauAr
  let sum2 := ∑ k ∈ range ot.n, ot.get k
  let tile : A2 ℝ := ⟨I.NLeg, I.NLayers, fun _ k => I.f k⟩
  let res ← (A2.mk I.NLayers I.NLegAll I.legAll).setCols I.NLeg tile.T
  let x ← A2.bin (fun x y => x * y) res I.omegaA.col
  let y ← A2.bin (fun x y => x * y) x I.tauAr.col
  return y.sum0.map fun s => s / sum2

/-- Lines 617-628: `chi`. -/
noncomputable def chiArr (tau : A1 ℝ) (anti : Bool) : Py (A2 ℝ) := do
  let s := I.scaledMu0
  let x := I.muPosA.map fun m => 1 / m - 1 / s
  let att := (tau.map fun t => Real.exp (-t / s)).row
  let q ← A2.bin (fun x y => x / y) (tau.map fun t => -t).row I.muPosA.col
  let ex := q.map Real.exp
  if anti = true then do
    let a ← A2.bin (fun x y => x * y) (x.map fun y => y * s).col (tau.map fun t => s + t).row
    let b ← A2.bin (fun x y => x * y) (a.map fun y => s - y) att
    let c ← A2.bin (fun x y => x * y) I.muPosA.col ex
    let d ← A2.bin (fun x y => x - y) b c
    let den ← A1.bin (fun x y => x * y) (I.muPosA.map fun m => m * s) (x.map fun y => y ^ 2)
    A2.bin (fun x y => x / y) d den.col
  else do
    let a ← A2.bin (fun x y => x - y) tau.row (x.map fun y => 1 / y).col
    let b ← A2.bin (fun x y => x * y) a att
    let c ← A2.bin (fun x y => x / y) ex x.col
    let d ← A2.bin (fun x y => x + y) b c
    let den ← A1.bin (fun x y => x * y) (I.muPosA.map fun m => m * s) x
    A2.bin (fun x y => x / y) d den.col

/-- Lines 600-638: `IMS_correction`. -/
noncomputable def imsArr (tau phi : A1 ℝ) (anti : Bool) : Py (A3 ℝ) := do
  let res ← I.residueArr
  let nu ← I.nuIMS phi
  let chi ← I.chiArr tau anti
  let w ← A1.bin (fun x y => x * y) ⟨I.NLegAll, fun k => 2 * (k : ℝ) + 1⟩ (res.map fun r => 2 * r - r ^ 2)
  let v := nu.map fun y => I.I0div4pi * (I.omegaAvg * I.fAvg) ^ 2 / (1 - I.omegaAvg * I.fAvg) * legSeries w.n w.get y
  A3.bin (fun x y => x * y) ⟨v.r, 1, v.c, fun i _ p => v.get i p⟩ chi.deep

/-- Lines 661-687: `NT_corrections`. -/
noncomputable def corrArr (ag : Bool) (tau phi : A1 ℝ) (anti : Bool) (l : A1 ℕ) : Py (A3 ℝ) := do
  let a ← I.tmsArr ag tau phi anti l
  let b ← I.imsArr tau phi anti
  A3.addLast ag a I.N b

end NTIn

/-- The arrays of `u(tau, phi, is_antiderivative_wrt_tau)` with `autograd_compatible = ag`: the intensity of `_assemble_intensity_and_fluxes.py` (170-262), squeezed and
rescaled, plus (lines 643-694 of `pydisort.py`) the squeezed corrections. `junk` is the content of an uninitialised array. -/
noncomputable def Solved.uProgram (R : Solved) (ag : Bool) (junk : Vec) (tau phi : A1 ℝ) (anti : Bool) : Py (ND ℝ) :=
  if R.onlyFlux = true then .error .typeError
  else do
    let D ← R.I.depths tau
    let um ← R.I.umArr R.S ag junk D anti
    let u ← R.I.sumModesArr um phi
    let x := u.toND.squeeze.map fun x => R.I.rescale * x
    match R.nt with
    | some n => do
      let c ← n.corrArr ag tau phi anti D.l
      ND.bin (fun x y => x + y) x (c.toND.squeeze.map fun y => R.I.rescale * y)
    | none => .ok x

end Pydisort

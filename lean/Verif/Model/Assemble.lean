import Verif.Model.GenSol
import Verif.Model.Coeffs

/-!
# Model of `_assemble_intensity_and_fluxes.py`

`autograd_compatible = False` throughout. The evaluation functions return the arrays *before* the final
`np.squeeze` (which only removes axes of size one).
-/

namespace Pydisort
open Finset

/-- Arguments of `_assemble_intensity_and_fluxes` (lines 8-32). `only_flux` only selects whether `u` is
returned (616-619). -/
structure AsmIn where
  omega : Vec
  tauArr : Vec
  tau0 : Vec
  mu : Vec
  M_inv : Vec
  W : Vec
  N : ℕ
  NLeg : ℕ
  NFourier : ℕ
  NLayers : ℕ
  wLeg : Mat
  bdrf : List BDRFMode
  mu0 : ℝ
  I0 : ℝ
  I0div4pi : ℝ
  rescale : ℝ
  phi0 : ℝ
  beam : Bool
  bpos : BCv
  bneg : BCv
  bposScalar : Bool
  bnegScalar : Bool
  bposVector : Bool
  bnegVector : Bool
  Nscoeffs : ℕ
  s : Mat
  iso : Bool
  scale : Vec
  useBanded : Bool

/-- The quantities computed on lines 109-163. -/
structure Sols where
  G : ℕ → ℕ → Mat
  K : ℕ → ℕ → Vec
  B : ℕ → ℕ → Vec
  Gim : ℕ → Vec
  GC : ℕ → ℕ → Mat

/-- Content of all `np.empty` buffers, and of the right-hand side after `solve_banded`. -/
structure Junk where
  gen : GenState
  coef : CoefState
  rhs : ℕ → Vec

/-- Lines 109-120: the arguments of `_solve_for_gen_and_part_sols`. -/
def AsmIn.genIn (I : AsmIn) : GenIn :=
  ⟨I.NFourier, I.omega, I.mu, I.M_inv, I.W, I.N, I.NLeg, I.NLayers, I.wLeg, I.mu0, I.I0div4pi, I.beam, I.iso⟩

/-- Lines 124, 132: `G_inv_collect_0 @ np.concatenate([M_inv, -M_inv])`. -/
noncomputable def AsmIn.gim (I : AsmIn) (Ginv0 : ℕ → Mat) : ℕ → Vec := fun l i =>
  ∑ q ∈ range (2 * I.N), Ginv0 l i q * (if q < I.N then I.M_inv q else -I.M_inv (q - I.N))

/-- Lines 138-159: the arguments of `_solve_for_coeffs`. -/
noncomputable def AsmIn.coefIn (I : AsmIn) (out : GenOut) : CoefIn :=
  { NFourier := I.NFourier, G := out.G, K := out.K, B := out.B, Gim := I.gim out.Ginv0, tau0 := I.tau0,
    mu := I.mu, muW := fun i => I.mu i * I.W i, N := I.N, NLayers := I.NLayers, bdrf := I.bdrf, mu0 := I.mu0,
    I0div4pi := I.I0div4pi, beam := I.beam, bpos := I.bpos, bneg := I.bneg, bposScalar := I.bposScalar,
    bnegScalar := I.bnegScalar, bposVector := I.bposVector, bnegVector := I.bnegVector,
    Nscoeffs := I.Nscoeffs, s := I.s, iso := I.iso, useBanded := I.useBanded }

/-- Lines 109-163. -/
noncomputable def solveAll (E : Ext) (J : Junk) (I : AsmIn) : Py Sols := do
  let out ← genSol E J.gen I.genIn
  let GC ← solveCoeffs (I.coefIn out) J.coef J.rhs
  return ⟨out.G, out.K, out.B, I.gim out.Ginv0, GC⟩

open Classical in
/-- `np.argmax` of a boolean array of length `n`: the first `True`, or `0`. -/
noncomputable def argmaxTrue (n : ℕ) (p : ℕ → Prop) : ℕ :=
  if h : ∃ k, k < n ∧ p k then Nat.find h else 0

namespace AsmIn
variable (I : AsmIn)

/-- Lines 185, 349, 458, 540: layer index of a depth. -/
noncomputable def layer (t : ℝ) : ℕ := argmaxTrue I.NLayers (fun k => t ≤ I.tauArr k)

open Classical in
/-- Lines 190-195 (and 354-369, 463-468, 545-550): delta-scaled depth. -/
noncomputable def scaledTau (t : ℝ) : ℝ :=
  if ∃ k < I.NLayers, I.scale k ≠ 1 then
    I.tau0 (I.layer t + 1) - (I.tauArr (I.layer t) - t) * I.scale (I.layer t)
  else t

open Classical in
/-- Lines 181-182 (and 345-346, 454-455, 536-537): the range check. -/
noncomputable def checkTau (tau : A1 ℝ) : Py Unit :=
  if (∃ k < tau.n, tau.get k < 0) ∨ (∃ k < tau.n, I.tauArr (I.NLayers - 1) < tau.get k) then
    .error (.valueError "tau input outside the tau range")
  else .ok ()

/-- Lines 197-203 (and 373-379, 485-491, 567-573): `exponent` of mode `m` at depth `t`. -/
noncomputable def exponent (S : Sols) (m : ℕ) (t : ℝ) (j : ℕ) : ℝ :=
  if j < I.N then S.K m (I.layer t) j * (I.scaledTau t - I.tau0 (I.layer t))
  else S.K m (I.layer t) j * (I.scaledTau t - I.tau0 (I.layer t + 1))

/-- Lines 222-233 / 398-408: homogeneous and beam part of mode `m`, stream `i`, depth `t`. -/
noncomputable def umPlain (S : Sols) (m i : ℕ) (t : ℝ) : ℝ :=
  (∑ j ∈ range (2 * I.N), S.GC m (I.layer t) i j * Real.exp (I.exponent S m t j))
    + if I.beam = true then S.B m (I.layer t) i * Real.exp (-I.scaledTau t / I.mu0) else 0

/-- Lines 207-220 / 383-396: the same for the antiderivative. -/
noncomputable def umAnti (S : Sols) (m i : ℕ) (t : ℝ) : ℝ :=
  (∑ j ∈ range (2 * I.N), S.GC m (I.layer t) i j
      * (Real.exp (I.exponent S m t j) / (I.scale (I.layer t) * S.K m (I.layer t) j)))
    + if I.beam = true then
        S.B m (I.layer t) i / (-I.scale (I.layer t) / I.mu0) * Real.exp (-I.scaledTau t / I.mu0) else 0

/-- Lines 237-247 (and 412-422, 470-483, 552-565): the isotropic-source contribution for rows
`row0, row0+1, …` (`rows` of them). `np.unique` with `return_inverse` gives `l_uniq[l_inv] = l`, so indexing
`X[l_uniq]` with `l_inv` is `X[l]`. -/
noncomputable def isoPart (S : Sols) (tau : A1 ℝ) (anti : Bool) (row0 rows : ℕ) : Py (A2 ℝ) :=
  if anti = true then
    mathscrVAnti (2 * I.N) I.Nscoeffs rows (tau.map I.scaledTau) ⟨I.NLayers, I.scale⟩ (tau.map I.layer) I.s
      (fun l q => S.G 0 l (row0 + q)) (S.K 0) S.Gim
  else
    .ok ⟨rows, tau.n, fun q t => mathscrV (2 * I.N) I.Nscoeffs (I.s (I.layer (tau.get t)))
      (fun q => S.G 0 (I.layer (tau.get t)) (row0 + q)) (S.K 0 (I.layer (tau.get t)))
      (S.Gim (I.layer (tau.get t))) (I.scaledTau (tau.get t)) q⟩

/-- Add the isotropic-source contribution, if any, to an array (out of place, with broadcasting). -/
noncomputable def addIso (S : Sols) (tau : A1 ℝ) (anti : Bool) (row0 rows : ℕ) (a : A2 ℝ) : Py (A2 ℝ) :=
  if I.iso = true then do
    let v ← I.isoPart S tau anti row0 rows
    A2.bin (fun x y => x + y) a v
  else .ok a

/-- Lines 381-408: note the branch `is_antiderivative_wrt_tau and there_is_beam_source` on line 382. -/
noncomputable def u0Raw (S : Sols) (tau : A1 ℝ) (anti : Bool) : A2 ℝ :=
  if anti = true ∧ I.beam = true then ⟨2 * I.N, tau.n, fun i t => I.umAnti S 0 i (tau.get t)⟩
  else ⟨2 * I.N, tau.n, fun i t => I.umPlain S 0 i (tau.get t)⟩

/-- Lines 334-433: `u0(tau, is_antiderivative_wrt_tau)`, axes `mu, tau`. -/
noncomputable def u0 (S : Sols) (tau : A1 ℝ) (anti : Bool) : Py (A2 ℝ) := do
  I.checkTau tau
  let a ← I.addIso S tau anti 0 (2 * I.N) (I.u0Raw S tau anti)
  return a.map (fun x => I.rescale * x)

open Classical in
/-- Lines 358-371: the extra output of `u0` with `_return_act_dscale_for_reclass = True`. -/
noncomputable def actReclass (tau : A1 ℝ) (anti : Bool) : A1 ℝ :=
  if ∃ k < I.NLayers, I.scale k ≠ 1 then
    if anti = true then
      tau.map fun t => I.I0 * Real.exp (-I.scaledTau t / I.mu0) / (-I.scale (I.layer t) / I.mu0)
        - I.I0 * Real.exp (-t / I.mu0) * -I.mu0
    else tau.map fun t => I.I0 * Real.exp (-I.scaledTau t / I.mu0) - I.I0 * Real.exp (-t / I.mu0)
  else ⟨1, fun _ => 0⟩

/-- Lines 519 and 601: `2 * pi * (mu_arr_pos * W) @ u`. -/
noncomputable def fluxQuad (a : A2 ℝ) : A1 ℝ :=
  ⟨a.c, fun t => ∑ i ∈ range I.N, (2 * Real.pi * (I.mu i * I.W i)) * a.get i t⟩

/-- Lines 446-524: `flux_up(tau, is_antiderivative_wrt_tau)`. -/
noncomputable def fluxUp (S : Sols) (tau : A1 ℝ) (anti : Bool) : Py (A1 ℝ) := do
  I.checkTau tau
  let a ← I.addIso S tau anti 0 I.N
    ⟨I.N, tau.n, fun i t => if anti = true then I.umAnti S 0 i (tau.get t) else I.umPlain S 0 i (tau.get t)⟩
  return (I.fluxQuad a).map (fun x => I.rescale * x)

/-- Line 580, beam part of the antiderivative in `flux_down`:
`(B_neg / (-scale_tau / mu0)[None, l])[:, l]`. The `(N, NLayers)` array is divided by a `(1, Ntau)` array
and the result is indexed with the layer indices. -/
noncomputable def fluxDownAntiBeam (S : Sols) (tau : A1 ℝ) : Py (A2 ℝ) := do
  let d ← bdim I.NLayers tau.n
  if ∃ t < tau.n, d ≤ I.layer (tau.get t) then .error .indexError
  else return ⟨I.N, tau.n, fun i t =>
    S.B 0 (bix I.NLayers (I.layer (tau.get t))) (I.N + i)
      / (-I.scale (I.layer (tau.get (bix tau.n (I.layer (tau.get t))))) / I.mu0)
      * Real.exp (-I.scaledTau (tau.get t) / I.mu0)⟩

/-- The array to which the isotropic part is added on lines 584-599. -/
noncomputable def fluxDownRaw (S : Sols) (tau : A1 ℝ) (anti : Bool) : Py (A2 ℝ) :=
  if anti = true then
    if I.beam = true then do
      let b ← I.fluxDownAntiBeam S tau
      return ⟨I.N, tau.n, fun i t =>
        (∑ j ∈ range (2 * I.N), S.GC 0 (I.layer (tau.get t)) (I.N + i) j
          * (Real.exp (I.exponent S 0 (tau.get t) j)
              / (I.scale (I.layer (tau.get t)) * S.K 0 (I.layer (tau.get t)) j))) + b.get i t⟩
    else .ok ⟨I.N, tau.n, fun i t => I.umAnti S 0 (I.N + i) (tau.get t)⟩
  else .ok ⟨I.N, tau.n, fun i t => I.umPlain S 0 (I.N + i) (tau.get t)⟩

/-- `direct_beam` with a beam (lines 581, 592). -/
noncomputable def direct (anti : Bool) (t : ℝ) : ℝ :=
  if anti = true then I.I0 * I.mu0 * Real.exp (-t / I.mu0) * -I.mu0 else I.I0 * I.mu0 * Real.exp (-t / I.mu0)

/-- `direct_beam_scaled` with a beam (lines 582, 593). -/
noncomputable def directScaled (anti : Bool) (t : ℝ) : ℝ :=
  if anti = true then I.I0 * I.mu0 * Real.exp (-I.scaledTau t / I.mu0) / (-I.scale (I.layer t) / I.mu0)
  else I.I0 * I.mu0 * Real.exp (-I.scaledTau t / I.mu0)

/-- Lines 527-613: `flux_down(tau, is_antiderivative_wrt_tau)`: the diffuse and the direct downward flux.
The direct flux is a rank-0 array when there is no beam (line 576), otherwise it has the length of `tau`;
a rank-0 array is represented as an array of length one together with the flag `false`. -/
noncomputable def fluxDown (S : Sols) (tau : A1 ℝ) (anti : Bool) : Py (A1 ℝ × A1 ℝ × Bool) := do
  I.checkTau tau
  let raw ← I.fluxDownRaw S tau anti
  let a ← I.addIso S tau anti I.N I.N raw
  let q := I.fluxQuad a
  if I.beam = true then do
    let d1 ← A1.bin (fun x y => x + y) q (tau.map (I.directScaled anti))
    let d2 ← A1.bin (fun x y => x - y) d1 (tau.map (I.direct anti))
    return (d2.map (fun x => I.rescale * x), (tau.map (I.direct anti)).map (fun x => I.rescale * x), true)
  else
    return (q.map (fun x => I.rescale * (x + 0 - 0)), ⟨1, fun _ => I.rescale * 0⟩, false)

/-- Lines 236-254: mode zero of `um` with the isotropic part. With one Fourier mode the addition is out of
place, otherwise it is in place and must not change the shape. -/
noncomputable def um0 (S : Sols) (tau : A1 ℝ) (anti : Bool) : Py (A2 ℝ) :=
  let a : A2 ℝ := ⟨2 * I.N, tau.n, fun i t =>
    if anti = true then I.umAnti S 0 i (tau.get t) else I.umPlain S 0 i (tau.get t)⟩
  if I.iso = true then do
    let r ← I.addIso S tau anti 0 (2 * I.N) a
    if I.NFourier = 1 ∨ r.c = tau.n then .ok r else .error .shapeError
  else .ok a

/-- Lines 170-260: `u(tau, phi, is_antiderivative_wrt_tau)` without `rescale_factor`, axes
`mu, tau, phi`. -/
noncomputable def uRaw (S : Sols) (tau phi : A1 ℝ) (anti : Bool) : Py (A3 ℝ) := do
  I.checkTau tau
  let a ← I.um0 S tau anti
  return ⟨2 * I.N, a.c, phi.n, fun i t p => ∑ m ∈ range I.NFourier,
    (if m = 0 then a.get i t
      else if anti = true then I.umAnti S m i (tau.get t) else I.umPlain S m i (tau.get t))
    * Real.cos ((m : ℝ) * (I.phi0 - phi.get p))⟩

/-- Lines 170-262: `u(tau, phi, is_antiderivative_wrt_tau)`. -/
noncomputable def u (S : Sols) (tau phi : A1 ℝ) (anti : Bool) : Py (A3 ℝ) := do
  let a ← I.uRaw S tau phi anti
  return ⟨a.d0, a.d1, a.d2, fun i t p => I.rescale * a.get i t p⟩

/-- The beam contribution of `ulast`. Antiderivative, lines 276-278: `B_collect.T[-1, :, :]` has shape `(NLayers, NFourier)` and entry
`[k, c] = B[c, k, NQuad-1]`; it is divided by a `(1, NLayers)` array and the quotient is indexed `[:, l]`, so that `l_t` indexes an axis which
is the *mode* axis of the numerator. Otherwise, lines 291-293: `B_collect.T[-1, :, l]` has shape `(Ntau, NLayers)` and entry
`[t, k] = B[l_t, k, NQuad-1]`; here too `l_t` indexes the mode axis. -/
noncomputable def ulastBeam (S : Sols) (tau : A1 ℝ) (anti : Bool) : Py (A2 ℝ) :=
  if anti = true then
    A2.bin (fun x y => x / y) ⟨I.NLayers, I.NFourier, fun k c => S.B c k (2 * I.N - 1)⟩
      (⟨I.NLayers, fun k => -I.scale k / I.mu0⟩ : A1 ℝ).row >>= fun q =>
    if ∃ t < tau.n, q.c ≤ I.layer (tau.get t) then .error .indexError
    else A2.bin (fun x y => x * y) ⟨q.r, tau.n, fun k t => q.get k (I.layer (tau.get t))⟩
      (tau.map fun t => Real.exp (-I.scaledTau t / I.mu0)).row
  else if ∃ t < tau.n, I.NFourier ≤ I.layer (tau.get t) then .error .indexError
  else A2.bin (fun x y => x * y) ⟨tau.n, I.NLayers, fun t k => S.B (I.layer (tau.get t)) k (2 * I.N - 1)⟩
    (tau.map fun t => Real.exp (-I.scaledTau t / I.mu0)).row

/-- Lines 266-301: `ulast` of `return_Fourier_error = True`. -/
noncomputable def ulast (S : Sols) (tau : A1 ℝ) (anti : Bool) : Py (A2 ℝ) :=
  let h : A2 ℝ := ⟨2 * I.N, tau.n, fun i t => ∑ j ∈ range (2 * I.N),
    S.GC (I.NFourier - 1) (I.layer (tau.get t)) i j * (if anti = true then
        Real.exp (I.exponent S (I.NFourier - 1) (tau.get t) j)
          / (I.scale (I.layer (tau.get t)) * S.K (I.NFourier - 1) (I.layer (tau.get t)) j)
      else Real.exp (I.exponent S (I.NFourier - 1) (tau.get t) j))⟩
  if I.beam = true then I.ulastBeam S tau anti >>= fun b => A2.bin (fun x y => x + y) h b
  else .ok h

end AsmIn

/-- `np.max` of a rank-3 array; raises on an empty array. -/
noncomputable def npMax3 (a : A3 ℝ) : Py ℝ :=
  if h : (range a.d0 ×ˢ range a.d1 ×ˢ range a.d2).Nonempty then
    .ok ((range a.d0 ×ˢ range a.d1 ×ˢ range a.d2).sup' h fun x => a.get x.1 x.2.1 x.2.2)
  else .error (.valueError "zero-size array to reduction operation maximum which has no identity")

namespace AsmIn
variable (I : AsmIn)

open Classical in
/-- Lines 265-316: `Fourier_error`. The in-place division (`out=`) requires the shape of `u`. -/
noncomputable def fourierError (S : Sols) (tau phi : A1 ℝ) (anti : Bool) : Py ℝ := do
  let a ← I.uRaw S tau phi anti
  let ul ← I.ulast S tau anti
  let r ← bdim ul.r a.d0
  let c ← bdim ul.c a.d1
  if r = a.d0 ∧ c = a.d1 then
    npMax3 ⟨a.d0, a.d1, a.d2, fun i t p =>
      if |a.get i t p| > 1 / 10 ^ 8 then
        |ul.get (bix ul.r i) (bix ul.c t) * Real.cos (((I.NFourier - 1 : ℕ) : ℝ) * (I.phi0 - phi.get p))|
          / |a.get i t p|
      else 0⟩
  else .error .shapeError

end AsmIn

end Pydisort

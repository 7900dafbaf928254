import Verif.Model.Pydisort
import Verif.Subroutines.MathscrArr

/-!
# Model: the returned functions on integer depths

`np.atleast_1d(tau)` (lines 179, 344, 453, 535 of `_assemble_intensity_and_fluxes.py`) keeps the dtype of the depths. Without delta-M scaling `scaled_tau` is `tau` itself, and `_mathscr_v` forms powers
of it: for integers these are powers of 64-bit integers, which wrap around. Everything else the functions do with `tau` gives floats. Simplification: the depths themselves are
64-bit integers (larger Python integers become arrays of other dtypes).
-/

namespace Pydisort
open Finset

/-- The depths as floats. -/
def A1.toReal (tau : A1 ℤ) : A1 ℝ := ⟨tau.n, fun k => (tau.get k : ℝ)⟩

/-- `t ** p` for 64-bit integers: the product of wrapped products is the wrapped product. -/
def pow64 (t : ℤ) (p : ℕ) : ℤ := wrap64 (t ^ p)

/-- Lines 783-862 of `subroutines.py` as in `mathscrV`, for an integer depth. -/
noncomputable def mathscrVInt (n Nc : ℕ) (s : Vec) (G : Mat) (K g : Vec) (tau : ℤ) (q : ℕ) : ℝ :=
  if Nc = 1 then
    (∑ k ∈ range n, G q k * (s 0 * (1 / K k) * g k)) * 1
  else if Nc = 2 then
    (∑ k ∈ range n, G q k * (s 1 * (1 / K k) * g k)) * tau
      + (∑ k ∈ range n, G q k * ((s 0 * (1 / K k) + s 1 * ((1 / K k) * (1 / K k))) * g k)) * 1
  else
    ∑ i ∈ range Nc, (∑ k ∈ range n, G q k * (bSigma Nc s K k i * g k)) * (pow64 tau (Nc - 1 - i) : ℝ)

/-- Lines 783-862 as in `mathscrVAnti`, for integer depths: `tau * tau` (line 813) and `tau[:, None] ** p` (line 858) are integers. -/
noncomputable def mathscrVAntiInt (n Nc rows : ℕ) (tau : A1 ℤ) (scale_tau : A1 ℝ) (l : A1 ℕ) (s : Mat) (G : ℕ → Mat)
    (K g : ℕ → Vec) : Py (A2 ℝ) :=
  if Nc = 1 then do
    let p0 ← A1.bin (fun a b => a / b) tau.toReal scale_tau
    A2.bin (fun a b => a * b)
      ⟨rows, l.n, fun q t => ∑ k ∈ range n, G (l.get t) q k * (s (l.get t) 0 * (1 / K (l.get t) k) * g (l.get t) k)⟩
      p0.row
  else if Nc = 2 then do
    A2.bin (fun a b => a / b)
      ⟨rows, l.n, fun q t =>
        (∑ k ∈ range n, G (l.get t) q k * (s (l.get t) 1 * (1 / K (l.get t) k) * g (l.get t) k))
            * ((wrap64 (tau.get t * tau.get t) : ℝ) / 2)
          + (∑ k ∈ range n, G (l.get t) q k * ((s (l.get t) 0 * (1 / K (l.get t) k)
              + s (l.get t) 1 * ((1 / K (l.get t) k) * (1 / K (l.get t) k))) * g (l.get t) k)) * (tau.get t : ℝ)⟩
      scale_tau.row
  else do
    let den ← A1.bin (fun a b => a * b) ⟨Nc, fun i => (((Nc - 1 - i) + 1 : ℕ) : ℝ)⟩ scale_tau
    let _ ← bdim Nc den.n
    return ⟨rows, l.n, fun q t => ∑ i ∈ range Nc,
      (∑ k ∈ range n, G (l.get t) q k * (bSigma Nc (s (l.get t)) (K (l.get t)) k i * g (l.get t) k))
        * ((pow64 (tau.get t) ((Nc - 1 - i) + 1) : ℝ) / den.get (bix den.n i))⟩

namespace AsmIn
variable (I : AsmIn)

open Classical in
/-- Lines 190-195 and 237-247 (and their repetitions) of `_assemble_intensity_and_fluxes.py`: the isotropic part. With delta-M scaling `scaled_tau` is a float. -/
noncomputable def isoPartInt (S : Sols) (tau : A1 ℤ) (anti : Bool) (row0 rows : ℕ) : Py (A2 ℝ) :=
  if ∃ k < I.NLayers, I.scale k ≠ 1 then I.isoPart S tau.toReal anti row0 rows
  else if anti = true then
    mathscrVAntiInt (2 * I.N) I.Nscoeffs rows tau ⟨I.NLayers, I.scale⟩ (tau.toReal.map I.layer) I.s
      (fun l q => S.G 0 l (row0 + q)) (S.K 0) S.Gim
  else
    .ok ⟨rows, tau.n, fun q t => mathscrVInt (2 * I.N) I.Nscoeffs (I.s (I.layer (tau.get t)))
      (fun q => S.G 0 (I.layer (tau.get t)) (row0 + q)) (S.K 0 (I.layer (tau.get t)))
      (S.Gim (I.layer (tau.get t))) (tau.get t) q⟩

/-- As `addIso`. -/
noncomputable def addIsoInt (S : Sols) (tau : A1 ℤ) (anti : Bool) (row0 rows : ℕ) (a : A2 ℝ) : Py (A2 ℝ) :=
  if I.iso = true then do
    let v ← I.isoPartInt S tau anti row0 rows
    A2.bin (fun x y => x + y) a v
  else .ok a

/-- Lines 334-433: `u0(tau, is_antiderivative_wrt_tau)`. -/
noncomputable def u0Int (S : Sols) (tau : A1 ℤ) (anti : Bool) : Py (A2 ℝ) := do
  I.checkTau tau.toReal
  let a ← I.addIsoInt S tau anti 0 (2 * I.N) (I.u0Raw S tau.toReal anti)
  return a.map (fun x => I.rescale * x)

/-- Lines 446-524: `flux_up(tau, is_antiderivative_wrt_tau)`. -/
noncomputable def fluxUpInt (S : Sols) (tau : A1 ℤ) (anti : Bool) : Py (A1 ℝ) := do
  I.checkTau tau.toReal
  let a ← I.addIsoInt S tau anti 0 I.N
    ⟨I.N, tau.n, fun i t => if anti = true then I.umAnti S 0 i (tau.get t) else I.umPlain S 0 i (tau.get t)⟩
  return (I.fluxQuad a).map (fun x => I.rescale * x)

/-- Lines 527-613: `flux_down(tau, is_antiderivative_wrt_tau)`. -/
noncomputable def fluxDownInt (S : Sols) (tau : A1 ℤ) (anti : Bool) : Py (A1 ℝ × A1 ℝ × Bool) := do
  I.checkTau tau.toReal
  let raw ← I.fluxDownRaw S tau.toReal anti
  let a ← I.addIsoInt S tau anti I.N I.N raw
  let q := I.fluxQuad a
  if I.beam = true then do
    let d1 ← A1.bin (fun x y => x + y) q (tau.toReal.map (I.directScaled anti))
    let d2 ← A1.bin (fun x y => x - y) d1 (tau.toReal.map (I.direct anti))
    return (d2.map (fun x => I.rescale * x), (tau.toReal.map (I.direct anti)).map (fun x => I.rescale * x), true)
  else
    return (q.map (fun x => I.rescale * (x + 0 - 0)), ⟨1, fun _ => I.rescale * 0⟩, false)

/-- Lines 236-254, as `um0`. -/
noncomputable def um0Int (S : Sols) (tau : A1 ℤ) (anti : Bool) : Py (A2 ℝ) :=
  let a : A2 ℝ := ⟨2 * I.N, tau.n, fun i t =>
    if anti = true then I.umAnti S 0 i (tau.get t) else I.umPlain S 0 i (tau.get t)⟩
  if I.iso = true then do
    let r ← I.addIsoInt S tau anti 0 (2 * I.N) a
    if I.NFourier = 1 ∨ r.c = tau.n then .ok r else .error .shapeError
  else .ok a

/-- Lines 170-262: `u(tau, phi, is_antiderivative_wrt_tau)`. -/
noncomputable def uInt (S : Sols) (tau : A1 ℤ) (phi : A1 ℝ) (anti : Bool) : Py (A3 ℝ) := do
  I.checkTau tau.toReal
  let a ← I.um0Int S tau anti
  return ⟨2 * I.N, a.c, phi.n, fun i t p => I.rescale * ∑ m ∈ range I.NFourier,
    (if m = 0 then a.get i t
      else if anti = true then I.umAnti S m i (tau.get t) else I.umPlain S m i (tau.get t))
    * Real.cos ((m : ℝ) * (I.phi0 - phi.get p))⟩

end AsmIn

namespace Solved
variable (R : Solved)

/-- The returned function `u0`. -/
noncomputable def u0Int (tau : A1 ℤ) (anti : Bool) : Py (A2 ℝ) := R.I.u0Int R.S tau anti
/-- The returned function `flux_up`. -/
noncomputable def fluxUpInt (tau : A1 ℤ) (anti : Bool) : Py (A1 ℝ) := R.I.fluxUpInt R.S tau anti
/-- The returned function `flux_down`. -/
noncomputable def fluxDownInt (tau : A1 ℤ) (anti : Bool) : Py (A1 ℝ × A1 ℝ × Bool) := R.I.fluxDownInt R.S tau anti
/-- The returned function `u`, with the corrections of lines 643-694 of `pydisort.py` (in which integer depths only meet floats) if there are any. -/
noncomputable def uInt (tau : A1 ℤ) (phi : A1 ℝ) (anti : Bool) : Py (A3 ℝ) :=
  if R.onlyFlux = true then .error .typeError
  else match R.nt with
    | some n => do
      let x ← R.I.uInt R.S tau phi anti
      let c ← n.corr tau.toReal phi anti (fun t => R.I.layer (tau.toReal.get t))
      addSqueezed R.I.rescale x c
    | none => R.I.uInt R.S tau phi anti

end Solved

end Pydisort

import Verif.Model.NT

/-!
# Model of `pydisort` (`pydisort.py`)

`autograd_compatible = False` (see `Model/Returned.lean` for `True`). Warnings are in `Model/Warnings.lean`.
-/

namespace Pydisort
open Finset

/-- Arguments of `pydisort` (lines 12-28) after the conversions on lines 184-188 (`np.atleast_1d`,
`np.atleast_2d`). Simplification: integers are given for the integer parameters, and `b_pos`, `b_neg`
have rank at most two. -/
structure Args where
  tauArr : A1 ℝ
  omega : A1 ℝ
  NQuad : ℤ
  leg : A2 ℝ
  mu0 : ℝ
  I0 : ℝ
  phi0 : ℝ
  NLeg : Option ℤ := none
  NFourier : Option ℤ := none
  bpos : BCv := .scalar 0
  bneg : BCv := .scalar 0
  onlyFlux : Bool := false
  fArr : A1 ℝ := ⟨1, fun _ => 0⟩
  NTcor : Bool := false
  bdrf : List BDRFMode := []
  s : A2 ℝ := ⟨1, 0, fun _ _ => 0⟩
  useBanded : ℤ := 10

/-- `np.all(b == 0)`. -/
def BCv.AllZero : BCv → Prop
  | .scalar x => x = 0
  | .vec v => ∀ i < v.n, v.get i = 0
  | .mat v => ∀ i < v.r, ∀ j < v.c, v.get i j = 0

/-- `len(np.atleast_1d(b))`, which is `len(b)` for an array. -/
def BCv.len : BCv → ℕ
  | .scalar _ => 1
  | .vec v => v.n
  | .mat v => v.r

/-- `np.shape(b) == (r, c)`. -/
def BCv.HasShape : BCv → ℤ → ℤ → Prop
  | .mat v, r, c => (v.r : ℤ) = r ∧ (v.c : ℤ) = c
  | _, _, _ => False

/-- `b / c`. -/
noncomputable def BCv.div (b : BCv) (c : ℝ) : BCv :=
  match b with
  | .scalar x => .scalar (x / c)
  | .vec v => .vec (v.map fun x => x / c)
  | .mat v => .mat (v.map fun x => x / c)

/-- `np.max` of a rank-1 array; raises on an empty array. -/
noncomputable def npMax (v : A1 ℝ) : Py ℝ :=
  if h : (range v.n).Nonempty then .ok ((range v.n).sup' h v.get)
  else .error (.valueError "zero-size array to reduction operation maximum which has no identity")

/-- `np.max(b)`. -/
noncomputable def BCv.max (b : BCv) : Py ℝ :=
  match b with
  | .scalar x => .ok x
  | .vec v => npMax v
  | .mat v => npMax ⟨v.r * v.c, fun k => v.get (k / v.c) (k % v.c)⟩

namespace Args
variable (a : Args)

/-- Lines 193-194. -/
def nLeg : ℤ := a.NLeg.getD a.NQuad
/-- Lines 195-198. -/
def nFourier : ℤ := if a.onlyFlux = true then 1 else a.NFourier.getD a.NQuad
open Classical in
/-- Lines 199-200. -/
noncomputable def bpos' : BCv := if a.bpos.AllZero then .scalar 0 else a.bpos
open Classical in
/-- Lines 201-202. -/
noncomputable def bneg' : BCv := if a.bneg.AllZero then .scalar 0 else a.bneg
open Classical in
/-- Lines 203-206. -/
noncomputable def nsc : ℕ := if ∀ i < a.s.r, ∀ j < a.s.c, a.s.get i j = 0 then 0 else a.s.c
/-- Line 207. -/
def NLayers : ℕ := a.tauArr.n
/-- Line 212 (for a non-empty `tau_arr`). -/
def thick (k : ℕ) : ℝ := if k = 0 then a.tauArr.get 0 else a.tauArr.get (k - 1 + 1) - a.tauArr.get (k - 1)
/-- Line 213. -/
def NLegAll : ℕ := a.leg.c
/-- Line 214. -/
def halfN : ℤ := a.NQuad / 2
/-- Line 215. -/
def Beam : Prop := a.I0 > 0
/-- Line 216. -/
def Iso : Prop := a.nsc > 0

open Classical in
/-- Lines 246-248: the content of `Leg_coeffs_all` after the correction of its first column. -/
noncomputable def legFix : Mat := fun l k =>
  if ¬ (∀ l < a.NLayers, a.omega.get l * a.leg.get l 0 = a.omega.get l) ∧ k = 0 then 1 else a.leg.get l k

/-- The checks on lines 223-244, in order, with the message of each. -/
def checks1 : List (Prop × String) :=
  [ (∀ k < a.tauArr.n, 0 < a.tauArr.get k, "tau values cannot be non-positive."),
    (∀ k < a.NLayers, 0 < a.thick k, "Layer thicknesses cannot be non-positive."),
    ((∀ k < a.omega.n, 0 ≤ a.omega.get k) ∧ (∀ k < a.omega.n, a.omega.get k < 1),
      "Single-scattering albedo must be between 0 and 1, excluding 1."),
    (0 < a.nLeg, "The number of phase function Legendre coefficients must be positive."),
    (a.nLeg ≤ a.NLegAll, "`NLeg` cannot be larger than the number of phase function Legendre coefficients provided."),
    (a.leg.r = a.NLayers, "The zeroth dimension of the shape of `Leg_coeffs_all` does not match the number of layers which is deduced from the length of `tau_arr`."),
    (a.omega.n = a.NLayers, "The zeroth dimension of the shape of `omega_arr` does not match the number of layers which is deduced from the length of `tau_arr`."),
    (¬ ((∃ k < a.fArr.n, a.fArr.get k ≠ 0) ∧ ¬ a.fArr.n = a.NLayers),
      "The length of `f_arr` does not match the number of layers which is deduced from the length of `tau_arr`."),
    (¬ (a.Iso ∧ ¬ a.s.r = a.NLayers), "The zeroth dimension of the shape of `s_poly_coeffs` does not match the number of layers which is deduced from the length of `tau_arr`.") ]

/-- The checks on lines 249-291, in order. The shape checks 274-285 are `if / elif / elif` chains whose
last branch raises. -/
def checks2 : List (Prop × String) :=
  [ ((∀ l < a.leg.r, ∀ k < a.leg.c, 1 ≤ k → -1 < a.legFix l k) ∧
      (∀ l < a.leg.r, ∀ k < a.leg.c, 1 ≤ k → a.legFix l k < 1),
      "The phase function Legendre coefficients must all be between -1 and 1 exclusive (only the zeroth coefficient can equal 1)."),
    (a.NQuad ≥ 2, "There must be at least two streams."),
    (a.NQuad % 2 = 0, "The number of streams must be even."),
    (a.nFourier > 0, "The number of Fourier modes to use in the solution must be positive."),
    (a.nFourier ≤ a.nLeg, "The number of Fourier modes to use in the solution must be less than or equal to the number of phase function Legendre coefficients used."),
    (a.nLeg ≤ a.NQuad, "There should be more streams than the number of phase function Legendre coefficients used."),
    (¬ a.I0 < 0, "The intensity of the incident beam cannot be negative."),
    (a.Beam → 0 < a.mu0 ∧ a.mu0 ≤ 1, "The cosine of the polar angle of the incident beam must be between 0 and 1, excluding 0."),
    (a.Beam → 0 ≤ a.phi0 ∧ a.phi0 < 2 * Real.pi, "Provide the principal azimuthal angle for the incident beam (must be between 0 and 2pi, excluding 2pi)."),
    (¬ (¬ a.bpos'.len = 1 ∧ ¬ (a.bpos'.len : ℤ) = a.halfN ∧ ¬ a.bpos'.HasShape a.halfN a.nFourier),
      "The shape of the bottom boundary condition is incorrect."),
    (¬ (¬ a.bneg'.len = 1 ∧ ¬ (a.bneg'.len : ℤ) = a.halfN ∧ ¬ a.bneg'.HasShape a.halfN a.nFourier),
      "The shape of the top boundary condition is incorrect."),
    ((∀ k < a.fArr.n, 0 ≤ a.fArr.get k) ∧ (∀ k < a.fArr.n, a.fArr.get k ≤ 1),
      "The fractional scattering must be between 0 and 1."),
    (a.useBanded ≥ 3, "The minimum threshold `use_banded_solver_NLayers` is 3, else the matrix will not be banded.") ]

open Classical in
/-- A sequence of statements `if not cond: raise ValueError(msg)`. -/
noncomputable def _root_.Pydisort.runChecks : List (Prop × String) → Py Unit
  | [] => .ok ()
  | (p, msg) :: cs => if p then runChecks cs else .error (.valueError msg)

/-- Lines 207-291: `tau_arr[0]` (212) raises `IndexError` on an empty array, then the checks. -/
noncomputable def validate : Py Unit :=
  if a.tauArr.n = 0 then .error .indexError
  else do
    runChecks a.checks1
    runChecks a.checks2

open Classical in
/-- The content of the caller's `Leg_coeffs_all` array (if the caller passed an `ndarray`; lists are
copied by `np.atleast_2d`) after the call: line 248 writes into it. -/
noncomputable def legAfter : A2 ℝ :=
  if a.tauArr.n ≠ 0 ∧ ∀ c ∈ a.checks1, c.1 then ⟨a.leg.r, a.leg.c, a.legFix⟩ else a.leg

/-- The number `N` of streams per hemisphere as a natural number (valid after the checks). -/
def N : ℕ := a.halfN.toNat

open Classical in
/-- Lines 304-311: quadrature, and the exclusion of quadrature angles near `mu0`. -/
noncomputable def quad (E : Ext) : Py (A1 ℝ × A1 ℝ) := do
  let q ← gaussLegendreQuad E a.N 0 1
  if a.NTcor = true ∧ ∃ k < a.N, |q.1.get k - a.mu0| < 1 / 10 ^ 8 then
    .error (.valueError "Some quadrature angles come too close to `mu0`. Perturb `NQuad` or `mu0` to rectify this error.")
  else return q

end Args

/-- The delta-M scaled optical properties. -/
structure Optics where
  scale : Vec
  /-- `scaled_tau_arr_with_0` -/
  tau0 : Vec
  /-- `scaled_thickness_arr` (only defined when some `f > 0`) -/
  thick : Vec
  /-- `scaled_omega_arr` -/
  omega : Vec
  /-- `weighted_scaled_Leg_coeffs` -/
  wLeg : Mat
  /-- `scaled_s_poly_coeffs` -/
  s : A2 ℝ

namespace Args
variable (a : Args)

/-- Line 318. -/
def scale (k : ℕ) : ℝ := 1 - a.omega.get k * a.fArr.get k
/-- Lines 319-320. -/
noncomputable def tau0 (k : ℕ) : ℝ := if k = 0 then 0 else cumsum (fun j => a.scale j * a.thick j) (k - 1)
/-- Line 325. -/
noncomputable def translation (k : ℕ) : ℝ :=
  a.tau0 k - a.scale k * (if k = 0 then 0 else a.tauArr.get (k - 1))

open Classical in
/-- Lines 316-338: delta-M scaling. `1 - omega f` and `1 - f` are divided by; the branch is entered with
`f = 1` too. Note that the affine transformation and the broadcasts also take place for an absent source. -/
noncomputable def optics : Py Optics :=
  if ∃ k < a.fArr.n, 0 < a.fArr.get k then do
    let s1 ← affineTransform a.s ⟨a.NLayers, a.scale⟩ ⟨a.NLayers, a.translation⟩
    let s2 ← A2.bin (fun x y => x / y) s1 (A1.col ⟨a.NLayers, a.scale⟩)
    let s3 ← A2.bin (fun x y => x * y) s2 (A1.col ⟨a.NLayers, fun k => 1 - a.omega.get k⟩)
    return ⟨a.scale, a.tau0, fun k => a.scale k * a.thick k,
      fun k => (1 - a.fArr.get k) / a.scale k * a.omega.get k,
      fun l k => (a.legFix l k - a.fArr.get l) / (1 - a.fArr.get l) * (2 * (k : ℝ) + 1), s3⟩
  else do
    let s3 ← A2.bin (fun x y => x * y) a.s (A1.col ⟨a.NLayers, fun k => 1 - a.omega.get k⟩)
    return ⟨fun _ => 1, fun k => if k = 0 then 0 else a.tauArr.get (k - 1), a.thick, a.omega.get,
      fun l k => a.legFix l k * (2 * (k : ℝ) + 1), s3⟩

/-- Lines 353-358: the arguments of `np.max` when there is an isotropic source. -/
noncomputable def isoMax (O : Optics) (mp mn : ℝ) : ℝ :=
  Max.max (Max.max (Max.max (Max.max a.I0 mp) mn) (O.s.get 0 0))
    (∑ k ∈ range a.nsc, O.s.get (O.s.r - 1) k * O.tau0 a.NLayers ^ k)

open Classical in
/-- Lines 350-369: `rescale_factor`. -/
noncomputable def rescaleFactor (O : Optics) : Py ℝ := do
  let mp ← a.bpos'.max
  let mn ← a.bneg'.max
  return if a.Iso then a.isoMax O mp mn else Max.max (Max.max a.I0 mp) mn

open Classical in
/-- The number by which the sources are divided on lines 361-364 and 367-371: with an isotropic source
the division takes place unconditionally. -/
noncomputable def rescaleDiv (r : ℝ) : ℝ := if a.Iso ∨ r ≠ 0 then r else 1

open Classical in
/-- The arguments passed to `_assemble_intensity_and_fluxes` on lines 381-405 and 700-726. -/
noncomputable def asmIn (mu W : Vec) (O : Optics) (r : ℝ) : AsmIn :=
  let d := a.rescaleDiv r
  { omega := O.omega, tauArr := a.tauArr.get, tau0 := O.tau0, mu := mu, M_inv := fun i => 1 / mu i, W := W,
    N := a.N, NLeg := a.nLeg.toNat, NFourier := a.nFourier.toNat, NLayers := a.NLayers, wLeg := O.wLeg,
    bdrf := a.bdrf, mu0 := a.mu0, I0 := a.I0 / d, I0div4pi := a.I0 / d / (4 * Real.pi), rescale := r,
    phi0 := a.phi0, beam := decide a.Beam, bpos := a.bpos'.div d, bneg := a.bneg'.div d,
    bposScalar := decide (a.bpos'.len = 1), bnegScalar := decide (a.bneg'.len = 1),
    bposVector := decide (¬ a.bpos'.len = 1 ∧ (a.bpos'.len : ℤ) = a.halfN),
    bnegVector := decide (¬ a.bneg'.len = 1 ∧ (a.bneg'.len : ℤ) = a.halfN),
    Nscoeffs := a.nsc, s := fun l k => O.s.get l k / (if a.Iso then r else 1), iso := decide a.Iso,
    scale := O.scale, useBanded := decide ((a.NLayers : ℤ) ≥ a.useBanded) }

/-- Line 375: are the corrections performed? -/
def NTGate : Prop :=
  a.NTcor = true ∧ a.onlyFlux = false ∧ a.Beam ∧ (∃ k < a.fArr.n, 0 < a.fArr.get k)
    ∧ a.nLeg < a.NLegAll ∧ ∃ k < a.omega.n, 0 < a.omega.get k

/-- The variables used by the corrections (`mu_arr`: line 304). -/
noncomputable def ntIn (mu : Vec) (O : Optics) (r : ℝ) : NTIn :=
  { N := a.N, NLayers := a.NLayers, NLeg := a.nLeg.toNat, NLegAll := a.NLegAll, tauArr := a.tauArr.get,
    tau0 := O.tau0, thick := O.thick, scale := O.scale, omega := a.omega.get, omegaS := O.omega,
    f := a.fArr.get, legAll := a.legFix, wLegAll := fun l k => (2 * (k : ℝ) + 1) * a.legFix l k,
    wLeg := O.wLeg, mu := mu, muArr := fun i => if i < a.N then mu i else -mu (i - a.N), M_inv := fun i => 1 / mu i, mu0 := a.mu0, phi0 := a.phi0,
    I0div4pi := a.I0 / a.rescaleDiv r / (4 * Real.pi) }

end Args

/-- What a call to `pydisort` returns: the data captured by the returned functions. -/
structure Solved where
  I : AsmIn
  S : Sols
  nt : Option NTIn
  onlyFlux : Bool

/-- Everything before the call of `_assemble_intensity_and_fluxes`. -/
noncomputable def prepare (E : Ext) (a : Args) : Py (AsmIn × NTIn) := do
  a.validate
  let q ← a.quad E
  let O ← a.optics
  let r ← a.rescaleFactor O
  return (a.asmIn q.1.get q.2.get O r, a.ntIn q.1.get O r)

open Classical in
/-- `pydisort` (lines 12-726). -/
noncomputable def pydisort (E : Ext) (J : Junk) (a : Args) : Py Solved := do
  let p ← prepare E a
  let S ← solveAll E J p.1
  return ⟨p.1, S, if a.NTGate then some p.2 else none, a.onlyFlux⟩

/-- Lines 689-694: `u + rescale_factor * np.squeeze(NT_corrections)`, where `u` has been squeezed already, in terms of the arrays before
the squeezes. If the shapes agree, the sum is elementwise. The other shapes that can occur are `(NQuad, NLayers, Nphi)` for `u` and
`(NQuad, 1, Nphi)` for the corrections (one depth, several layers, line 247 of `_assemble_intensity_and_fluxes.py`); the axes are
then aligned from the right, so that the axis of length `NLayers` meets the one of length `NQuad`. That this is what the squeezes and NumPy's broadcasting
do is `C85_squeeze`. -/
noncomputable def addSqueezed (k : ℝ) (x c : A3 ℝ) : Py (A3 ℝ) :=
  if x.d0 = c.d0 ∧ x.d1 = c.d1 ∧ x.d2 = c.d2 then
    .ok ⟨x.d0, x.d1, x.d2, fun i t p => x.get i t p + k * c.get i t p⟩
  else if x.d0 = c.d0 ∧ x.d2 = c.d2 ∧ c.d1 = 1 ∧ x.d1 = c.d0 then
    .ok ⟨x.d0, x.d1, x.d2, fun i t p => x.get i t p + k * c.get t 0 p⟩
  else .error .shapeError

namespace Solved
variable (R : Solved)

/-- The returned array `mu_arr`. -/
def muArr : A1 ℝ := ⟨2 * R.I.N, fun i => if i < R.I.N then R.I.mu i else -R.I.mu (i - R.I.N)⟩
/-- The returned function `u0`. -/
noncomputable def u0 (tau : A1 ℝ) (anti : Bool) : Py (A2 ℝ) := R.I.u0 R.S tau anti
/-- The returned function `flux_up`. -/
noncomputable def fluxUp (tau : A1 ℝ) (anti : Bool) : Py (A1 ℝ) := R.I.fluxUp R.S tau anti
/-- The returned function `flux_down`. -/
noncomputable def fluxDown (tau : A1 ℝ) (anti : Bool) : Py (A1 ℝ × A1 ℝ × Bool) := R.I.fluxDown R.S tau anti

/-- The intensity function before any correction: the `u` that `_assemble_intensity_and_fluxes` returns on
lines 381-405 / 700-726. -/
noncomputable def uUncorrected (tau phi : A1 ℝ) (anti : Bool) : Py (A3 ℝ) := R.I.u R.S tau phi anti

/-- Lines 643-694: `u_corrected`. -/
noncomputable def uCorrected (n : NTIn) (tau phi : A1 ℝ) (anti : Bool) : Py (A3 ℝ) := do
  let x ← R.uUncorrected tau phi anti
  let c ← n.corr tau phi anti (fun t => R.I.layer (tau.get t))
  addSqueezed R.I.rescale x c

/-- The returned function `u` (absent, hence a `TypeError` when used, with `only_flux = True`). -/
noncomputable def u (tau phi : A1 ℝ) (anti : Bool) : Py (A3 ℝ) :=
  if R.onlyFlux = true then .error .typeError
  else match R.nt with
    | some n => R.uCorrected n tau phi anti
    | none => R.uUncorrected tau phi anti

/-- The second entry of `u(tau, phi, is_antiderivative_wrt_tau, return_Fourier_error=True)`: lines 265-316 of `_assemble_intensity_and_fluxes.py`; with NT
corrections lines 689-692 of `pydisort.py` pass on the estimate for the uncorrected intensity. -/
noncomputable def fourierError (tau phi : A1 ℝ) (anti : Bool) : Py ℝ := do
  let _ ← R.u tau phi anti
  R.I.fourierError R.S tau phi anti

end Solved
end Pydisort

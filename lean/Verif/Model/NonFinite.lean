import Verif.Model.Pydisort

/-!
# Model: NaN and infinities

The lines of the code that look at the values of the arguments, and the lines that form the returned numbers, with IEEE values that may be NaN or infinite. Arithmetic
on finite numbers stays exact: there is no rounding and no overflow, and zero has no sign. On finite arguments this is the exact model (`C124_finite`, `C125_finite`).
-/

namespace Pydisort
open Finset

/-- A floating-point value. -/
inductive Fl
  | nan
  | ninf
  | fin (x : ℝ)
  | pinf

namespace Fl

/-- `x < y`: false when one of them is NaN. -/
def lt : Fl → Fl → Prop
  | fin x, fin y => x < y
  | ninf, fin _ => True
  | ninf, pinf => True
  | fin _, pinf => True
  | _, _ => False

/-- `x == y`: false when one of them is NaN. -/
def eqv : Fl → Fl → Prop
  | fin x, fin y => x = y
  | ninf, ninf => True
  | pinf, pinf => True
  | _, _ => False

/-- `x <= y`. -/
def le (x y : Fl) : Prop := lt x y ∨ eqv x y

/-- `-x`. -/
def neg : Fl → Fl
  | nan => nan
  | ninf => pinf
  | fin x => fin (-x)
  | pinf => ninf

/-- `x + y`. -/
def add : Fl → Fl → Fl
  | fin x, fin y => fin (x + y)
  | nan, _ => nan
  | _, nan => nan
  | ninf, pinf => nan
  | pinf, ninf => nan
  | ninf, _ => ninf
  | _, ninf => ninf
  | pinf, _ => pinf
  | _, pinf => pinf

/-- `x - y`. -/
def sub (x y : Fl) : Fl := add x (neg y)

open Classical in
/-- Infinity times `x`. -/
noncomputable def infTimes (x : ℝ) : Fl := if 0 < x then pinf else if x < 0 then ninf else nan

/-- `x * y`. -/
noncomputable def mul : Fl → Fl → Fl
  | fin x, fin y => fin (x * y)
  | nan, _ => nan
  | _, nan => nan
  | pinf, pinf => pinf
  | ninf, ninf => pinf
  | pinf, ninf => ninf
  | ninf, pinf => ninf
  | pinf, fin y => infTimes y
  | fin x, pinf => infTimes x
  | ninf, fin y => infTimes (-y)
  | fin x, ninf => infTimes (-x)

open Classical in
/-- `x / y`; a zero divisor counts as positive. -/
noncomputable def div : Fl → Fl → Fl
  | fin x, fin y => if y = 0 then infTimes x else fin (x / y)
  | nan, _ => nan
  | _, nan => nan
  | fin _, _ => fin 0
  | pinf, fin y => if y < 0 then ninf else pinf
  | ninf, fin y => if y < 0 then pinf else ninf
  | _, _ => nan

/-- `np.exp(x)`. -/
noncomputable def exp : Fl → Fl
  | nan => nan
  | ninf => fin 0
  | fin x => fin (Real.exp x)
  | pinf => pinf

/-- `np.maximum(x, y)`, the step of `np.max`: NaN if one of them is NaN. -/
noncomputable def max : Fl → Fl → Fl
  | fin x, fin y => fin (Max.max x y)
  | nan, _ => nan
  | _, nan => nan
  | pinf, _ => pinf
  | _, pinf => pinf
  | ninf, y => y
  | x, ninf => x

/-- `np.cos(x)`. -/
noncomputable def cos : Fl → Fl
  | fin x => fin (Real.cos x)
  | _ => nan

/-- A finite number. -/
def Finite : Fl → Prop
  | fin _ => True
  | _ => False

/-- `f(0) + ... + f(n-1)`. -/
noncomputable def sum (n : ℕ) (f : ℕ → Fl) : Fl :=
  match n with
  | 0 => fin 0
  | n + 1 => add (sum n f) (f n)

end Fl

/-- `np.max` of a rank-1 array; raises on an empty array. -/
noncomputable def npMaxF (v : A1 Fl) : Py Fl :=
  match v.n with
  | 0 => .error (.valueError "zero-size array to reduction operation maximum which has no identity")
  | n + 1 => .ok (Nat.rec (v.get 0) (fun k m => Fl.max m (v.get (k + 1))) n)

/-- A boundary condition. -/
inductive BCvF
  | scalar (x : Fl)
  | vec (v : A1 Fl)
  | mat (v : A2 Fl)

/-- `np.all(b == 0)`. -/
def BCvF.AllZero : BCvF → Prop
  | .scalar x => Fl.eqv x (.fin 0)
  | .vec v => ∀ i < v.n, Fl.eqv (v.get i) (.fin 0)
  | .mat v => ∀ i < v.r, ∀ j < v.c, Fl.eqv (v.get i j) (.fin 0)

/-- `len(np.atleast_1d(b))`. -/
def BCvF.len : BCvF → ℕ
  | .scalar _ => 1
  | .vec v => v.n
  | .mat v => v.r

/-- `np.shape(b) == (r, c)`. -/
def BCvF.HasShape : BCvF → ℤ → ℤ → Prop
  | .mat v, r, c => (v.r : ℤ) = r ∧ (v.c : ℤ) = c
  | _, _, _ => False

/-- `np.max(b)`. -/
noncomputable def BCvF.max (b : BCvF) : Py Fl :=
  match b with
  | .scalar x => .ok x
  | .vec v => npMaxF v
  | .mat v => npMaxF ⟨v.r * v.c, fun k => v.get (k / v.c) (k % v.c)⟩

/-- The arguments of `pydisort` as in `Args`, without `BDRF_Fourier_modes`, whose values no check looks at. -/
structure ArgsF where
  tauArr : A1 Fl
  omega : A1 Fl
  NQuad : ℤ
  leg : A2 Fl
  mu0 : Fl
  I0 : Fl
  phi0 : Fl
  NLeg : Option ℤ
  NFourier : Option ℤ
  bpos : BCvF
  bneg : BCvF
  onlyFlux : Bool
  fArr : A1 Fl
  s : A2 Fl
  useBanded : ℤ

namespace ArgsF
variable (a : ArgsF)

/-- Lines 193-194 of `pydisort.py`. -/
def nLeg : ℤ := a.NLeg.getD a.NQuad
/-- Lines 195-198. -/
def nFourier : ℤ := if a.onlyFlux = true then 1 else a.NFourier.getD a.NQuad
open Classical in
/-- Lines 199-200. -/
noncomputable def bpos' : BCvF := if a.bpos.AllZero then .scalar (.fin 0) else a.bpos
open Classical in
/-- Lines 201-202. -/
noncomputable def bneg' : BCvF := if a.bneg.AllZero then .scalar (.fin 0) else a.bneg
open Classical in
/-- Lines 203-206. -/
noncomputable def nsc : ℕ := if ∀ i < a.s.r, ∀ j < a.s.c, Fl.eqv (a.s.get i j) (.fin 0) then 0 else a.s.c
/-- Line 212 (for a non-empty `tau_arr`). -/
def thick (k : ℕ) : Fl := if k = 0 then a.tauArr.get 0 else Fl.sub (a.tauArr.get (k - 1 + 1)) (a.tauArr.get (k - 1))
/-- Line 214. -/
def halfN : ℤ := a.NQuad / 2
/-- Line 215. -/
def Beam : Prop := Fl.lt (.fin 0) a.I0
/-- Line 216. -/
def Iso : Prop := a.nsc > 0

open Classical in
/-- Lines 246-248. -/
noncomputable def legFix : ℕ → ℕ → Fl := fun l k =>
  if ¬ (∀ l < a.tauArr.n, Fl.eqv (Fl.mul (a.omega.get l) (a.leg.get l 0)) (a.omega.get l)) ∧ k = 0 then .fin 1 else a.leg.get l k

/-- The checks on lines 223-244, in order, with the message of each. -/
def checks1 : List (Prop × String) :=
  [ (∀ k < a.tauArr.n, Fl.lt (.fin 0) (a.tauArr.get k), "tau values cannot be non-positive."),
    (∀ k < a.tauArr.n, Fl.lt (.fin 0) (a.thick k), "Layer thicknesses cannot be non-positive."),
    ((∀ k < a.omega.n, Fl.le (.fin 0) (a.omega.get k)) ∧ (∀ k < a.omega.n, Fl.lt (a.omega.get k) (.fin 1)),
      "Single-scattering albedo must be between 0 and 1, excluding 1."),
    (0 < a.nLeg, "The number of phase function Legendre coefficients must be positive."),
    (a.nLeg ≤ a.leg.c, "`NLeg` cannot be larger than the number of phase function Legendre coefficients provided."),
    (a.leg.r = a.tauArr.n, "The zeroth dimension of the shape of `Leg_coeffs_all` does not match the number of layers which is deduced from the length of `tau_arr`."),
    (a.omega.n = a.tauArr.n, "The zeroth dimension of the shape of `omega_arr` does not match the number of layers which is deduced from the length of `tau_arr`."),
    (¬ ((∃ k < a.fArr.n, ¬ Fl.eqv (a.fArr.get k) (.fin 0)) ∧ ¬ a.fArr.n = a.tauArr.n),
      "The length of `f_arr` does not match the number of layers which is deduced from the length of `tau_arr`."),
    (¬ (a.Iso ∧ ¬ a.s.r = a.tauArr.n), "The zeroth dimension of the shape of `s_poly_coeffs` does not match the number of layers which is deduced from the length of `tau_arr`.") ]

/-- The checks on lines 249-291, in order. -/
def checks2 : List (Prop × String) :=
  [ ((∀ l < a.leg.r, ∀ k < a.leg.c, 1 ≤ k → Fl.lt (.fin (-1)) (a.legFix l k)) ∧
      (∀ l < a.leg.r, ∀ k < a.leg.c, 1 ≤ k → Fl.lt (a.legFix l k) (.fin 1)),
      "The phase function Legendre coefficients must all be between -1 and 1 exclusive (only the zeroth coefficient can equal 1)."),
    (a.NQuad ≥ 2, "There must be at least two streams."),
    (a.NQuad % 2 = 0, "The number of streams must be even."),
    (a.nFourier > 0, "The number of Fourier modes to use in the solution must be positive."),
    (a.nFourier ≤ a.nLeg, "The number of Fourier modes to use in the solution must be less than or equal to the number of phase function Legendre coefficients used."),
    (a.nLeg ≤ a.NQuad, "There should be more streams than the number of phase function Legendre coefficients used."),
    (¬ Fl.lt a.I0 (.fin 0), "The intensity of the incident beam cannot be negative."),
    (a.Beam → Fl.lt (.fin 0) a.mu0 ∧ Fl.le a.mu0 (.fin 1), "The cosine of the polar angle of the incident beam must be between 0 and 1, excluding 0."),
    (a.Beam → Fl.le (.fin 0) a.phi0 ∧ Fl.lt a.phi0 (.fin (2 * Real.pi)), "Provide the principal azimuthal angle for the incident beam (must be between 0 and 2pi, excluding 2pi)."),
    (¬ (¬ a.bpos'.len = 1 ∧ ¬ (a.bpos'.len : ℤ) = a.halfN ∧ ¬ a.bpos'.HasShape a.halfN a.nFourier),
      "The shape of the bottom boundary condition is incorrect."),
    (¬ (¬ a.bneg'.len = 1 ∧ ¬ (a.bneg'.len : ℤ) = a.halfN ∧ ¬ a.bneg'.HasShape a.halfN a.nFourier),
      "The shape of the top boundary condition is incorrect."),
    ((∀ k < a.fArr.n, Fl.le (.fin 0) (a.fArr.get k)) ∧ (∀ k < a.fArr.n, Fl.le (a.fArr.get k) (.fin 1)),
      "The fractional scattering must be between 0 and 1."),
    (a.useBanded ≥ 3, "The minimum threshold `use_banded_solver_NLayers` is 3, else the matrix will not be banded.") ]

/-- Lines 207-291. -/
noncomputable def validate : Py Unit :=
  if a.tauArr.n = 0 then .error .indexError
  else do
    runChecks a.checks1
    runChecks a.checks2

open Classical in
/-- Lines 350-366: `rescale_factor`. The last two arguments of `np.max` when there is an isotropic source, `p = scaled_s_poly_coeffs[0, 0]` and `q`, the source at the
bottom, are parameters. -/
noncomputable def rescaleFactor (p q : Fl) : Py Fl := do
  let mp ← a.bpos'.max
  let mn ← a.bneg'.max
  return if a.Iso then Fl.max (Fl.max (Fl.max (Fl.max a.I0 mp) mn) p) q else Fl.max (Fl.max a.I0 mp) mn

end ArgsF

/-- Finite arguments as floating-point values. -/
def BCv.toF : BCv → BCvF
  | .scalar x => .scalar (.fin x)
  | .vec v => .vec (v.map .fin)
  | .mat v => .mat (v.map .fin)

/-- Finite arguments as floating-point values. -/
def Args.toF (a : Args) : ArgsF :=
  { tauArr := a.tauArr.map .fin, omega := a.omega.map .fin, NQuad := a.NQuad, leg := a.leg.map .fin, mu0 := .fin a.mu0, I0 := .fin a.I0, phi0 := .fin a.phi0,
    NLeg := a.NLeg, NFourier := a.NFourier, bpos := a.bpos.toF, bneg := a.bneg.toF, onlyFlux := a.onlyFlux, fArr := a.fArr.map .fin, s := a.s.map .fin,
    useBanded := a.useBanded }

/-- What the functions returned by a call use. `v tau l i` is the contribution of `_mathscr_v` to row `i` at a scaled depth in layer `l`; `corr`, if present, gives the NT corrections
(lines 643-694 of `pydisort.py`) at a stream, depth and azimuth. -/
structure AsmF where
  N : ℕ
  NFourier : ℕ
  NLayers : ℕ
  tauArr : ℕ → Fl
  tau0 : ℕ → Fl
  scale : ℕ → Fl
  mu : ℕ → Fl
  W : ℕ → Fl
  mu0 : Fl
  I0 : Fl
  rescale : Fl
  beam : Bool
  iso : Bool
  phi0 : Fl
  K : ℕ → ℕ → ℕ → Fl
  GC : ℕ → ℕ → ℕ → ℕ → Fl
  B : ℕ → ℕ → ℕ → Fl
  v : Fl → ℕ → ℕ → Fl
  corr : Option (ℕ → Fl → Fl → Fl)

namespace AsmF
variable (I : AsmF)

open Classical in
/-- The range check, lines 345-346 of `_assemble_intensity_and_fluxes.py` (also 181-182, 454-455, 536-537). -/
noncomputable def checkTau (tau : A1 Fl) : Py Unit :=
  if (∃ k < tau.n, Fl.lt (tau.get k) (.fin 0)) ∨ (∃ k < tau.n, Fl.lt (I.tauArr (I.NLayers - 1)) (tau.get k)) then
    .error (.valueError "tau input outside the tau range")
  else .ok ()

/-- Line 349 (also 185, 458, 540): layer index of a depth. -/
noncomputable def layer (t : Fl) : ℕ := argmaxTrue I.NLayers (fun k => Fl.le t (I.tauArr k))

open Classical in
/-- Lines 354-369 (also 190-195, 463-468, 545-550): delta-scaled depth. -/
noncomputable def scaledTau (t : Fl) : Fl :=
  if ∃ k < I.NLayers, ¬ Fl.eqv (I.scale k) (.fin 1) then
    Fl.sub (I.tau0 (I.layer t + 1)) (Fl.mul (Fl.sub (I.tauArr (I.layer t)) t) (I.scale (I.layer t)))
  else t

/-- Lines 197-203 (also 373-379, 485-491, 567-573). -/
noncomputable def exponent (m : ℕ) (t : Fl) (j : ℕ) : Fl :=
  if j < I.N then Fl.mul (I.K m (I.layer t) j) (Fl.sub (I.scaledTau t) (I.tau0 (I.layer t)))
  else Fl.mul (I.K m (I.layer t) j) (Fl.sub (I.scaledTau t) (I.tau0 (I.layer t + 1)))

/-- Lines 222-254 (also 397-422, 509-517, 590-599): mode `m` without `rescale_factor`. -/
noncomputable def um (m i : ℕ) (t : Fl) : Fl :=
  let h := Fl.add (Fl.sum (2 * I.N) fun j => Fl.mul (I.GC m (I.layer t) i j) (Fl.exp (I.exponent m t j)))
    (if I.beam = true then Fl.mul (I.B m (I.layer t) i) (Fl.exp (Fl.div (Fl.neg (I.scaledTau t)) I.mu0)) else .fin 0)
  if m = 0 ∧ I.iso = true then Fl.add h (I.v (I.scaledTau t) (I.layer t) i) else h

/-- Line 425: an entry of `u0`. -/
noncomputable def u0Entry (i : ℕ) (t : Fl) : Fl := Fl.mul I.rescale (I.um 0 i t)

/-- Lines 256-262, and lines 689-694 of `pydisort.py`: an entry of `u`. -/
noncomputable def uEntry (i : ℕ) (t ph : Fl) : Fl :=
  let x := Fl.mul I.rescale (Fl.sum I.NFourier fun m => Fl.mul (I.um m i t) (Fl.cos (Fl.mul (.fin (m : ℝ)) (Fl.sub I.phi0 ph))))
  match I.corr with
  | none => x
  | some c => Fl.add x (Fl.mul I.rescale (c i t ph))

/-- Lines 519, 601: `2 * pi * (mu_arr_pos * W) @ ...`. -/
noncomputable def fluxQuad (row0 : ℕ) (t : Fl) : Fl :=
  Fl.sum I.N fun i => Fl.mul (Fl.mul (.fin (2 * Real.pi)) (Fl.mul (I.mu i) (I.W i))) (I.um 0 (row0 + i) t)

/-- Lines 522-524: an entry of `flux_up`. -/
noncomputable def fluxUpEntry (t : Fl) : Fl := Fl.mul I.rescale (I.fluxQuad 0 t)

/-- Lines 575-576, 592: `direct_beam`. -/
noncomputable def direct (t : Fl) : Fl :=
  if I.beam = true then Fl.mul (Fl.mul I.I0 I.mu0) (Fl.exp (Fl.div (Fl.neg t) I.mu0)) else .fin 0

/-- Lines 577, 593: `direct_beam_scaled`. -/
noncomputable def directScaled (t : Fl) : Fl :=
  if I.beam = true then Fl.mul (Fl.mul I.I0 I.mu0) (Fl.exp (Fl.div (Fl.neg (I.scaledTau t)) I.mu0)) else .fin 0

/-- Lines 601-613: an entry of the diffuse downward flux. -/
noncomputable def fluxDownEntry (t : Fl) : Fl :=
  Fl.mul I.rescale (Fl.sub (Fl.add (I.fluxQuad I.N t) (I.directScaled t)) (I.direct t))

/-- Lines 606, 612: an entry of the direct downward flux. -/
noncomputable def directEntry (t : Fl) : Fl := Fl.mul I.rescale (I.direct t)

/-- Lines 345-433: `u0(tau)`. -/
noncomputable def u0 (tau : A1 Fl) : Py (A2 Fl) := do
  I.checkTau tau
  return ⟨2 * I.N, tau.n, fun i t => I.u0Entry i (tau.get t)⟩

/-- Lines 170-328, and lines 643-694 of `pydisort.py`: `u(tau, phi)`. Simplification: with NT corrections and a single depth in several layers the arrays are added as if
their shapes were equal (C37 is about the shapes). -/
noncomputable def u (tau phi : A1 Fl) : Py (A3 Fl) := do
  I.checkTau tau
  return ⟨2 * I.N, tau.n, phi.n, fun i t p => I.uEntry i (tau.get t) (phi.get p)⟩

/-- Lines 446-524: `flux_up(tau)`. -/
noncomputable def fluxUp (tau : A1 Fl) : Py (A1 Fl) := do
  I.checkTau tau
  return tau.map I.fluxUpEntry

/-- Lines 527-613: `flux_down(tau)`: diffuse and direct flux. Without a beam the direct flux is a rank-0 array, represented by one entry. -/
noncomputable def fluxDown (tau : A1 Fl) : Py (A1 Fl × A1 Fl) := do
  I.checkTau tau
  return (tau.map I.fluxDownEntry, if I.beam = true then tau.map I.directEntry else ⟨1, fun _ => Fl.mul I.rescale (.fin 0)⟩)

end AsmF

/-- The data of a call with finite numbers, without NT corrections. -/
noncomputable def AsmIn.toF (I : AsmIn) (S : Sols) : AsmF :=
  { N := I.N, NFourier := I.NFourier, NLayers := I.NLayers, phi0 := .fin I.phi0, corr := none, tauArr := fun k => .fin (I.tauArr k), tau0 := fun k => .fin (I.tau0 k), scale := fun k => .fin (I.scale k),
    mu := fun k => .fin (I.mu k), W := fun k => .fin (I.W k), mu0 := .fin I.mu0, I0 := .fin I.I0, rescale := .fin I.rescale, beam := I.beam, iso := I.iso,
    K := fun m l j => .fin (S.K m l j), GC := fun m l i j => .fin (S.GC m l i j), B := fun m l i => .fin (S.B m l i),
    v := fun t l i => match t with
      | .fin x => .fin (mathscrV (2 * I.N) I.Nscoeffs (I.s l) (fun q => S.G 0 l q) (S.K 0 l) (S.Gim l) x i)
      | _ => .nan }

end Pydisort

import Verif.Model.Pydisort

/-!
# Memory model of `pydisort`

In Python an array is an object, and a variable is a reference to one. `np.atleast_1d` and `np.atleast_2d` (lines 184-188) hand back the caller's own
object (or a view of it) when they are given an array, and the functions that `pydisort` returns keep references rather than copies. The definitions below
model `pydisort` with such references: where it writes, and what the returned functions read when they are evaluated.

Arrays are `float64` arrays which overlap only if they are the same object; the boundary values `b_pos`, `b_neg` and the numbers are passed by value
(lines 199-202 and 361-371: they are only read, and the functions returned hold quotients, which are new objects).
-/

namespace Pydisort
open Finset

/-- The memory: the contents of the array objects of rank one and two, by address, and the first address of each kind that is not in use. -/
structure Heap where
  v : ℕ → A1 ℝ
  m : ℕ → A2 ℝ
  nv : ℕ
  nm : ℕ

/-- Python code that may change the memory and may raise; what has been written before an exception stays written. -/
def Mem (α : Type) := Heap → Py α × Heap

instance : Monad Mem where
  pure x := fun h => (.ok x, h)
  bind x f := fun h => match x h with
    | (.ok a, h') => f a h'
    | (.error e, h') => (.error e, h')

namespace Mem

/-- An expression that does not change the memory. -/
def raise {α : Type} (x : Py α) : Mem α := fun h => (x, h)
/-- A new array of rank one. -/
def new1 (x : A1 ℝ) : Mem ℕ := fun h => (.ok h.nv, { h with v := Function.update h.v h.nv x, nv := h.nv + 1 })
/-- A new array of rank two. -/
def new2 (x : A2 ℝ) : Mem ℕ := fun h => (.ok h.nm, { h with m := Function.update h.m h.nm x, nm := h.nm + 1 })

end Mem

/-- What a caller may pass for an argument that goes through `np.atleast_1d`: an array, or a number or a list. -/
inductive In1 where
  | arr (p : ℕ)
  | lit (x : A1 ℝ)

/-- What a caller may pass for an argument that goes through `np.atleast_2d`: an array of rank two, an array of rank one, or a number or a list. -/
inductive In2 where
  | arr (p : ℕ)
  | row (p : ℕ)
  | lit (x : A2 ℝ)

/-- A variable that holds a rank-two array: an object of rank two, or the view with one row of an object of rank one. -/
inductive Ref2 where
  | arr (p : ℕ)
  | row (p : ℕ)

/-- The content of the array now. -/
def Ref2.read (h : Heap) : Ref2 → A2 ℝ
  | .arr p => h.m p
  | .row p => (h.v p).row

/-- `np.atleast_1d` (lines 184, 185, 188): an array is handed back as it is. -/
def atleast1d : In1 → Mem ℕ
  | .arr p => pure p
  | .lit x => Mem.new1 x

/-- `np.atleast_2d` (lines 186, 187): an array of rank two is handed back as it is, one of rank one as a view. -/
def atleast2d : In2 → Mem Ref2
  | .arr p => pure (.arr p)
  | .row p => pure (.row p)
  | .lit x => do return .arr (← Mem.new2 x)

/-- `a[:, 0] = 1` (line 248). -/
def Ref2.setOnes (r : Ref2) : Mem Unit := fun h =>
  (.ok (), match r with
    | .arr p => { h with m := Function.update h.m p ⟨(h.m p).r, (h.m p).c, fun l k => if k = 0 then 1 else (h.m p).get l k⟩ }
    | .row p => { h with v := Function.update h.v p ⟨(h.v p).n, fun k => if k = 0 then 1 else (h.v p).get k⟩ })

/-- The arguments of a call: the arrays as the caller passes them, and everything else in `rest` (whose own arrays are ignored). -/
structure CallArgs where
  tau : In1
  omega : In1
  leg : In2
  s : In2
  f : In1
  rest : Args

/-- The variables `tau_arr`, `omega_arr`, `Leg_coeffs_all`, `s_poly_coeffs`, `f_arr` after lines 184-188. -/
structure Vars where
  tau : ℕ
  omega : ℕ
  leg : Ref2
  s : Ref2
  f : ℕ

/-- Lines 184-188. -/
def CallArgs.convert (c : CallArgs) : Mem Vars := do
  let tau ← atleast1d c.tau
  let omega ← atleast1d c.omega
  let leg ← atleast2d c.leg
  let s ← atleast2d c.s
  let f ← atleast1d c.f
  return ⟨tau, omega, leg, s, f⟩

/-- The values of the arguments with the present contents of the five arrays. -/
def Vars.now (x : Vars) (rest : Args) : Mem Args := fun h =>
  (.ok { rest with tauArr := h.v x.tau, omega := h.v x.omega, leg := x.leg.read h, s := x.s.read h, fArr := h.v x.f }, h)

open Classical in
/-- Lines 246-248. -/
noncomputable def Vars.correct (x : Vars) (a : Args) : Mem Unit :=
  if ¬ ∀ l < a.NLayers, a.omega.get l * a.leg.get l 0 = a.omega.get l then x.leg.setOnes else pure ()

/-- Lines 207-291, with the assignment on line 248 as a write to memory: the arguments after it. Simplification: quantities that the code computes
from the arrays before line 248 (`Nscoeffs`, `thickness_arr`) are computed from the contents after it, which only differ if `Leg_coeffs_all` is also another argument. -/
noncomputable def Vars.check (x : Vars) (rest : Args) : Mem Args := do
  let a ← x.now rest
  Mem.raise (if a.tauArr.n = 0 then .error .indexError else runChecks a.checks1)
  x.correct a
  let a ← x.now rest
  Mem.raise (runChecks a.checks2)
  return a

/-- The variables captured by the functions that `pydisort` returns: references to the arrays that exist under a name in `pydisort` (first group: maybe the
caller's own; second group: created by `pydisort`, of which `mu_arr` is handed out), and the values of everything else: the numbers, and the arrays that
only exist inside `_assemble_intensity_and_fluxes` (`S`) or that are computed once for the IMS correction (lines 601-611, in `nt`). -/
structure Closure where
  /-- `tau_arr` -/
  tau : ℕ
  /-- `f_arr` -/
  f : ℕ
  /-- `scaled_omega_arr` -/
  omegaS : ℕ
  /-- `mu_arr` -/
  muArr : ℕ
  /-- `mu_arr_pos` -/
  mu : ℕ
  W : ℕ
  M_inv : ℕ
  /-- `scale_tau` -/
  scale : ℕ
  /-- `scaled_tau_arr_with_0` -/
  tau0 : ℕ
  /-- `scaled_thickness_arr` -/
  thick : ℕ
  /-- `scaled_s_poly_coeffs` -/
  s : ℕ
  /-- `weighted_Leg_coeffs_all` -/
  wLegAll : ℕ
  /-- `weighted_scaled_Leg_coeffs` -/
  wLeg : ℕ
  I : AsmIn
  S : Sols
  nt : Option NTIn
  onlyFlux : Bool

open Classical in
/-- Lines 296-405 and 700-726: the set-up after the checks, for arguments with the values `a`. With no `f > 0`, `scaled_omega_arr` *is* `omega_arr` (line 334);
every other array is new. -/
noncomputable def Vars.build (E : Ext) (J : Junk) (x : Vars) (a : Args) : Mem Closure := do
  let wLegAll ← Mem.new2 ⟨a.leg.r, a.leg.c, fun l k => (2 * (k : ℝ) + 1) * a.leg.get l k⟩
  let q ← Mem.raise (a.quad E)
  let mu ← Mem.new1 q.1
  let W ← Mem.new1 q.2
  let muArr ← Mem.new1 ⟨2 * a.N, fun i => if i < a.N then q.1.get i else -q.1.get (i - a.N)⟩
  let M_inv ← Mem.new1 (q.1.map fun y => 1 / y)
  let O ← Mem.raise a.optics
  let scale ← Mem.new1 ⟨a.NLayers, O.scale⟩
  let tau0 ← Mem.new1 ⟨a.NLayers + 1, O.tau0⟩
  let thick ← Mem.new1 ⟨a.NLayers, O.thick⟩
  let wLeg ← Mem.new2 ⟨a.NLayers, a.nLeg.toNat, O.wLeg⟩
  let omegaS ← if ∃ k < a.fArr.n, 0 < a.fArr.get k then Mem.new1 ⟨a.NLayers, O.omega⟩ else pure x.omega
  let r ← Mem.raise (a.rescaleFactor O)
  let s ← Mem.new2 (O.s.map fun y => y / (if a.Iso then r else 1))
  let I := a.asmIn q.1.get q.2.get O r
  let S ← Mem.raise (solveAll E J I)
  return ⟨x.tau, x.f, omegaS, muArr, mu, W, M_inv, scale, tau0, thick, s, wLegAll, wLeg, I, S,
    if a.NTGate then some (a.ntIn q.1.get O r) else none, a.onlyFlux⟩

/-- `pydisort` (lines 12-726) with its effect on memory. -/
noncomputable def pydisortMem (E : Ext) (J : Junk) (c : CallArgs) : Mem Closure := do
  let x ← c.convert
  let a ← x.check c.rest
  x.build E J a

/-- Lines 661-687 with the variables of `TMS_correction` (`T`) and those of `IMS_correction` (`I`) apart: the former reads `tau_arr` and `f_arr` whenever it is
called, the latter uses averages (601-611) that were computed once. -/
noncomputable def corrFrom (T I : NTIn) (tau phi : A1 ℝ) (anti : Bool) (l : ℕ → ℕ) : Py (A3 ℝ) := do
  let a ← T.tms tau phi anti l
  let b ← I.ims tau phi anti
  let r ← bdim b.d0 I.N
  let c ← bdim b.d2 a.d2
  if r = I.N ∧ c = a.d2 then
    return ⟨a.d0, a.d1, a.d2, fun i t p =>
      if i < I.N then a.get i t p else a.get i t p + b.get (bix b.d0 (i - I.N)) t (bix b.d2 p)⟩
  else .error .shapeError

namespace Closure
variable (c : Closure) (h : Heap)

/-- The variables of `_assemble_intensity_and_fluxes` as the functions defined there find them in memory. -/
noncomputable def asm : AsmIn :=
  { c.I with
    omega := (h.v c.omegaS).get, tauArr := (h.v c.tau).get, tau0 := (h.v c.tau0).get, mu := (h.v c.mu).get,
    M_inv := (h.v c.M_inv).get, W := (h.v c.W).get, wLeg := (h.m c.wLeg).get, s := (h.m c.s).get,
    scale := (h.v c.scale).get }

/-- The variables of `TMS_correction` (lines 409-596) as it finds them in memory. -/
noncomputable def tmsIn (n : NTIn) : NTIn :=
  { n with
    tauArr := (h.v c.tau).get, tau0 := (h.v c.tau0).get, thick := (h.v c.thick).get, scale := (h.v c.scale).get,
    omegaS := (h.v c.omegaS).get, f := (h.v c.f).get, wLegAll := (h.m c.wLegAll).get, wLeg := (h.m c.wLeg).get,
    mu := (h.v c.mu).get, muArr := (h.v c.muArr).get, M_inv := (h.v c.M_inv).get }

/-- The variables of `IMS_correction` (lines 613-638): `mu_arr_pos` from memory, the averages of lines 601-611 from the time of the call. -/
noncomputable def imsIn (n : NTIn) : NTIn := { n with mu := (h.v c.mu).get }

/-- `u0(tau, is_antiderivative_wrt_tau)` evaluated in memory `h`; like the functions below it writes to no array that exists before the evaluation. -/
noncomputable def u0 (tau : A1 ℝ) (anti : Bool) : Py (A2 ℝ) := (c.asm h).u0 c.S tau anti
/-- `flux_up(tau, is_antiderivative_wrt_tau)` evaluated in memory `h`. -/
noncomputable def fluxUp (tau : A1 ℝ) (anti : Bool) : Py (A1 ℝ) := (c.asm h).fluxUp c.S tau anti
/-- `flux_down(tau, is_antiderivative_wrt_tau)` evaluated in memory `h`. -/
noncomputable def fluxDown (tau : A1 ℝ) (anti : Bool) : Py (A1 ℝ × A1 ℝ × Bool) := (c.asm h).fluxDown c.S tau anti

/-- `u(tau, phi, is_antiderivative_wrt_tau)` evaluated in memory `h` (lines 643-694 with corrections). -/
noncomputable def u (tau phi : A1 ℝ) (anti : Bool) : Py (A3 ℝ) :=
  if c.onlyFlux = true then .error .typeError
  else match c.nt with
    | some n => do
      let x ← (c.asm h).u c.S tau phi anti
      let y ← corrFrom (c.tmsIn h n) (c.imsIn h n) tau phi anti (fun t => (c.asm h).layer (tau.get t))
      addSqueezed c.I.rescale x y
    | none => (c.asm h).u c.S tau phi anti

end Closure
end Pydisort

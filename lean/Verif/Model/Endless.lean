import Verif.Model.NonFinite

/-!
# Model: `pydisort` when the last entry of `tau_arr` is infinite

The checks accept infinity as the last entry of `tau_arr` (C124). Here is the call with arguments `a` in which that entry is replaced by a floating-point value `last`. The numbers that
depend on it are floating-point values (`Fl`), the others stay real numbers: the eigen-decompositions and the vectors of the beam do not depend on `tau_arr`. Simplifications: calls
without internal source and without NT corrections; the buffers `RHS` and `LHS` are new for each Fourier mode and the matrix is in dense storage (that neither matters
is proved for the exact model, `coefBody_spec`).
-/

namespace Pydisort
open Finset

open Classical in
/-- The number a finite floating-point value stands for. -/
noncomputable def Fl.val : Fl → ℝ
  | .fin x => x
  | _ => 0

/-- `v[a:b] = w`. -/
def setSliceF (v : ℕ → Fl) (a b : ℕ) (w : ℕ → Fl) : ℕ → Fl := fun i => if a ≤ i ∧ i < b then w (i - a) else v i

/-- `v[a:b] += w`. -/
def addSliceF (v : ℕ → Fl) (a b : ℕ) (w : ℕ → Fl) : ℕ → Fl := fun i => if a ≤ i ∧ i < b then Fl.add (v i) (w (i - a)) else v i

/-- `M[i0:i1, j0:j1] = B`. -/
def setBlockF (M : ℕ → ℕ → Fl) (i0 i1 j0 j1 : ℕ) (B : ℕ → ℕ → Fl) : ℕ → ℕ → Fl :=
  fun i j => if (i0 ≤ i ∧ i < i1) ∧ (j0 ≤ j ∧ j < j1) then B (i - i0) (j - j0) else M i j

open Classical in
/-- `np.linalg.solve(A, b)`. If all numbers are finite, the exact solution; otherwise the result is taken to be NaN (`solve_banded` raises an exception instead). -/
noncomputable def npSolveF (n : ℕ) (A : ℕ → ℕ → Fl) (b : ℕ → Fl) : Py (ℕ → Fl) :=
  if (∀ i < n, ∀ j < n, (A i j).Finite) ∧ ∀ i < n, (b i).Finite then do
    let x ← npSolve n (fun i j => (A i j).val) (fun i => (b i).val)
    return fun k => .fin (x k)
  else .ok fun _ => .nan

namespace CoefIn
variable (I : CoefIn) (tau : ℕ → Fl)

/-- Line 264 of `_solve_for_coeffs.py`: `E_01`. Throughout, `tau` is `scaled_tau_arr_with_0`. -/
noncomputable def E01F (m j : ℕ) : Fl := Fl.exp (Fl.mul (.fin (I.K m 0 j)) (tau 1))
/-- Lines 271-273: `E_Lm1L`. -/
noncomputable def ELm1LF (m j : ℕ) : Fl :=
  Fl.exp (Fl.mul (.fin (I.K m (I.NLayers - 1) j)) (Fl.sub (tau I.NLayers) (tau (I.NLayers - 1))))
/-- Lines 311 and 368: `E_lm1l`. -/
noncomputable def Elm1lF (m l j : ℕ) : Fl := Fl.exp (Fl.mul (.fin (I.K m l (I.N + j))) (Fl.sub (tau l) (tau (l + 1))))
/-- Lines 312 and 369: `E_llp1`. -/
noncomputable def Ellp1F (m l j : ℕ) : Fl := Fl.exp (Fl.mul (.fin (I.K m (l + 1) (I.N + j))) (Fl.sub (tau (l + 1)) (tau (l + 2))))

/-- Lines 344-349: the bottom block on the left. -/
noncomputable def botLF (m : ℕ) (R : Option Mat) (i j : ℕ) : Fl :=
  match R with
  | some R => Fl.mul (.fin (I.G m (I.NLayers - 1) i j - ∑ q ∈ range I.N, R i q * I.G m (I.NLayers - 1) (I.N + q) j)) (I.ELm1LF tau m j)
  | none => Fl.mul (.fin (I.G m (I.NLayers - 1) i j)) (I.ELm1LF tau m j)

/-- Lines 353-380: one iteration of the interlayer loop. -/
noncomputable def denseInterF (m l : ℕ) (A : ℕ → ℕ → Fl) : ℕ → ℕ → Fl :=
  let N := I.N
  let sr := N + l * (2 * N)
  let sc := l * (2 * N)
  let A := setBlockF A sr (N + sr) sc (N + sc) (fun i j => Fl.mul (.fin (I.G m l i j)) (I.Elm1lF tau m l j))
  let A := setBlockF A (N + sr) (2 * N + sr) sc (N + sc) (fun i j => Fl.mul (.fin (I.G m l (N + i) j)) (I.Elm1lF tau m l j))
  let A := setBlockF A sr (2 * N + sr) (N + sc) (2 * N + sc) (fun i j => .fin (I.G m l i (N + j)))
  let A := setBlockF A sr (2 * N + sr) (2 * N + sc) (3 * N + sc) (fun i j => .fin (-I.G m (l + 1) i j))
  let A := setBlockF A sr (N + sr) (3 * N + sc) (4 * N + sc) (fun i j => Fl.mul (.fin (-I.G m (l + 1) i (N + j))) (I.Ellp1F tau m l j))
  setBlockF A (N + sr) (2 * N + sr) (3 * N + sc) (4 * N + sc) (fun i j => Fl.mul (.fin (-I.G m (l + 1) (N + i) (N + j))) (I.Ellp1F tau m l j))

/-- Lines 108 and 340-380: the matrix of mode `m`. -/
noncomputable def denseF (m : ℕ) (R : Option Mat) : ℕ → ℕ → Fl :=
  let N := I.N
  let A := setBlockF (fun _ _ => .fin 0) 0 N 0 N (fun i j => .fin (I.G m 0 (N + i) j))
  let A := setBlockF A 0 N N (2 * N) (fun i j => Fl.mul (.fin (I.G m 0 (N + i) (N + j))) (I.E01F tau m j))
  let A := setBlockF A (I.dim - N) I.dim (I.dim - 2 * N) (I.dim - N) (I.botLF tau m R)
  let A := setBlockF A (I.dim - N) I.dim (I.dim - N) I.dim (fun i j => .fin (I.botR m R i j))
  forRange (I.NLayers - 1) (fun l A => I.denseInterF tau m l A) A

/-- `np.exp(-tau / mu0)`. -/
noncomputable def beamF (t : Fl) : Fl := Fl.exp (Fl.div (Fl.neg t) (.fin I.mu0))

/-- Lines 234-254. -/
noncomputable def rhsBeamF (m : ℕ) (R : Option Mat) (X : Vec) (r : ℕ → Fl) : ℕ → Fl :=
  let r := addSliceF r 0 I.N (fun i => .fin (-I.B m 0 (I.N + i)))
  let r := if I.NLayers > 1 then
      addSliceF r I.N (I.dim - I.N) (fun i =>
        Fl.mul (.fin (I.B m (i / (2 * I.N) + 1) (i % (2 * I.N)) - I.B m (i / (2 * I.N) + 1 - 1) (i % (2 * I.N))))
          (I.beamF (tau (i / (2 * I.N) + 1))))
    else r
  match R with
  | some R => addSliceF r (I.dim - I.N) I.dim (fun i =>
      Fl.mul (.fin (X i + ∑ q ∈ range I.N, R i q * I.B m (I.NLayers - 1) (I.N + q) - I.B m (I.NLayers - 1) i)) (I.beamF (tau I.NLayers)))
  | none => addSliceF r (I.dim - I.N) I.dim (fun i => Fl.neg (Fl.mul (.fin (I.B m (I.NLayers - 1) i)) (I.beamF (tau I.NLayers))))

/-- Lines 160-166 and 234-254: the right-hand side of mode `m`. -/
noncomputable def rhsF (m : ℕ) (bneg bpos : Vec) (R : Option Mat) (X : Vec) (r : ℕ → Fl) : ℕ → Fl :=
  let r := setSliceF (setSliceF (setSliceF r 0 I.N fun i => .fin (bneg i)) (I.dim - I.N) I.dim fun i => .fin (bpos i)) I.N (I.dim - I.N) fun _ => .fin 0
  if I.beam = true then I.rhsBeamF tau m R X r else r

/-- Lines 111-388: the coefficients of mode `m`; `r` is the content of `RHS` created by `np.empty`. -/
noncomputable def coefModeF (r : ℕ → Fl) (m : ℕ) : Py (ℕ → Fl) := do
  let R ← coefR I m
  let X ← coefX I m
  let bpos ← bcMode I.N m I.bposScalar I.bposVector I.bpos
  let bneg ← bcMode I.N m I.bnegScalar I.bnegVector I.bneg
  npSolveF I.dim (I.denseF tau m R) (I.rhsF tau m bneg bpos R X r)

/-- Lines 111-390: `GC_collect`; `C` is the content of `C_collect` created by `np.empty`. -/
noncomputable def solveCoeffsF (r : ℕ → Fl) (C : ℕ → ℕ → Fl) : Py (ℕ → ℕ → ℕ → ℕ → Fl) := do
  let C ← forRangeM I.NFourier (fun m C => do return Function.update C m (← I.coefModeF tau r m)) C
  return fun m l i k => Fl.mul (.fin (I.G m l i k)) (C m (l * (2 * I.N) + k))

end CoefIn

namespace Args
variable (a : Args) (last : Fl)

/-- `tau_arr` with `last` as its last entry. -/
def tauF (k : ℕ) : Fl := if k + 1 = a.tauArr.n then last else .fin (a.tauArr.get k)

/-- The arguments with `last` as the last entry of `tau_arr`. -/
def withLast : ArgsF := { a.toF with tauArr := ⟨a.tauArr.n, a.tauF last⟩ }

open Classical in
/-- Lines 212, 316-320 and 333 of `pydisort.py`: `scaled_tau_arr_with_0`. -/
noncomputable def tau0F (k : ℕ) : Fl :=
  if ∃ k < a.fArr.n, 0 < a.fArr.get k then Fl.sum k fun j => Fl.mul (.fin (a.scale j)) ((a.withLast last).thick j)
  else if k = 0 then .fin 0 else a.tauF last (k - 1)

end Args

/-- What the functions returned by the call use, from the arguments `I` of `_assemble_intensity_and_fluxes` and the solutions. -/
noncomputable def AsmIn.lastF (I : AsmIn) (tauArr tau0 : ℕ → Fl) (out : GenOut) (GC : ℕ → ℕ → ℕ → ℕ → Fl) : AsmF :=
  { N := I.N, NFourier := I.NFourier, NLayers := I.NLayers, phi0 := .fin I.phi0, corr := none, tauArr := tauArr, tau0 := tau0,
    scale := fun k => .fin (I.scale k), mu := fun k => .fin (I.mu k), W := fun k => .fin (I.W k), mu0 := .fin I.mu0, I0 := .fin I.I0, rescale := .fin I.rescale,
    beam := I.beam, iso := false, K := fun m l j => .fin (out.K m l j), GC := GC, B := fun m l i => .fin (out.B m l i), v := fun _ _ _ => .nan }

/-- `pydisort` (lines 12-726) with `last` as the last entry of `tau_arr`, for calls without internal source and without NT corrections: what the returned functions use. `a.tauArr` is used for the
other entries only: without internal source, `optics` without `tau0`, the rescale factor and the eigen-decompositions do not depend on the last one. -/
noncomputable def pydisortLast (E : Ext) (J : Junk) (a : Args) (last : Fl) : Py AsmF := do
  (a.withLast last).validate
  let q ← a.quad E
  let O ← a.optics
  let r ← a.rescaleFactor O
  let I := a.asmIn q.1.get q.2.get O r
  let out ← genSol E J.gen I.genIn
  let GC ← (I.coefIn out).solveCoeffsF (a.tau0F last) (fun k => .fin (J.coef.RHS k)) (fun m k => .fin (J.coef.C m k))
  return I.lastF (a.tauF last) (a.tau0F last) out GC

end Pydisort

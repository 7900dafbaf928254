import Verif.Model.Pydisort

/-!
# Model of `_solve_for_coeffs.py` with the exponentials left open

The definitions of `Model/Coeffs.lean` that call `np.exp`, with the function that `np.exp` computes as a parameter `ex`. In double precision it is not the
exponential function: results are rounded, below about `-745` they are zero. Everything else is exact, as in `Model/Coeffs.lean`; with `ex = Real.exp` the
definitions are those of that file (`C132_exact`).
-/

namespace Pydisort
open Finset

namespace CoefIn
variable (I : CoefIn) (ex : ℝ → ℝ)

/-- Lines 234-254. In `.ravel()` of a `(NLayers-1, NQuad)` array entry `r` is
`[r / NQuad, r % NQuad]`. -/
noncomputable def rhsBeamX (m : ℕ) (R : Option Mat) (X : Vec) (r : Vec) : Vec :=
  let r := addSlice r 0 I.N (fun i => -I.B m 0 (I.N + i))
  let r := if I.NLayers > 1 then
      addSlice r I.N (I.dim - I.N) (fun i =>
        (I.B m (i / (2 * I.N) + 1) (i % (2 * I.N)) - I.B m (i / (2 * I.N) + 1 - 1) (i % (2 * I.N)))
          * ex (-I.tau0 (i / (2 * I.N) + 1) / I.mu0))
    else r
  match R with
  | some R => addSlice r (I.dim - I.N) I.dim (fun i =>
      (X i + ∑ q ∈ range I.N, R i q * I.B m (I.NLayers - 1) (I.N + q) - I.B m (I.NLayers - 1) i)
        * ex (-I.tau0 I.NLayers / I.mu0))
  | none => addSlice r (I.dim - I.N) I.dim (fun i =>
      -(I.B m (I.NLayers - 1) i * ex (-I.tau0 I.NLayers / I.mu0)))

/-- Lines 160-254: the right-hand side of mode `m`, written over the previous content `r`. -/
noncomputable def rhsX (m : ℕ) (bneg bpos : Vec) (R : Option Mat) (X : Vec) (r : Vec) : Vec :=
  let r := I.rhsBC bneg bpos r
  let r := if m = 0 ∧ I.iso = true then I.rhsIso R r else r
  if I.beam = true then I.rhsBeamX ex m R X r else r

/-- Line 264: `E_01`. -/
noncomputable def E01X (m : ℕ) : Vec := fun j => ex (I.K m 0 j * I.tau0 1)
/-- Lines 271-273: `E_Lm1L`. -/
noncomputable def ELm1LX (m : ℕ) : Vec := fun j =>
  ex (I.K m (I.NLayers - 1) j * (I.tau0 I.NLayers - I.tau0 (I.NLayers - 1)))
/-- Lines 311 and 368: `E_lm1l`. -/
noncomputable def Elm1lX (m l : ℕ) : Vec := fun j =>
  ex (I.K m l (I.N + j) * (I.tau0 l - I.tau0 (l + 1)))
/-- Lines 312 and 369: `E_llp1`. -/
noncomputable def Ellp1X (m l : ℕ) : Vec := fun j =>
  ex (I.K m (l + 1) (I.N + j) * (I.tau0 (l + 1) - I.tau0 (l + 2)))

/-- Lines 288-293 and 344-349: the two bottom blocks, left. -/
noncomputable def botLX (m : ℕ) (R : Option Mat) : Mat := fun i j =>
  match R with
  | some R => (I.G m (I.NLayers - 1) i j
      - ∑ q ∈ range I.N, R i q * I.G m (I.NLayers - 1) (I.N + q) j) * I.ELm1LX ex m j
  | none => I.G m (I.NLayers - 1) i j * I.ELm1LX ex m j
/-- Lines 353-380: one iteration of the interlayer loop, dense storage. -/
noncomputable def denseInterX (m l : ℕ) (A : Mat) : Mat :=
  let N := I.N
  let sr := N + l * (2 * N)
  let sc := l * (2 * N)
  let A := setBlock A sr (N + sr) sc (N + sc) (fun i j => I.G m l i j * I.Elm1lX ex m l j)
  let A := setBlock A (N + sr) (2 * N + sr) sc (N + sc) (fun i j => I.G m l (N + i) j * I.Elm1lX ex m l j)
  let A := setBlock A sr (2 * N + sr) (N + sc) (2 * N + sc) (fun i j => I.G m l i (N + j))
  let A := setBlock A sr (2 * N + sr) (2 * N + sc) (3 * N + sc) (fun i j => -I.G m (l + 1) i j)
  let A := setBlock A sr (N + sr) (3 * N + sc) (4 * N + sc)
    (fun i j => -I.G m (l + 1) i (N + j) * I.Ellp1X ex m l j)
  setBlock A (N + sr) (2 * N + sr) (3 * N + sc) (4 * N + sc)
    (fun i j => -I.G m (l + 1) (N + i) (N + j) * I.Ellp1X ex m l j)

/-- Lines 340-380: the matrix of mode `m`, written over the previous content `A`. -/
noncomputable def denseX (m : ℕ) (R : Option Mat) (A : Mat) : Mat :=
  let N := I.N
  let A := setBlock A 0 N 0 N (fun i j => I.G m 0 (N + i) j)
  let A := setBlock A 0 N N (2 * N) (fun i j => I.G m 0 (N + i) (N + j) * I.E01X ex m j)
  let A := setBlock A (I.dim - N) I.dim (I.dim - 2 * N) (I.dim - N) (I.botLX ex m R)
  let A := setBlock A (I.dim - N) I.dim (I.dim - N) I.dim (I.botR m R)
  forRange (I.NLayers - 1) (fun l A => I.denseInterX ex m l A) A

/-- Lines 297-323: one iteration of the interlayer loop, banded storage. -/
noncomputable def bandInterX (m l : ℕ) (A : ℤ → ℝ) : ℤ → ℝ :=
  let N := I.N
  let sr := N + l * (2 * N)
  let sc := l * (2 * N)
  let A := I.writeSlanted A sr sc N (fun i j => I.G m l i j * I.Elm1lX ex m l j)
  let A := I.writeSlanted A (sr + N) sc N (fun i j => I.G m l (N + i) j * I.Elm1lX ex m l j)
  let A := I.writeSlanted A sr (sc + N) (2 * N) (fun i j => I.G m l i (N + j))
  let A := I.writeSlanted A sr (sc + 2 * N) (2 * N) (fun i j => -I.G m (l + 1) i j)
  let A := I.writeSlanted A sr (sc + 3 * N) N (fun i j => -I.G m (l + 1) i (N + j) * I.Ellp1X ex m l j)
  I.writeSlanted A (sr + N) (sc + 3 * N) N (fun i j => -I.G m (l + 1) (N + i) (N + j) * I.Ellp1X ex m l j)

/-- Lines 280-323: the banded matrix of mode `m`, written over the previous memory `A`. -/
noncomputable def bandX (m : ℕ) (R : Option Mat) (A : ℤ → ℝ) : ℤ → ℝ :=
  let N := I.N
  let A := I.writeSlanted A 0 0 N (fun i j => I.G m 0 (N + i) j)
  let A := I.writeSlanted A 0 N N (fun i j => I.G m 0 (N + i) (N + j) * I.E01X ex m j)
  let A := I.writeSlanted A (I.dim - N) (I.dim - 2 * N) N (I.botLX ex m R)
  let A := I.writeSlanted A (I.dim - N) (I.dim - N) N (I.botR m R)
  forRange (I.NLayers - 1) (fun l A => I.bandInterX ex m l A) A

end CoefIn

/-- Lines 111-388: one pass through the loop over Fourier modes. `solve_banded` is called with
`overwrite_ab=False, overwrite_b=True` (lines 326-333), so `RHS` afterwards is arbitrary: `junk m`. -/
noncomputable def coefBodyX (ex : ℝ → ℝ) (I : CoefIn) (junk : ℕ → Vec) (m : ℕ) (st : CoefState) : Py CoefState := do
  let R ← coefR I m
  let X ← coefX I m
  let bpos ← bcMode I.N m I.bposScalar I.bposVector I.bpos
  let bneg ← bcMode I.N m I.bnegScalar I.bnegVector I.bneg
  let r := I.rhsX ex m bneg bpos R X st.RHS
  if I.useBanded = true then
    let A := I.bandX ex m R st.dof
    let x ← npSolve I.dim (I.bandMat A) r
    return { st with RHS := junk m, dof := A, C := Function.update st.C m x }
  else
    let A := I.denseX ex m R st.LHS
    let x ← npSolve I.dim A r
    return { st with RHS := r, LHS := A, C := Function.update st.C m x }

/-- `_solve_for_coeffs`: returns `GC_collect` (line 390). `j` holds the uninitialised buffers. -/
noncomputable def solveCoeffsX (ex : ℝ → ℝ) (I : CoefIn) (j : CoefState) (junk : ℕ → Vec) : Py (ℕ → ℕ → Mat) := do
  let st ← forRangeM I.NFourier (coefBodyX ex I junk) ⟨j.RHS, fun _ _ => 0, fun _ => 0, j.C⟩
  return fun m l i k => I.G m l i k * st.C m (l * (2 * I.N) + k)

/-- Lines 109-163 of `_assemble_intensity_and_fluxes.py`. -/
noncomputable def solveAllX (ex : ℝ → ℝ) (E : Ext) (J : Junk) (I : AsmIn) : Py Sols := do
  let out ← genSol E J.gen I.genIn
  let GC ← solveCoeffsX ex (I.coefIn out) J.coef J.rhs
  return ⟨out.G, out.K, out.B, I.gim out.Ginv0, GC⟩

open Classical in
/-- `pydisort.py` 12-726 with `np.exp` in `_solve_for_coeffs.py` computing `ex`: whether the call returns, and what the returned functions start from. -/
noncomputable def pydisortX (ex : ℝ → ℝ) (E : Ext) (J : Junk) (a : Args) : Py Solved := do
  let p ← prepare E a
  let S ← solveAllX ex E J p.1
  return ⟨p.1, S, if a.NTGate then some p.2 else none, a.onlyFlux⟩

/-- Lines 197-247 of `_assemble_intensity_and_fluxes.py` (and 373-422): mode `m` in layer `l` at the delta-scaled depth `x`, stream `i`, without
`rescale_factor`. -/
noncomputable def AsmIn.layerX (I : AsmIn) (ex : ℝ → ℝ) (S : Sols) (m l : ℕ) (x : ℝ) (i : ℕ) : ℝ :=
  (∑ j ∈ range (2 * I.N), S.GC m l i j
      * ex (if j < I.N then S.K m l j * (x - I.tau0 l) else S.K m l j * (x - I.tau0 (l + 1))))
    + (if I.beam = true then S.B m l i * ex (-x / I.mu0) else 0)
    + if m = 0 ∧ I.iso = true then mathscrV (2 * I.N) I.Nscoeffs (I.s l) (S.G 0 l) (S.K 0 l) (S.Gim l) x i else 0

/-- Mode `m` at depth `t`, stream `i`: the layer is looked up (lines 185 and 349) and the depth is scaled (190-195, 354-369). -/
noncomputable def Solved.modeX (R : Solved) (ex : ℝ → ℝ) (m i : ℕ) (t : ℝ) : ℝ :=
  R.I.rescale * R.I.layerX ex R.S m (R.I.layer t) (R.I.scaledTau t) i

/-- Lines 334-433: `u0(tau)`. (Simplification: the two arrays that are added have the same shape, so that the sum is written elementwise; the antiderivative is
not modelled here.) -/
noncomputable def Solved.u0X (R : Solved) (ex : ℝ → ℝ) (tau : A1 ℝ) : Py (A2 ℝ) := do
  R.I.checkTau tau
  return ⟨2 * R.I.N, tau.n, fun i t => R.modeX ex 0 i (tau.get t)⟩

end Pydisort

import Verif.NumPy
import Verif.Spec.Legendre
import Mathlib.Analysis.SpecialFunctions.Gamma.Basic

/-!
# Model of `_solve_for_gen_and_part_sols.py`
-/

namespace Pydisort

/-- Routines that are not modelled from their definition but as arbitrary functions.
Properties that need a fact about them state it as a hypothesis. -/
structure Ext where
  /-- `np.linalg.eig` on one real `n × n` matrix: eigenvalues and the matrix of eigenvectors
  (columns). The result is assumed real. -/
  eig : (n : ℕ) → Matrix (Fin n) (Fin n) ℝ → Vec × Mat
  /-- `np.polynomial.legendre.leggauss(n)`: nodes and weights on `[-1, 1]`. -/
  leggauss : ℕ → Vec × Vec

/-- Arguments of `_solve_for_gen_and_part_sols` (lines 5-16). `NQuad` is `2 * N` (the number of streams
has been checked to be even, `pydisort.py` 254). -/
structure GenIn where
  NFourier : ℕ
  omega : Vec
  mu : Vec
  M_inv : Vec
  W : Vec
  N : ℕ
  NLeg : ℕ
  NLayers : ℕ
  wLeg : Mat
  mu0 : ℝ
  I0div4pi : ℝ
  beam : Bool
  iso : Bool

/-- `sc.special.poch(z, k) = Γ(z + k) / Γ(z)`. -/
noncomputable def scPoch (z k : ℝ) : ℝ := Real.Gamma (z + k) / Real.Gamma z

namespace GenIn
variable (I : GenIn)

/-- Line 96: `poch(ells + m + 1, -2m)`, entry `k`, i.e. degree `m + k`. -/
noncomputable def poch (m k : ℕ) : ℝ := scPoch (((m + k : ℕ) : ℝ) + m + 1) (-2 * m)

/-- Lines 64-65 and 97: `signs`. -/
def signs (k : ℕ) : ℝ := if k % 2 = 1 then -1 else 1

/-- Lines 99-106: `asso_leg_term_pos[k, i]`. -/
noncomputable def alpP (m k i : ℕ) : ℝ := Spec.assocLegendre m (m + k) (I.mu i)

/-- Line 108: `asso_leg_term_neg[k, i]`. -/
noncomputable def alpN (m k i : ℕ) : ℝ := I.alpP m k i * signs k

/-- Line 103: `scalar_fac_asso_leg_term_mu0[k]` (the last column of `lpmv_all` is at `-mu0`). -/
noncomputable def scalarFac (m k : ℕ) : ℝ :=
  I.I0div4pi * (2 - if m = 0 then 1 else 0) * poch m k * Spec.assocLegendre m (m + k) (-I.mu0)

/-- Lines 115-117: `omega_times_Leg_coeffs[k]`. -/
noncomputable def omLeg (m l k : ℕ) : ℝ := I.omega l / 2 * I.wLeg l (m + k)

/-- Line 119: is multiple scattering significant? -/
def scatters (m l : ℕ) : Prop := ∃ k < I.NLeg - m, |I.omLeg m l k| > 1 / 10 ^ 8

/-- Lines 109 and 123: `D_temp[i, k]`. -/
noncomputable def Dtemp (m l i k : ℕ) : ℝ := I.omLeg m l k * (poch m k * I.alpP m k i)

/-- Line 124. -/
noncomputable def Dpos (m l : ℕ) : Mat :=
  fun i j => ∑ k ∈ Finset.range (I.NLeg - m), I.Dtemp m l i k * I.alpP m k j
/-- Line 125. -/
noncomputable def Dneg (m l : ℕ) : Mat :=
  fun i j => ∑ k ∈ Finset.range (I.NLeg - m), I.Dtemp m l i k * I.alpN m k j

/-- Lines 132-134 (`DW.ravel()[::N+1] -= 1` is the diagonal). -/
noncomputable def alpha (m l : ℕ) : Mat :=
  fun i j => I.M_inv i * (I.Dpos m l i j * I.W j - if i = j then 1 else 0)
/-- Line 135. -/
noncomputable def beta (m l : ℕ) : Mat := fun i j => I.M_inv i * I.Dneg m l i j * I.W j

/-- Lines 143-147. -/
noncomputable def Xtemp (m l k : ℕ) : ℝ := I.scalarFac m k * I.omega l * I.wLeg l (m + k)
/-- Line 148. -/
noncomputable def Xpos (m l : ℕ) : Vec :=
  fun i => ∑ k ∈ Finset.range (I.NLeg - m), I.Xtemp m l k * I.alpP m k i
/-- Line 149. -/
noncomputable def Xneg (m l : ℕ) : Vec :=
  fun i => ∑ k ∈ Finset.range (I.NLeg - m), I.Xtemp m l k * I.alpN m k i
/-- Lines 151-152: one row of `X_arr`. -/
noncomputable def Xrow (m l : ℕ) : Vec :=
  fun i => if i < I.N then I.M_inv i * I.Xpos m l i else -I.M_inv (i - I.N) * I.Xneg m l (i - I.N)

end GenIn

open Classical in
/-- Lines 67-70: `G_trivial`, written through its flattened view with stride `NQuad + 1`. -/
noncomputable def gTrivial (N : ℕ) : Mat := fun i j =>
  if (∃ t < N, i * (2 * N) + j = N + t * (2 * N + 1)) ∨
     (∃ t < N, i * (2 * N) + j = 2 * N * N + t * (2 * N + 1)) then 1 else 0

/-- Lines 165-166: eigenvalues of the shortcut. -/
def kTrivial (N : ℕ) (M_inv : Vec) : Vec := fun i => if i < N then -M_inv i else M_inv (i - N)

/-- Mutable state of the double loop, lines 72-85. The arrays are created by `np.empty`, i.e. with
arbitrary initial content. -/
structure GenState where
  ind : ℕ
  G : ℕ → Mat
  K : ℕ → Vec
  A : ℕ → Mat
  X : ℕ → Vec
  Ginv0 : ℕ → Mat
  ns : List ℕ
  ns0 : List ℕ

open Classical in
/-- Body of the inner loop, lines 115-170. -/
noncomputable def genBody (I : GenIn) (m l : ℕ) (s : GenState) : GenState :=
  if I.scatters m l then
    { s with
      X := if I.beam then Function.update s.X s.ind (I.Xrow m l) else s.X
      A := Function.update s.A s.ind
        (setBlock (setBlock (s.A s.ind) I.N (2 * I.N) 0 I.N (I.beta m l))
          I.N (2 * I.N) I.N (2 * I.N) (I.alpha m l))
      ns := s.ns ++ [s.ind]
      ns0 := if m = 0 ∧ I.iso = true then s.ns0 ++ [l] else s.ns0
      ind := s.ind + 1 }
  else
    { s with
      G := Function.update s.G s.ind (gTrivial I.N)
      K := Function.update s.K s.ind (kTrivial I.N I.M_inv)
      Ginv0 := if m = 0 ∧ I.iso = true then Function.update s.Ginv0 l (gTrivial I.N) else s.Ginv0
      ind := s.ind + 1 }

/-- Lines 91-170: the double loop. -/
noncomputable def genLoop (I : GenIn) (s : GenState) : GenState :=
  forRange I.NFourier (fun m s => forRange I.NLayers (fun l s => genBody I m l s) s) s

/-- Lines 179-198 for one matrix of the batch: eigenvalues `K` and eigenvector matrix `G` assembled
from four blocks, from `alpha`, `beta` and the result of `eig((alpha-beta)(alpha+beta))`. -/
noncomputable def eigK (N : ℕ) (lam : Vec) : Vec :=
  fun i => if i < N then -Real.sqrt (lam i) else Real.sqrt (lam (i - N))

/-- Line 190: half of the eigenvectors. -/
noncomputable def gpg (V : Mat) : Mat := fun i j => V i j / 2
/-- Line 191. -/
noncomputable def gmg (N : ℕ) (apb : Mat) (lam : Vec) (V : Mat) : Mat :=
  matMul N apb (fun i j => gpg V i j / Real.sqrt (lam j))

/-- Lines 192-198. -/
noncomputable def gBlocks (N : ℕ) (P M old : Mat) : Mat :=
  setBlock (setBlock (setBlock (setBlock old
    0 N 0 N (fun i j => P i j + M i j))
    N (2 * N) N (2 * N) (fun i j => P i j + M i j))
    0 N N (2 * N) (fun i j => P i j - M i j))
    N (2 * N) 0 N (fun i j => P i j - M i j)

/-- Results of `_solve_for_gen_and_part_sols` after the final reshapes. `B` and `Ginv0` are returned by
the code only when there is a beam, respectively an isotropic source. -/
structure GenOut where
  G : ℕ → ℕ → Mat
  K : ℕ → ℕ → Vec
  B : ℕ → ℕ → Vec
  Ginv0 : ℕ → Mat

/-- Lines 227-229: the full matrix `A + 1/mu0` whose lower half is given. -/
noncomputable def fullA (N : ℕ) (mu0 : ℝ) (A : Mat) : Mat :=
  let A1 := setBlock A 0 N N (2 * N) (fun i j => -A (N + i) j)
  let A2 := setBlock A1 0 N 0 N (fun i j => -A1 (N + i) (N + j))
  fun i j => A2 i j + if i = j then 1 / mu0 else 0

/-- Lines 173-175: `A_arr[no_shortcut_indices]`, entry `k` of the batch. -/
def batchA (s : GenState) (k : ℕ) : Mat := s.A (s.ns.getD k 0)
/-- Lines 174-179: `alpha + beta` for entry `k` of the batch. -/
def batchApb (N : ℕ) (s : GenState) (k : ℕ) : Mat :=
  fun i j => batchA s k (N + i) (N + j) + batchA s k (N + i) j
/-- Lines 174-180: `alpha - beta`. -/
def batchAmb (N : ℕ) (s : GenState) (k : ℕ) : Mat :=
  fun i j => batchA s k (N + i) (N + j) - batchA s k (N + i) j
/-- Lines 181-183. -/
def batchEig (E : Ext) (N : ℕ) (s : GenState) (k : ℕ) : Vec × Mat :=
  E.eig N (toM N (matMul N (batchAmb N s k) (batchApb N s k)))
/-- Lines 190-198 (the four block writes for each index are performed together). -/
noncomputable def finG (E : Ext) (N : ℕ) (s : GenState) : ℕ → Mat :=
  scatter s.ns (fun k => gBlocks N (gpg (batchEig E N s k).2)
    (gmg N (batchApb N s k) (batchEig E N s k).1 (batchEig E N s k).2) (s.G (s.ns.getD k 0))) s.G
/-- Lines 186-187 and 200. -/
noncomputable def finK (E : Ext) (N : ℕ) (s : GenState) : ℕ → Vec :=
  scatter s.ns (fun k => eigK N (batchEig E N s k).1) s.K
/-- Lines 201-205. -/
noncomputable def finGinv (N : ℕ) (G : ℕ → Mat) (s : GenState) : Py (ℕ → Mat) :=
  if s.ns0.length > 0 then do
    let inv ← npInvBatch s.ns0.length (2 * N) (fun k => G (s.ns0.getD k 0))
    return scatter s.ns0 inv s.Ginv0
  else return s.Ginv0
/-- Lines 213-222. -/
noncomputable def finB1 (N : ℕ) (mu0 : ℝ) (G : ℕ → Mat) (K : ℕ → Vec) (Ginv0 : ℕ → Mat)
    (s : GenState) : ℕ → Vec :=
  if s.ns0.length > 0 then
    scatter s.ns0 (fun k i => ∑ j ∈ Finset.range (2 * N), ∑ q ∈ Finset.range (2 * N),
      G (s.ns0.getD k 0) i j / (1 / mu0 + K (s.ns0.getD k 0) j) * Ginv0 (s.ns0.getD k 0) j q
        * s.X (s.ns0.getD k 0) q) (fun _ _ => 0)
  else fun _ _ => 0
/-- Line 223. -/
def finNs (s : GenState) : List ℕ := if s.ns0.length > 0 then s.ns.drop s.ns0.length else s.ns
/-- Lines 225-231. -/
noncomputable def finB (N : ℕ) (mu0 : ℝ) (B1 : ℕ → Vec) (s : GenState) : Py (ℕ → Vec) :=
  if (finNs s).length > 0 then do
    let x ← npSolveBatch (finNs s).length (2 * N)
      (fun k => fullA N mu0 (batchA s (s.ns0.length + k))) (fun k => s.X ((finNs s).getD k 0))
    return scatter (finNs s) x B1
  else return B1

/-- Lines 83, 209-231: the beam particular solution. -/
noncomputable def finBeam (I : GenIn) (G : ℕ → Mat) (K : ℕ → Vec) (Ginv0 : ℕ → Mat) (s : GenState) :
    Py (ℕ → Vec) :=
  if I.beam = true then finB I.N I.mu0 (finB1 I.N I.mu0 G K Ginv0 s) s else .ok (fun _ _ => 0)

/-- Lines 235-243: reshape `(NFourier * NLayers, …)` to `(NFourier, NLayers, …)`. -/
def genReshape (NLayers : ℕ) (G : ℕ → Mat) (K B : ℕ → Vec) (Ginv0 : ℕ → Mat) : GenOut :=
  ⟨fun m l => G (m * NLayers + l), fun m l => K (m * NLayers + l), fun m l => B (m * NLayers + l), Ginv0⟩

/-- Lines 172-243, starting from the state after the loops. -/
noncomputable def genFinish (E : Ext) (I : GenIn) (s : GenState) : Py GenOut :=
  if s.ns.length > 0 then do
    let G := finG E I.N s
    let K := finK E I.N s
    let Ginv0 ← finGinv I.N G s
    let B ← finBeam I G K Ginv0 s
    return genReshape I.NLayers G K B Ginv0
  else
    return genReshape I.NLayers s.G s.K (fun _ _ => 0) s.Ginv0

/-- The initial state; the five arrays hold arbitrary (`np.empty`) data. -/
def genInit (junk : GenState) : GenState := { junk with ind := 0, ns := [], ns0 := [] }

/-- `_solve_for_gen_and_part_sols`. -/
noncomputable def genSol (E : Ext) (junk : GenState) (I : GenIn) : Py GenOut :=
  genFinish E I (genLoop I (genInit junk))

end Pydisort

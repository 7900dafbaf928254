import Verif.Model.Poch
import Verif.Model.Endless

/-!
# Model of `_solve_for_gen_and_part_sols.py` with Legendre functions that may overflow

`lp m ℓ x` is what `sc.special.lpmv(m, ℓ, x)` computes: a number, an infinity or NaN. `po m k` is the entry of `poch` for degree `m + k`, as in `Model/Poch.lean`. The arrays
`A_arr` and `X_arr` hold such values; all other arithmetic is exact. (Simplifications: sums are added from left to right, products of matrices with infinities or NaN follow the rules for
single numbers, and what happens with a beam source `X_arr` that is not finite is left open.)
-/

namespace Pydisort

namespace GenIn
variable (I : GenIn) (po : ℕ → ℕ → ℝ) (lp : ℕ → ℕ → ℝ → Fl)

/-- Lines 99-106: `asso_leg_term_pos[k, i]`. -/
def alpPF (m k i : ℕ) : Fl := lp m (m + k) (I.mu i)
/-- Line 108: `asso_leg_term_neg[k, i]`. -/
noncomputable def alpNF (m k i : ℕ) : Fl := Fl.mul (I.alpPF lp m k i) (.fin (signs k))
/-- Line 103: `scalar_fac_asso_leg_term_mu0[k]`. -/
noncomputable def scalarFacF (m k : ℕ) : Fl :=
  Fl.mul (.fin (I.I0div4pi * (2 - if m = 0 then 1 else 0) * po m k)) (lp m (m + k) (-I.mu0))
/-- Lines 109 and 123: `D_temp[i, k]`. -/
noncomputable def DtempF (m l i k : ℕ) : Fl := Fl.mul (.fin (I.omLeg m l k)) (Fl.mul (.fin (po m k)) (I.alpPF lp m k i))
/-- Line 124. -/
noncomputable def DposF (m l i j : ℕ) : Fl := Fl.sum (I.NLeg - m) fun k => Fl.mul (I.DtempF po lp m l i k) (I.alpPF lp m k j)
/-- Line 125. -/
noncomputable def DnegF (m l i j : ℕ) : Fl := Fl.sum (I.NLeg - m) fun k => Fl.mul (I.DtempF po lp m l i k) (I.alpNF lp m k j)
/-- Lines 132-134. -/
noncomputable def alphaF (m l i j : ℕ) : Fl :=
  Fl.mul (.fin (I.M_inv i)) (Fl.sub (Fl.mul (I.DposF po lp m l i j) (.fin (I.W j))) (.fin (if i = j then 1 else 0)))
/-- Line 135. -/
noncomputable def betaF (m l i j : ℕ) : Fl := Fl.mul (Fl.mul (.fin (I.M_inv i)) (I.DnegF po lp m l i j)) (.fin (I.W j))
/-- Lines 143-147. -/
noncomputable def XtempF (m l k : ℕ) : Fl := Fl.mul (Fl.mul (I.scalarFacF po lp m k) (.fin (I.omega l))) (.fin (I.wLeg l (m + k)))
/-- Line 148. -/
noncomputable def XposF (m l i : ℕ) : Fl := Fl.sum (I.NLeg - m) fun k => Fl.mul (I.XtempF po lp m l k) (I.alpPF lp m k i)
/-- Line 149. -/
noncomputable def XnegF (m l i : ℕ) : Fl := Fl.sum (I.NLeg - m) fun k => Fl.mul (I.XtempF po lp m l k) (I.alpNF lp m k i)
/-- Lines 151-152: one row of `X_arr`. -/
noncomputable def XrowF (m l i : ℕ) : Fl :=
  if i < I.N then Fl.mul (.fin (I.M_inv i)) (I.XposF po lp m l i) else Fl.mul (.fin (-I.M_inv (i - I.N))) (I.XnegF po lp m l (i - I.N))

end GenIn

/-- Mutable state of the double loop, lines 72-85, as in `GenState`. -/
structure GenStateF where
  ind : ℕ
  G : ℕ → Mat
  K : ℕ → Vec
  A : ℕ → ℕ → ℕ → Fl
  X : ℕ → ℕ → Fl
  Ginv0 : ℕ → Mat
  ns : List ℕ
  ns0 : List ℕ

/-- The numbers in the arrays, for the lines that are reached with finite numbers only. -/
noncomputable def GenStateF.val (s : GenStateF) : GenState :=
  ⟨s.ind, s.G, s.K, fun i j k => (s.A i j k).val, fun i j => (s.X i j).val, s.Ginv0, s.ns, s.ns0⟩

open Classical in
/-- Body of the inner loop, lines 115-170. -/
noncomputable def genBodyF (po : ℕ → ℕ → ℝ) (lp : ℕ → ℕ → ℝ → Fl) (I : GenIn) (m l : ℕ) (s : GenStateF) : GenStateF :=
  if I.scatters m l then
    { s with
      X := if I.beam then Function.update s.X s.ind (I.XrowF po lp m l) else s.X
      A := Function.update s.A s.ind
        (setBlockF (setBlockF (s.A s.ind) I.N (2 * I.N) 0 I.N (I.betaF po lp m l))
          I.N (2 * I.N) I.N (2 * I.N) (I.alphaF po lp m l))
      ns := s.ns ++ [s.ind]
      ns0 := if m = 0 ∧ I.iso = true then s.ns0 ++ [l] else s.ns0
      ind := s.ind + 1 }
  else
    { s with
      G := Function.update s.G s.ind (gTrivial I.N)
      K := Function.update s.K s.ind (kTrivial I.N I.M_inv)
      Ginv0 := if m = 0 ∧ I.iso = true then Function.update s.Ginv0 l (gTrivial I.N) else s.Ginv0
      ind := s.ind + 1 }

/-- Lines 91-170: the double loop. -/
noncomputable def genLoopF (po : ℕ → ℕ → ℝ) (lp : ℕ → ℕ → ℝ → Fl) (I : GenIn) (s : GenStateF) : GenStateF :=
  forRange I.NFourier (fun m s => forRange I.NLayers (fun l s => genBodyF po lp I m l s) s) s

/-- Lines 173-180: `alpha + beta` for entry `k` of the batch. -/
noncomputable def batchApbF (N : ℕ) (s : GenStateF) (k i j : ℕ) : Fl :=
  Fl.add (s.A (s.ns.getD k 0) (N + i) (N + j)) (s.A (s.ns.getD k 0) (N + i) j)
/-- Lines 173-180: `alpha - beta`. -/
noncomputable def batchAmbF (N : ℕ) (s : GenStateF) (k i j : ℕ) : Fl :=
  Fl.sub (s.A (s.ns.getD k 0) (N + i) (N + j)) (s.A (s.ns.getD k 0) (N + i) j)
/-- Lines 181-183: the matrices given to `np.linalg.eig`. -/
noncomputable def batchProdF (N : ℕ) (s : GenStateF) (k i j : ℕ) : Fl :=
  Fl.sum N fun q => Fl.mul (batchAmbF N s k i q) (batchApbF N s k q j)

open Classical in
/-- Lines 172-243: `np.linalg.eig` raises `LinAlgError` when one of the numbers in its argument is not finite. `rest` is what is done with a beam source that is not
finite. -/
noncomputable def genFinishF (rest : GenStateF → Py GenOut) (E : Ext) (I : GenIn) (s : GenStateF) : Py GenOut :=
  if ∃ k < s.ns.length, ∃ i < I.N, ∃ j < I.N, ¬ (batchProdF I.N s k i j).Finite then .error .linAlgError
  else if I.beam = true ∧ ∃ k < s.ns.length, ∃ i < 2 * I.N, ¬ (s.X (s.ns.getD k 0) i).Finite then rest s
  else genFinish E I s.val

/-- Lines 72-85: the initial state. -/
def genInitF (junk : GenStateF) : GenStateF := { junk with ind := 0, ns := [], ns0 := [] }

/-- `_solve_for_gen_and_part_sols`. -/
noncomputable def genSolF (po : ℕ → ℕ → ℝ) (lp : ℕ → ℕ → ℝ → Fl) (rest : GenStateF → Py GenOut) (E : Ext) (junk : GenStateF) (I : GenIn) : Py GenOut :=
  genFinishF rest E I (genLoopF po lp I (genInitF junk))

/-- Lines 109-163 of `_assemble_intensity_and_fluxes.py`. -/
noncomputable def solveAllF (po : ℕ → ℕ → ℝ) (lp : ℕ → ℕ → ℝ → Fl) (rest : GenStateF → Py GenOut) (E : Ext) (junk : GenStateF) (J : Junk) (I : AsmIn) : Py Sols := do
  let out ← genSolF po lp rest E junk I.genIn
  let GC ← solveCoeffs (I.coefIn out) J.coef J.rhs
  return ⟨out.G, out.K, out.B, I.gim out.Ginv0, GC⟩

open Classical in
/-- `pydisort.py` 12-726 with `lpmv` computed as `lp` and `poch` as `po`. -/
noncomputable def pydisortL (po : ℕ → ℕ → ℝ) (lp : ℕ → ℕ → ℝ → Fl) (rest : GenStateF → Py GenOut) (E : Ext) (junk : GenStateF) (J : Junk) (a : Args) : Py Solved := do
  let p ← prepare E a
  let S ← solveAllF po lp rest E junk J p.1
  return ⟨p.1, S, if a.NTGate then some p.2 else none, a.onlyFlux⟩

end Pydisort

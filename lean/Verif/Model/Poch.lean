import Verif.Model.Pydisort

/-!
# Model of `_solve_for_gen_and_part_sols.py` with the factorial quotients left open

The definitions of `Model/GenSol.lean` that use the array `poch` of line 96, with its entries as a parameter `po`: `po m k` is what `sc.special.poch` computes for
Fourier mode `m` and degree `m + k`. In double precision it is not the quotient `(ℓ-m)!/(ℓ+m)!`: it is zero once the quotient is too small. Everything else is exact, as
in `Model/GenSol.lean`; with the exact quotients the definitions are those of that file (`C136_exact`). (Simplification: `sc.special.lpmv` does not
overflow; `Model/Overflow.lean` says what happens if it does.)
-/

namespace Pydisort

namespace GenIn
variable (I : GenIn) (po : ℕ → ℕ → ℝ)

/-- Line 103: `scalar_fac_asso_leg_term_mu0[k]`. -/
noncomputable def scalarFacP (m k : ℕ) : ℝ :=
  I.I0div4pi * (2 - if m = 0 then 1 else 0) * po m k * Spec.assocLegendre m (m + k) (-I.mu0)

/-- Lines 109 and 123: `D_temp[i, k]`. -/
noncomputable def DtempP (m l i k : ℕ) : ℝ := I.omLeg m l k * (po m k * I.alpP m k i)

/-- Line 124. -/
noncomputable def DposP (m l : ℕ) : Mat :=
  fun i j => ∑ k ∈ Finset.range (I.NLeg - m), I.DtempP po m l i k * I.alpP m k j
/-- Line 125. -/
noncomputable def DnegP (m l : ℕ) : Mat :=
  fun i j => ∑ k ∈ Finset.range (I.NLeg - m), I.DtempP po m l i k * I.alpN m k j

/-- Lines 132-134. -/
noncomputable def alphaP (m l : ℕ) : Mat :=
  fun i j => I.M_inv i * (I.DposP po m l i j * I.W j - if i = j then 1 else 0)
/-- Line 135. -/
noncomputable def betaP (m l : ℕ) : Mat := fun i j => I.M_inv i * I.DnegP po m l i j * I.W j

/-- Lines 143-147. -/
noncomputable def XtempP (m l k : ℕ) : ℝ := I.scalarFacP po m k * I.omega l * I.wLeg l (m + k)
/-- Line 148. -/
noncomputable def XposP (m l : ℕ) : Vec :=
  fun i => ∑ k ∈ Finset.range (I.NLeg - m), I.XtempP po m l k * I.alpP m k i
/-- Line 149. -/
noncomputable def XnegP (m l : ℕ) : Vec :=
  fun i => ∑ k ∈ Finset.range (I.NLeg - m), I.XtempP po m l k * I.alpN m k i
/-- Lines 151-152: one row of `X_arr`. -/
noncomputable def XrowP (m l : ℕ) : Vec :=
  fun i => if i < I.N then I.M_inv i * I.XposP po m l i else -I.M_inv (i - I.N) * I.XnegP po m l (i - I.N)

end GenIn

open Classical in
/-- Body of the inner loop, lines 115-170. The test on line 119 does not look at `poch`. -/
noncomputable def genBodyP (po : ℕ → ℕ → ℝ) (I : GenIn) (m l : ℕ) (s : GenState) : GenState :=
  if I.scatters m l then
    { s with
      X := if I.beam then Function.update s.X s.ind (I.XrowP po m l) else s.X
      A := Function.update s.A s.ind
        (setBlock (setBlock (s.A s.ind) I.N (2 * I.N) 0 I.N (I.betaP po m l))
          I.N (2 * I.N) I.N (2 * I.N) (I.alphaP po m l))
      ns := s.ns ++ [s.ind]
      ns0 := if m = 0 ∧ I.iso = true then s.ns0 ++ [l] else s.ns0
      ind := s.ind + 1 }
  else
    { s with
      G := Function.update s.G s.ind (gTrivial I.N)
      K := Function.update s.K s.ind (kTrivial I.N I.M_inv)
      Ginv0 := if m = 0 ∧ I.iso = true then Function.update s.Ginv0 l (gTrivial I.N) else s.Ginv0
      ind := s.ind + 1 }

/-- Lines 91-170: the double loop. -/
noncomputable def genLoopP (po : ℕ → ℕ → ℝ) (I : GenIn) (s : GenState) : GenState :=
  forRange I.NFourier (fun m s => forRange I.NLayers (fun l s => genBodyP po I m l s) s) s

/-- `_solve_for_gen_and_part_sols`. -/
noncomputable def genSolP (po : ℕ → ℕ → ℝ) (E : Ext) (junk : GenState) (I : GenIn) : Py GenOut :=
  genFinish E I (genLoopP po I (genInit junk))

/-- Lines 109-163 of `_assemble_intensity_and_fluxes.py`. -/
noncomputable def solveAllP (po : ℕ → ℕ → ℝ) (E : Ext) (J : Junk) (I : AsmIn) : Py Sols := do
  let out ← genSolP po E J.gen I.genIn
  let GC ← solveCoeffs (I.coefIn out) J.coef J.rhs
  return ⟨out.G, out.K, out.B, I.gim out.Ginv0, GC⟩

open Classical in
/-- `pydisort.py` 12-726 with `poch` computed as `po`. -/
noncomputable def pydisortP (po : ℕ → ℕ → ℝ) (E : Ext) (J : Junk) (a : Args) : Py Solved := do
  let p ← prepare E a
  let S ← solveAllP po E J p.1
  return ⟨p.1, S, if a.NTGate then some p.2 else none, a.onlyFlux⟩

end Pydisort

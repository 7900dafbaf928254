import Verif.Spec.Resonance
import Verif.SuccessLemmas
import Mathlib.LinearAlgebra.Matrix.Charpoly.Coeff

/-! Resonance, the reduced matrix and the beam system. -/

namespace Pydisort
open Finset Spec

variable {E : Ext} {a : Args}

theorem accepted_of_withoutBeam (h : Accepted (withoutBeam a)) (hb : BeamInRange E a) : Accepted a :=
  { h with
    beam := hb.intensity.le
    beamDir := fun _ => ⟨hb.direction, hb.azimuth⟩ }

/-- A number is an eigenvalue if its difference with the matrix is singular. -/
theorem eigenvalue_of_det {n : ℕ} {A V : Mat} {d : Vec} {c : ℝ} (hb : IsEigenBasis n A d V)
    (hdet : (toM n (fun i j => A i j - if i = j then c else 0)).det = 0) : ∃ k < n, d k = c := by
  by_contra hne
  push Not at hne
  have e : toM n (fun i j => A i j - if i = j then c else 0) * toM n V = toM n V * Matrix.diagonal (fun k : Fin n => d k - c) := by
    ext i j
    rw [Matrix.mul_apply, Matrix.mul_diagonal]
    simp only [toM]
    have h1 := hb.2 i i.2 j j.2
    rw [Finset.sum_range] at h1
    simp only [sub_mul, sum_sub_distrib, h1]
    simp [Fin.val_inj]
    ring
  have h2 := congrArg Matrix.det e
  rw [Matrix.det_mul, Matrix.det_mul, hdet, zero_mul, Matrix.det_diagonal] at h2
  rcases mul_eq_zero.1 h2.symm with h | h
  · exact hb.1 h
  · obtain ⟨k, _, hk⟩ := Finset.prod_eq_zero_iff.1 h
    exact hne k k.2 (by linarith)

section
variable {O : Optics} {r : ℝ} {m l : ℕ}

/-- A resonant slot makes the beam system singular. -/
theorem resonant_singular (hs : Args.OpticsSpec a O) (hg : GaussContract E (nHalf a)) (hl : l < a.tauArr.n)
    (h : Resonant a (node E a) (weight E a) m l) :
    (toM (2 * nHalf a) (fun i j => (a.asm E O r).genIn.coefA m l i j + if i = j then 1 / a.mu0 else 0)).det = 0 := by
  obtain ⟨hsig, v, ⟨i0, hi0, hv0⟩, hv⟩ := h
  by_contra hdet
  refine hv0 (inj_of_det hdet (x := v) (fun i hi => ?_) i0 hi0)
  have hsc := (asm_scatters (E := E) (r := r) hs hl m).2 hsig
  have e1 := effA_spec (E := E) (r := r) hs hg hl m v hi
  rw [← hv i hi] at e1
  have hst : stream (nHalf a) (node E a) i ≠ 0 := by
    unfold stream
    split_ifs with h
    · exact (node_pos hg h).1.ne'
    · exact neg_ne_zero.2 (node_pos hg (by omega)).1.ne'
  have e2 := mul_left_cancel₀ hst e1
  unfold GenIn.effA at e2
  rw [if_pos hsc] at e2
  have e3 : mulVec (2 * nHalf a) (fun i j => (a.asm E O r).genIn.coefA m l i j + if i = j then 1 / a.mu0 else 0) v i
      = mulVec (2 * nHalf a) ((a.asm E O r).genIn.coefA m l) v i + 1 / a.mu0 * v i := by
    unfold mulVec
    simp_rw [add_mul, sum_add_distrib]
    congr 1
    simp [hi]
  rw [e3, e2]
  ring

/-- In terms of the reduced matrix. -/
theorem resonant_iff (hacc : Accepted (withoutBeam a)) (hsh : a.s.r = 1 ∨ a.s.r = a.tauArr.n) (hg : GaussContract E (nHalf a)) (hE : EigContract E)
    (hreg : Regular a (node E a) (weight E a)) (hmu : 0 < a.mu0) (hm : m < nFourier a) (hl : l < a.tauArr.n) :
    Resonant a (node E a) (weight E a) m l ↔ Significant (omegaStar a l) (nLeg a) (legStar a l) m ∧
      (toM (nHalf a) (fun i j => reduced (nHalf a) (node E a) (weight E a) (kernel a m l) i j
        - if i = j then 1 / a.mu0 ^ 2 else 0)).det = 0 := by
  obtain ⟨O, hO⟩ := optics_isOk hacc hsh
  have hO' : a.optics = .ok O := hO
  have hs' := Args.optics_spec hacc hO
  have hs : Args.OpticsSpec a O := { hs' with }
  constructor
  · intro h
    refine ⟨h.1, ?_⟩
    by_contra hdet
    obtain ⟨hb, he⟩ := eigOK_of (r := 1) hs hE hl h.1 (hreg m hm l hl h.1)
    exact beam_det he hb.1 (fun j hj => eigK_nonres hmu hb he.2 hdet hj) (resonant_singular (r := 1) hs hg hl h)
  · rintro ⟨hsig, hdet⟩
    refine ⟨hsig, ?_⟩
    obtain ⟨hb, he⟩ := eigOK_of (r := 1) hs hE hl hsig (hreg m hm l hl hsig)
    obtain ⟨k, hk, hd⟩ := eigenvalue_of_det hb hdet
    have hsc := (asm_scatters (E := E) (r := 1) hs hl m).2 hsig
    have hK : eigK (nHalf a) ((a.asm E O 1).genIn.ev E m l).1 k = -(1 / a.mu0) := by
      unfold eigK
      rw [if_pos hk, hd]
      congr 1
      rw [show 1 / a.mu0 ^ 2 = (1 / a.mu0) ^ 2 by ring, Real.sqrt_sq (by positivity)]
    refine ⟨fun q => (a.asm E O 1).genIn.gScat E m l q k, ?_, fun i hi => ?_⟩
    · by_contra hz
      push Not at hz
      refine gScat_det he hb.1 (Matrix.det_eq_zero_of_column_eq_zero ⟨k, by change k < 2 * nHalf a; omega⟩ fun i => ?_)
      exact hz i i.2
    · refine Eq.trans ?_ (effA_spec (E := E) (r := 1) hs hg hl m (fun q => (a.asm E O 1).genIn.gScat E m l q k) hi)
      congr 1
      unfold GenIn.effA
      rw [if_pos hsc]
      rw [← hK]
      exact (scat_eigen he (i := i) (j := k) hi (by change k < 2 * nHalf a; omega)).symm

end

/-- `genSol` raises nothing but `LinAlgError`. -/
theorem genSol_error {junk : GenState} {I : GenIn} {e : PyErr} (h : genSol E junk I = .error e) : e = .linAlgError := by
  unfold genSol genFinish at h
  split_ifs at h with h0
  · simp only [bind, Except.bind, pure, Except.pure] at h
    rcases hG : finGinv I.N (finG E I.N (genLoop I (genInit junk))) (genLoop I (genInit junk)) with e' | Gi
    · rw [hG] at h
      simp only [Except.error.injEq] at h
      subst h
      unfold finGinv npInvBatch at hG
      split_ifs at hG <;> simp_all [bind, Except.bind, pure, Except.pure]
    · rw [hG] at h
      simp only at h
      rcases hB : finBeam I (finG E I.N (genLoop I (genInit junk))) (finK E I.N (genLoop I (genInit junk))) Gi
        (genLoop I (genInit junk)) with e' | B
      · rw [hB] at h
        simp only [Except.error.injEq] at h
        subst h
        unfold finBeam finB npSolveBatch at hB
        split_ifs at hB <;> simp_all [bind, Except.bind, pure, Except.pure]
      · rw [hB] at h; cases h
  · cases h

end Pydisort

import Verif.Props.Anti
import Verif.Props.CorrAnti

/-!
# C37 with the NT corrections
-/

namespace Pydisort
open Finset Spec

variable {E : Ext} {J : Junk} {a : Args} {R : Solved}

theorem corrVal_continuous (n : NTIn) (i l : ℕ) (ph : ℝ) : Continuous fun t => n.corrVal false i l t ph := by
  unfold NTIn.corrVal NTIn.tmsVal NTIn.tmsOwn NTIn.st imsChi
  simp only [Bool.false_eq_true, if_false]
  split_ifs <;> fun_prop

/-- **C37 with the NT corrections, the part that is true.** Without an internal source (or with a single layer), and if the delta-M scale factor is
the same in all layers, the returned `u(tau, phi, True)` is an antiderivative of the returned `u(tau, phi)` in depth, for every azimuth. Missing:
different scale factors (`C67_false`), and what is missing in C45 and C37. -/
theorem C37_corrected_partial (h : pydisort E J a = .ok R) (hS : Sound E a) (hc : NoSource a ∨ a.tauArr.n = 1) (hC : Corrected a)
    (hp : ∃ l < a.tauArr.n, peak a l * a.omega.get l ≠ 0) (hs : ∀ i < nHalf a, node E a i ≠ scaledMu0 a)
    (hsc : ∀ l < a.tauArr.n, ∀ l' < a.tauArr.n, scale a l = scale a l') :
    ∃ F P : ℕ → ℝ → ℝ → ℝ,
      (∀ tau phi : A1 ℝ, InRange a tau → tau.n ≠ 0 → (nHalf a ≠ 1 ∨ phi.n = 1) →
        Returns3 (R.u tau phi false) (2 * nHalf a) tau.n phi.n (fun i t p => F i (phi.get p) (tau.get t)) ∧
        Returns3 (R.u tau phi true) (2 * nHalf a) tau.n phi.n (fun i t p => P i (phi.get p) (tau.get t))) ∧
      ∀ i < 2 * nHalf a, ∀ ph, AntiOf a (F i ph) (P i ph) := by
  obtain ⟨hd, e1, e2⟩ := depthOK_of h
  have hc' : R.I.iso = false ∨ R.I.NLayers = 1 := hc.imp (iso_false_of h) (fun x => by rw [e2]; exact x)
  obtain ⟨_, _, _, hFF, hN, hF⟩ := anti_facts h hS
  obtain ⟨n, hn, H⟩ := ntSpec h hC
  have hL : ∀ t, R.I.layer t < a.tauArr.n := fun t => by rw [← e2]; exact AsmIn.layer_lt hd t
  have hof : R.onlyFlux = false := (pydisort_ok h).2.choose_spec.choose_spec.2.2.2.2.1.trans hC.2.1
  have hNpos : 0 < n.N := by
    rw [H.N]
    have := (pydisort_ok h).1.streams.1
    unfold nHalf; omega
  have key : ∀ {tau phi : A1 ℝ} {anti : Bool} {v : ℕ → ℕ → ℕ → ℝ}, tau.n ≠ 0 → (nHalf a ≠ 1 ∨ phi.n = 1) →
      Returns3 (R.I.u R.S tau phi anti) (2 * nHalf a) tau.n phi.n v →
      Returns3 (R.u tau phi anti) (2 * nHalf a) tau.n phi.n
        (fun i t p => v i t p + R.I.rescale * n.corrVal anti i (R.I.layer (tau.get t)) (tau.get t) (phi.get p)) := by
    rintro tau phi anti v hne hN1 ⟨A, h1, h2, h3, h4, h5⟩
    obtain ⟨B, g1, g2, g3, g4, g5⟩ := n.corr_returns hNpos (tau := tau) (phi := phi) anti (fun t => R.I.layer (tau.get t)) hne (by rw [H.N]; exact hN1)
    rw [H.N] at g2 g5
    unfold Solved.u
    rw [hof, hn]
    simp only [Bool.false_eq_true, if_false]
    unfold Solved.uCorrected Solved.uUncorrected
    rw [h1, g1]
    simp only [bind, Except.bind, addSqueezed]
    rw [if_pos ⟨by omega, by omega, by omega⟩]
    refine ⟨_, rfl, h2, h3, h4, fun i hi t ht p hp => ?_⟩
    simp only
    rw [h5 i hi t ht p hp, g5 i hi t ht p hp]
  refine ⟨fun i ph t => ∑ m ∈ range R.I.NFourier, (R.I.rescale * R.I.fL R.S m (R.I.layer t) t i) * Real.cos ((m : ℝ) * (R.I.phi0 - ph))
      + R.I.rescale * n.corrVal false i (R.I.layer t) t ph,
    fun i ph t => ∑ m ∈ range R.I.NFourier, (R.I.rescale * R.I.qL R.S m (R.I.layer t) t i) * Real.cos ((m : ℝ) * (R.I.phi0 - ph))
      + R.I.rescale * n.corrVal true i (R.I.layer t) t ph, fun tau phi ht hne hN1 => ⟨key hne hN1 ?_, key hne hN1 ?_⟩, fun i hi ph => ?_⟩
  · obtain ⟨A, x1, x2, x3, x4, x5⟩ := R.I.u_plain R.S phi (checkTau_of_inRange h ht)
    refine ⟨A, x1, by rw [x2, hN], x3, x4, fun i hi t htt p hp => ?_⟩
    rw [x5 i (by rw [hN]; exact hi) t htt p hp]
    simp only [AsmIn.val_fL hd]
  · obtain ⟨A, x1, x2, x3, x4, x5⟩ := AsmIn.u_anti (S := R.S) hd hc' phi (checkTau_of_inRange h ht)
    refine ⟨A, x1, by rw [x2, hN], x3, x4, fun i hi t htt p hp => ?_⟩
    rw [x5 i (by rw [hN]; exact hi) t htt p hp]
    simp only [AsmIn.valAnti_qL hd]
  · refine antiOf_layers (f := fun l t => ∑ m ∈ range R.I.NFourier, (R.I.rescale * R.I.fL R.S m l t i) * Real.cos ((m : ℝ) * (R.I.phi0 - ph))
        + R.I.rescale * n.corrVal false i l t ph)
      (Q := fun l t => ∑ m ∈ range R.I.NFourier, (R.I.rescale * R.I.qL R.S m l t i) * Real.cos ((m : ℝ) * (R.I.phi0 - ph))
        + R.I.rescale * n.corrVal true i l t ph) hd e1 e2
      (fun l hl t => ?_) (fun l _ => ?_)
    · refine HasDerivAt.fun_add (HasDerivAt.fun_sum fun m hm => ?_) ((corrVal_hasDeriv h hC hS.gauss hs hsc H hi hl t ph).const_mul _)
      exact ((hasDerivAt_mode h hS (by rw [← hFF]; exact mem_range.1 hm) hl t i).const_mul _).mul_const _
    · refine Continuous.add (continuous_finsetSum _ fun m _ => ?_) (continuous_const.mul (corrVal_continuous n i l ph))
      exact (continuous_const.mul (AsmIn.continuous_fL m l i)).mul continuous_const

/-- The hypotheses can be met, for every number of streams. -/
example (J : Junk) {n : ℕ} (hn : 0 < n) (hn' : n < 10 ^ 7) : ∃ a R, pydisort refExt J a = .ok R ∧ Sound refExt a ∧ nHalf a = n ∧ 1 < a.tauArr.n ∧
    NoSource a ∧ Corrected a ∧ (∃ l < a.tauArr.n, peak a l * a.omega.get l ≠ 0) ∧ (∀ i < nHalf a, node refExt a i ≠ scaledMu0 a) ∧
    ∀ l < a.tauArr.n, ∀ l' < a.tauArr.n, scale a l = scale a l' := by
  obtain ⟨a, R, h1, h2, _, h3, h4, h5, h6, h7, h8, h9⟩ := exists_equalScale J hn hn'
  exact ⟨a, R, h1, h2.sound, h5, h6, h4, h3, h7, h8, h9⟩

end Pydisort

import Verif.AntiLemmas
import Verif.Props.Absorbing
import Verif.Props.Linear

/-!
# C34-C37: antiderivatives with respect to depth

Specification used: `Spec.AntiOf`, `Spec.Returns1`, `Spec.ReturnsFluxes`, …

The four functions advertise `is_antiderivative_wrt_tau`. All four claims are false in general (`C34_false`, …): with an internal
source and several layers `_mathscr_v` divides by the array of *all* scale factors, `flux_down` mixes up layer and depth indices
(line 580), and `u0` ignores the flag when there is no beam (line 382).
-/

namespace Pydisort
open Finset Spec

section
variable {E : Ext} {J : Junk} {a : Args} {R : Solved}

/-- What is needed about the numerical ingredients. -/
theorem anti_facts (h : pydisort E J a = .ok R) (hS : Sound E a) :
    (∀ l < a.tauArr.n, R.I.scale l ≠ 0) ∧ (∀ m < nFourier a, ∀ l < a.tauArr.n, ∀ j < 2 * R.I.N, R.S.K m l j ≠ 0)
      ∧ (R.I.beam = true → R.I.mu0 ≠ 0) ∧ R.I.NFourier = nFourier a ∧ R.I.N = nHalf a ∧ 0 < nFourier a := by
  obtain ⟨hacc, O, r, hO, hr, hI, hsol, _⟩ := pydisort_ok h
  have hs := Args.optics_spec hacc hO
  have hI' : R.I = a.asm E O r := hI
  have hg := asm_good (r := r) hacc hs hS.toNumerics
  obtain ⟨out, GC, h1, _, h3⟩ := AsmIn.solveAll_ok hsol
  rw [hI'] at h1
  have hsp := genSol_spec hg.F h1
  have hF : (a.asm E O r).NFourier = nFourier a := by rw [← nFourier_eq (a := a)]; rfl
  refine ⟨fun l hl => ?_, fun m hm l hl j hj => ?_, fun hb => ?_, by rw [hI', hF], by rw [hI']; rfl, by rw [← hF]; exact hg.F⟩
  · rw [hI']
    have : (a.asm E O r).scale l = scale a l := hs.scale l hl
    rw [this]
    exact (Args.scale_pos hacc hl).ne'
  · rw [h3]
    rw [hI'] at hj
    exact AsmIn.K_ne_zero hsp hg.quad hg.eig (by rw [← hF] at hm; exact hm) hl hj
  · rw [hI'] at hb ⊢
    have : a.I0 > 0 := by simpa [Args.asmIn, Args.Beam] using hb
    exact (hacc.beamDir this).1.1.ne'

theorem iso_false_of (h : pydisort E J a = .ok R) (hn : NoSource a) : R.I.iso = false := by
  obtain ⟨_, O, r, _, _, hI, _⟩ := pydisort_ok h
  rw [hI]
  have : a.nsc = 0 := by unfold Args.nsc; exact if_pos hn
  simp [Args.asmIn, Args.Iso, this]

theorem beam_iff (h : pydisort E J a = .ok R) : R.I.beam = true ↔ 0 < a.I0 := by
  obtain ⟨_, O, r, _, _, hI, _⟩ := pydisort_ok h
  rw [hI]
  simp [Args.asmIn, Args.Beam]

theorem hasDerivAt_mode (h : pydisort E J a = .ok R) (hS : Sound E a) {m l : ℕ} (hm : m < nFourier a) (hl : l < a.tauArr.n)
    (t : ℝ) (i : ℕ) : HasDerivAt (fun x => R.I.qL R.S m l x i) (R.I.fL R.S m l t i) t := by
  obtain ⟨h1, h2, h3, _⟩ := anti_facts h hS
  exact AsmIn.hasDerivAt_qL (h1 l hl) (h2 m hm l hl) h3 t i

/-! ### Upward flux -/

/-- **C34, the part that is true.** Without an internal source, or with a single layer, `flux_up(tau, True)` is an antiderivative of
`flux_up(tau)` in every layer, for every array of depths. Missing: internal sources in several layers, see `C34_false`. -/
theorem C34_flux_up_antiderivative_partial (h : pydisort E J a = .ok R) (hS : Sound E a) (hc : NoSource a ∨ a.tauArr.n = 1) :
    ∃ F P, (∀ tau, InRange a tau → Returns1 (R.fluxUp tau false) tau.n (fun t => F (tau.get t))) ∧
      (∀ tau, InRange a tau → Returns1 (R.fluxUp tau true) tau.n (fun t => P (tau.get t))) ∧ AntiOf a F P := by
  obtain ⟨hd, e1, e2⟩ := depthOK_of h
  have hc' : R.I.iso = false ∨ R.I.NLayers = 1 := hc.imp (iso_false_of h) (fun x => by rw [e2]; exact x)
  have hF := (anti_facts h hS).2.2.2.2.2
  set f : ℕ → ℝ → ℝ := fun l t => R.I.rescale * ∑ i ∈ range R.I.N, (2 * Real.pi * (R.I.mu i * R.I.W i)) * R.I.fL R.S 0 l t i with hf
  set Q : ℕ → ℝ → ℝ := fun l t => R.I.rescale * ∑ i ∈ range R.I.N, (2 * Real.pi * (R.I.mu i * R.I.W i)) * R.I.qL R.S 0 l t i with hQ
  refine ⟨fun t => f (R.I.layer t) t, fun t => Q (R.I.layer t) t, fun tau ht => ?_, fun tau ht => ?_, ?_⟩
  · obtain ⟨A, x1, x2, x3⟩ := R.I.fluxUp_plain R.S (checkTau_of_inRange h ht)
    refine ⟨A, x1, x2, fun t htt => ?_⟩
    rw [x3 t htt]
    simp only [hf, AsmIn.val_fL hd]
  · obtain ⟨A, x1, x2, x3⟩ := AsmIn.fluxUp_anti (S := R.S) hd hc' (checkTau_of_inRange h ht)
    refine ⟨A, x1, x2, fun t htt => ?_⟩
    rw [x3 t htt]
    simp only [hQ, AsmIn.valAnti_qL hd]
  · refine antiOf_layers hd e1 e2 (fun l hl t => ?_) (fun l _ => ?_)
    · exact (HasDerivAt.fun_sum fun i _ => (hasDerivAt_mode h hS hF hl t i).const_mul _).const_mul _
    · exact continuous_const.mul (continuous_finsetSum _ fun i _ => continuous_const.mul (AsmIn.continuous_fL 0 l i))

/-! ### Downward flux -/

/-- **C35, the part that is true.** If there is no internal source or a single layer, both parts of `flux_down(tau, True)` are
antiderivatives of those of `flux_down(tau)`; with a beam and several layers only for a single depth. Missing: see `C35_false`. -/
theorem C35_flux_down_antiderivative_partial (h : pydisort E J a = .ok R) (hS : Sound E a) (hc : NoSource a ∨ a.tauArr.n = 1) :
    ∃ F D P Q, (∀ tau, InRange a tau → ReturnsFluxes (R.fluxDown tau false) tau.n (fun t => F (tau.get t)) (fun t => D (tau.get t))) ∧
      (∀ tau, InRange a tau → (0 < a.I0 → a.tauArr.n = 1 ∨ tau.n = 1) →
        ReturnsFluxes (R.fluxDown tau true) tau.n (fun t => P (tau.get t)) (fun t => Q (tau.get t))) ∧
      AntiOf a F P ∧ AntiOf a D Q := by
  obtain ⟨hd, e1, e2⟩ := depthOK_of h
  have hc' : R.I.iso = false ∨ R.I.NLayers = 1 := hc.imp (iso_false_of h) (fun x => by rw [e2]; exact x)
  obtain ⟨hsc, _, hmu, _, _, hF⟩ := anti_facts h hS
  set f : ℕ → ℝ → ℝ := fun l t => R.I.rescale * ((∑ i ∈ range R.I.N, (2 * Real.pi * (R.I.mu i * R.I.W i)) * R.I.fL R.S 0 l t (R.I.N + i))
    + if R.I.beam = true then R.I.I0 * R.I.mu0 * Real.exp (-R.I.sT l t / R.I.mu0) - R.I.I0 * R.I.mu0 * Real.exp (-t / R.I.mu0) else 0) with hf
  set q : ℕ → ℝ → ℝ := fun l t => R.I.rescale * ((∑ i ∈ range R.I.N, (2 * Real.pi * (R.I.mu i * R.I.W i)) * R.I.qL R.S 0 l t (R.I.N + i))
    + if R.I.beam = true then R.I.I0 * R.I.mu0 * Real.exp (-R.I.sT l t / R.I.mu0) / (-R.I.scale l / R.I.mu0)
      - R.I.I0 * R.I.mu0 * Real.exp (-t / R.I.mu0) * -R.I.mu0 else 0) with hq
  set g : ℕ → ℝ → ℝ := fun _ t => R.I.rescale * (if R.I.beam = true then R.I.I0 * R.I.mu0 * Real.exp (-t / R.I.mu0) else 0) with hg
  set k : ℕ → ℝ → ℝ := fun _ t => R.I.rescale * (if R.I.beam = true then R.I.I0 * R.I.mu0 * Real.exp (-t / R.I.mu0) * -R.I.mu0 else 0) with hk
  have hst : ∀ t, R.I.scaledTau t = R.I.sT (R.I.layer t) t := AsmIn.scaledTau_eq hd
  refine ⟨fun t => f (R.I.layer t) t, fun t => g (R.I.layer t) t, fun t => q (R.I.layer t) t, fun t => k (R.I.layer t) t,
    fun tau ht => ?_, fun tau ht hb => ?_, ?_, ?_⟩
  · obtain ⟨A, D, x1, x2, x3, x4, x5⟩ := R.I.fluxDown_plain R.S (checkTau_of_inRange h ht)
    refine ⟨A, D, _, x1, x2, fun t htt => ?_, x4, fun t htt => ?_⟩
    · rw [x3 t htt]
      simp only [hf, AsmIn.val_fL hd, hst]
    · rcases Bool.eq_false_or_eq_true R.I.beam with hb | hb
      · rw [hb] at x4 ⊢
        rw [if_pos rfl] at x4 ⊢
        rw [x5 t (by rw [x4]; exact htt)]
      · rw [hb] at x4 ⊢
        rw [if_neg (by simp)] at x4 ⊢
        rw [x5 0 (by rw [x4]; exact one_pos)]
        simp only [hg, hb, Bool.false_eq_true, if_false]
  · have hb' : R.I.beam = true → R.I.NLayers = 1 ∨ tau.n = 1 := fun x => by rw [e2]; exact hb ((beam_iff h).1 x)
    obtain ⟨A, D, x1, x2, x3, x4, x5⟩ := AsmIn.fluxDown_anti (S := R.S) hd hc' hb' (checkTau_of_inRange h ht)
    refine ⟨A, D, _, x1, x2, fun t htt => ?_, x4, fun t htt => ?_⟩
    · rw [x3 t htt]
      simp only [hq, AsmIn.valAnti_qL hd, hst]
    · rcases Bool.eq_false_or_eq_true R.I.beam with hb | hb
      · rw [hb] at x4 ⊢
        rw [if_pos rfl] at x4 ⊢
        rw [x5 t (by rw [x4]; exact htt)]
      · rw [hb] at x4 ⊢
        rw [if_neg (by simp)] at x4 ⊢
        rw [x5 0 (by rw [x4]; exact one_pos)]
        simp only [hk, hb, Bool.false_eq_true, if_false]
  · refine antiOf_layers hd e1 e2 (fun l hl t => ?_) (fun l _ => ?_)
    · refine (HasDerivAt.add (HasDerivAt.fun_sum fun i _ => (hasDerivAt_mode h hS hF hl t (R.I.N + i)).const_mul _) ?_).const_mul _
      split_ifs with hb
      · have hm := hmu hb
        have h1 := AsmIn.hasDerivAt_sT (I := R.I) l t
        have h2 := ((h1.fun_neg.div_const R.I.mu0).exp.const_mul (R.I.I0 * R.I.mu0)).div_const (-R.I.scale l / R.I.mu0)
        have h3 := (((hasDerivAt_id t).fun_neg.div_const R.I.mu0).exp.const_mul (R.I.I0 * R.I.mu0)).mul_const (-R.I.mu0)
        refine (h2.sub h3).congr_deriv ?_
        have := hsc l hl
        simp only [id]
        field_simp
      · exact hasDerivAt_const _ _
    · have h1 : Continuous (fun t => R.I.sT l t) := by unfold AsmIn.sT; fun_prop
      refine continuous_const.mul ((continuous_finsetSum _ fun i _ => continuous_const.mul (AsmIn.continuous_fL 0 l _)).add ?_)
      split_ifs <;> fun_prop
  · refine antiOf_layers hd e1 e2 (fun l hl t => ?_) (fun l _ => ?_)
    · refine HasDerivAt.const_mul _ ?_
      split_ifs with hb
      · have hm := hmu hb
        refine ((((hasDerivAt_id t).fun_neg.div_const R.I.mu0).exp.const_mul (R.I.I0 * R.I.mu0)).mul_const (-R.I.mu0)).congr_deriv ?_
        simp only [id]
        field_simp
      · exact hasDerivAt_const _ _
    · refine continuous_const.mul ?_
      split_ifs <;> fun_prop

/-! ### Zeroth moment -/

/-- **C36, the part that is true.** With a beam, and no internal source or a single layer, `u0(tau, True)` is an antiderivative of
`u0(tau)`. Missing: see `C36_false`. -/
theorem C36_u0_antiderivative_partial (h : pydisort E J a = .ok R) (hS : Sound E a) (hb : 0 < a.I0)
    (hc : NoSource a ∨ a.tauArr.n = 1) :
    ∃ F P : ℕ → ℝ → ℝ, (∀ tau, InRange a tau → Returns2 (R.u0 tau false) (2 * nHalf a) tau.n (fun i t => F i (tau.get t))) ∧
      (∀ tau, InRange a tau → Returns2 (R.u0 tau true) (2 * nHalf a) tau.n (fun i t => P i (tau.get t))) ∧ ∀ i, AntiOf a (F i) (P i) := by
  obtain ⟨hd, e1, e2⟩ := depthOK_of h
  have hc' : R.I.iso = false ∨ R.I.NLayers = 1 := hc.imp (iso_false_of h) (fun x => by rw [e2]; exact x)
  obtain ⟨_, _, _, _, hN, hF⟩ := anti_facts h hS
  refine ⟨fun i t => R.I.rescale * R.I.fL R.S 0 (R.I.layer t) t i, fun i t => R.I.rescale * R.I.qL R.S 0 (R.I.layer t) t i,
    fun tau ht => ?_, fun tau ht => ?_, fun i => ?_⟩
  · obtain ⟨A, x1, x2, x3, x4⟩ := R.I.u0_plain R.S (checkTau_of_inRange h ht)
    refine ⟨A, x1, by rw [x2, hN], x3, fun i hi t htt => ?_⟩
    rw [x4 i (by rw [hN]; exact hi) t htt]
    beta_reduce
    rw [AsmIn.val_fL hd]
  · obtain ⟨A, x1, x2, x3, x4⟩ := AsmIn.u0_anti (S := R.S) hd ((beam_iff h).2 hb) hc' (checkTau_of_inRange h ht)
    refine ⟨A, x1, by rw [x2, hN], x3, fun i hi t htt => ?_⟩
    rw [x4 i (by rw [hN]; exact hi) t htt]
    beta_reduce
    rw [AsmIn.valAnti_qL hd]
  · exact antiOf_layers (f := fun l t => R.I.rescale * R.I.fL R.S 0 l t i) (Q := fun l t => R.I.rescale * R.I.qL R.S 0 l t i) hd e1 e2
      (fun l hl t => (hasDerivAt_mode h hS hF hl t i).const_mul _) (fun l _ => continuous_const.mul (AsmIn.continuous_fL 0 l i))

/-- **C36 fails without a beam.** Without a beam and internal source `u0` ignores the flag: the "antiderivative" is `u0` itself. -/
theorem C36_flag_ignored (h : pydisort E J a = .ok R) (hb : ¬ 0 < a.I0) (hn : NoSource a) (tau : A1 ℝ) :
    R.u0 tau true = R.u0 tau false :=
  AsmIn.u0_anti_dark (by have := (beam_iff h).not.2 hb; simpa using this) (iso_false_of h hn) tau

/-! ### Intensity -/

/-- **C37, the part that is true.** Without an internal source, or with a single layer, `u(tau, phi, True)` before the NT corrections
is an antiderivative of `u(tau, phi)` in depth, for every azimuth; this is the returned `u` unless `NT_cor = True`.
Missing: see `C37_false`, and the antiderivative of the corrections. -/
theorem C37_u_antiderivative_partial (h : pydisort E J a = .ok R) (hS : Sound E a) (hc : NoSource a ∨ a.tauArr.n = 1)
    (hnt : a.NTcor = false) (hf : a.onlyFlux = false) :
    ∃ F P : ℕ → ℝ → ℝ → ℝ, (∀ tau phi, InRange a tau →
        Returns3 (R.u tau phi false) (2 * nHalf a) tau.n phi.n (fun i t p => F i (phi.get p) (tau.get t))) ∧
      (∀ tau phi, InRange a tau →
        Returns3 (R.u tau phi true) (2 * nHalf a) tau.n phi.n (fun i t p => P i (phi.get p) (tau.get t))) ∧
      ∀ i ph, AntiOf a (F i ph) (P i ph) := by
  obtain ⟨hd, e1, e2⟩ := depthOK_of h
  have hc' : R.I.iso = false ∨ R.I.NLayers = 1 := hc.imp (iso_false_of h) (fun x => by rw [e2]; exact x)
  obtain ⟨_, _, _, hFF, hN, hF⟩ := anti_facts h hS
  have hu : ∀ tau phi anti, R.u tau phi anti = R.I.u R.S tau phi anti := by
    obtain ⟨_, O, r, _, _, _, _, hof, _, hn⟩ := pydisort_ok h
    intro tau phi anti
    unfold Solved.u
    rw [hof, hf, hn fun hg => absurd (hg.1.symm.trans hnt) (by simp)]
    rfl
  refine ⟨fun i ph t => ∑ m ∈ range R.I.NFourier, (R.I.rescale * R.I.fL R.S m (R.I.layer t) t i) * Real.cos ((m : ℝ) * (R.I.phi0 - ph)),
    fun i ph t => ∑ m ∈ range R.I.NFourier, (R.I.rescale * R.I.qL R.S m (R.I.layer t) t i) * Real.cos ((m : ℝ) * (R.I.phi0 - ph)),
    fun tau phi ht => ?_, fun tau phi ht => ?_, fun i ph => ?_⟩
  · obtain ⟨A, x1, x2, x3, x4, x5⟩ := R.I.u_plain R.S phi (checkTau_of_inRange h ht)
    refine ⟨A, by rw [hu]; exact x1, by rw [x2, hN], x3, x4, fun i hi t htt p hp => ?_⟩
    rw [x5 i (by rw [hN]; exact hi) t htt p hp]
    simp only [AsmIn.val_fL hd]
  · obtain ⟨A, x1, x2, x3, x4, x5⟩ := AsmIn.u_anti (S := R.S) hd hc' phi (checkTau_of_inRange h ht)
    refine ⟨A, by rw [hu]; exact x1, by rw [x2, hN], x3, x4, fun i hi t htt p hp => ?_⟩
    rw [x5 i (by rw [hN]; exact hi) t htt p hp]
    simp only [AsmIn.valAnti_qL hd]
  · refine antiOf_layers (f := fun l t => ∑ m ∈ range R.I.NFourier, (R.I.rescale * R.I.fL R.S m l t i) * Real.cos ((m : ℝ) * (R.I.phi0 - ph)))
      (Q := fun l t => ∑ m ∈ range R.I.NFourier, (R.I.rescale * R.I.qL R.S m l t i) * Real.cos ((m : ℝ) * (R.I.phi0 - ph))) hd e1 e2
      (fun l hl t => ?_) (fun l _ => ?_)
    · exact HasDerivAt.fun_sum fun m hm =>
        ((hasDerivAt_mode h hS (by rw [← hFF]; exact mem_range.1 hm) hl t i).const_mul _).mul_const _
    · exact continuous_finsetSum _ fun m _ => (continuous_const.mul (AsmIn.continuous_fL m l i)).mul continuous_const

/-! ### The parts that are false -/

theorem mathscrVAnti_error {n Nc rows : ℕ} {tau scale_tau : A1 ℝ} {l : A1 ℕ} (s : Mat) (G : ℕ → Mat) (K g : ℕ → Vec)
    (hl : l.n = tau.n) (hN : 0 < Nc) (hL : 2 ≤ scale_tau.n)
    (hs : (Nc ≤ 2 ∧ tau.n ≠ 1 ∧ tau.n ≠ scale_tau.n) ∨ (3 ≤ Nc ∧ Nc ≠ scale_tau.n)) :
    mathscrVAnti n Nc rows tau scale_tau l s G K g = .error .shapeError := by
  unfold mathscrVAnti
  rcases hs with ⟨h1, h2, h3⟩ | ⟨h1, h2⟩
  · by_cases hN1 : Nc = 1
    · simp only [if_pos hN1, A1.bin, bind, Except.bind]
      rw [bdim_error h3 h2 (by omega)]
    · have hN2 : Nc = 2 := by omega
      simp only [if_neg hN1, if_pos hN2, A2.bin, bind, Except.bind, A1.row]
      rw [bdim_one_right]
      simp only
      rw [bdim_error (by rw [hl]; exact h3) (by rw [hl]; exact h2) (by omega)]
  · rw [if_neg (by omega), if_neg (by omega)]
    simp only [A1.bin, bind, Except.bind]
    rw [bdim_error h2 (by omega) (by omega)]

theorem iso_of (h : pydisort E J a = .ok R) (hn : ¬ NoSource a) : R.I.iso = true ∧ R.I.Nscoeffs = a.s.c ∧ 0 < a.s.c := by
  obtain ⟨_, O, r, _, _, hI, _⟩ := pydisort_ok h
  rw [hI]
  have : a.nsc = a.s.c := by unfold Args.nsc; exact if_neg hn
  have hc : 0 < a.s.c := by
    by_contra hc
    exact hn fun i _ j hj => absurd hj (by omega)
  refine ⟨?_, this, hc⟩
  simp [Args.asmIn, Args.Iso, this, hc]

/-- Shapes with which the broadcasting in the antiderivative branch of `_mathscr_v` fails. -/
def BadShape (a : Args) (n : ℕ) : Prop :=
  (a.s.c ≤ 2 ∧ n ≠ 1 ∧ n ≠ a.tauArr.n) ∨ (3 ≤ a.s.c ∧ a.s.c ≠ a.tauArr.n)

theorem addIso_error (h : pydisort E J a = .ok R) (hn : ¬ NoSource a) (hL : 2 ≤ a.tauArr.n) {tau : A1 ℝ}
    (hb : BadShape a tau.n) (row0 rows : ℕ) (x : A2 ℝ) : R.I.addIso R.S tau true row0 rows x = .error .shapeError := by
  obtain ⟨h1, h2, h3⟩ := iso_of h hn
  obtain ⟨_, _, e2⟩ := depthOK_of h
  unfold AsmIn.addIso AsmIn.isoPart
  rw [if_pos h1, if_pos rfl]
  simp only [bind, Except.bind]
  rw [mathscrVAnti_error (tau := tau.map R.I.scaledTau) (scale_tau := ⟨R.I.NLayers, R.I.scale⟩) (l := tau.map R.I.layer)
    R.I.s _ _ _ rfl (by rw [h2]; exact h3) (by rw [e2]; exact hL) (by rw [h2, e2]; exact hb)]

/-- **C34 fails with an internal source and several layers:** for most numbers of depths `flux_up(tau, True)` raises. -/
theorem C34_source_in_layers_raises (h : pydisort E J a = .ok R) (hn : ¬ NoSource a) (hL : 2 ≤ a.tauArr.n) {tau : A1 ℝ}
    (ht : InRange a tau) (hb : BadShape a tau.n) : R.fluxUp tau true = .error .shapeError := by
  unfold Solved.fluxUp AsmIn.fluxUp
  rw [checkTau_of_inRange h ht]
  simp only [bind, Except.bind]
  rw [addIso_error h hn hL hb]

/-- **C37 fails with an internal source and several layers.** -/
theorem C37_source_in_layers_raises (h : pydisort E J a = .ok R) (hn : ¬ NoSource a) (hL : 2 ≤ a.tauArr.n) {tau : A1 ℝ}
    (ht : InRange a tau) (hb : BadShape a tau.n) (phi : A1 ℝ) (hf : a.onlyFlux = false) :
    R.u tau phi true = .error .shapeError := by
  have key : R.uUncorrected tau phi true = .error .shapeError := by
    unfold Solved.uUncorrected AsmIn.u AsmIn.uRaw AsmIn.um0
    rw [checkTau_of_inRange h ht, if_pos (iso_of h hn).1]
    simp only [bind, Except.bind]
    rw [addIso_error h hn hL hb]
  obtain ⟨_, O, r, _, _, _, _, hof, _⟩ := pydisort_ok h
  unfold Solved.u
  rw [hof, hf, if_neg (by simp)]
  cases R.nt with
  | none => exact key
  | some n => unfold Solved.uCorrected; rw [key]; rfl

/-- **C36 fails with an internal source and several layers.** -/
theorem C36_source_in_layers_raises (h : pydisort E J a = .ok R) (hn : ¬ NoSource a) (hL : 2 ≤ a.tauArr.n) {tau : A1 ℝ}
    (ht : InRange a tau) (hb : BadShape a tau.n) : R.u0 tau true = .error .shapeError := by
  unfold Solved.u0 AsmIn.u0
  rw [checkTau_of_inRange h ht]
  simp only [bind, Except.bind]
  rw [addIso_error h hn hL hb]

/-- **C35 fails with a beam and several layers:** for most numbers of depths `flux_down(tau, True)` raises. -/
theorem C35_beam_in_layers_raises (h : pydisort E J a = .ok R) (hI : 0 < a.I0) (hL : 2 ≤ a.tauArr.n) {tau : A1 ℝ}
    (ht : InRange a tau) (h1 : tau.n ≠ 1) (h2 : tau.n ≠ a.tauArr.n) : R.fluxDown tau true = .error .shapeError := by
  obtain ⟨_, _, e2⟩ := depthOK_of h
  unfold Solved.fluxDown AsmIn.fluxDown AsmIn.fluxDownRaw AsmIn.fluxDownAntiBeam
  rw [checkTau_of_inRange h ht, if_pos rfl, if_pos ((beam_iff h).2 hI), e2, bdim_error (Ne.symm h2) (by omega) h1]
  rfl

/-- Three depths. -/
def threeTops : A1 ℝ := ⟨3, fun _ => 0⟩

theorem threeTops_inRange {a : Args} (h : Accepted a) : InRange a threeTops :=
  fun _ _ => ⟨le_rfl, (bottom_pos h).le⟩

theorem demo_source {n : ℕ} (x : ℝ) : ¬ NoSource (demo n x) := fun h => one_ne_zero (h 0 (by simp [demo]) 0 (by simp [demo]))

/-- **C34 is false**: for every number of streams there is a well-posed problem whose call returns although `flux_up(tau, True)` raises
for an array of depths for which `flux_up(tau)` returns. -/
theorem C34_false {n : ℕ} (hn : 0 < n) (J : Junk) : ∃ a R tau F, pydisort refExt J a = .ok R ∧ WellPosed refExt a ∧ Rescalable a ∧
    InRange a tau ∧ R.fluxUp tau false = .ok F ∧ R.fluxUp tau true = .error .shapeError := by
  obtain ⟨x, R, h1, hw, h2, h3⟩ := demo_call hn J
  have ht := threeTops_inRange hw.accepted
  obtain ⟨A, hA, F, hF, _⟩ := C09_flux_up h1 threeTops ht
  exact ⟨_, R, threeTops, F, h1, hw, h3, ht, hF, C34_source_in_layers_raises h1 (demo_source x) (by simp [demo]) ht
    (Or.inl ⟨by simp [demo], by simp [threeTops], by simp [demo, threeTops]⟩)⟩

/-- **C35 is false**, already without an internal source. -/
theorem C35_false {n : ℕ} (hn : 0 < n) (J : Junk) : ∃ a R tau F, pydisort refExt J a = .ok R ∧ WellPosed refExt a ∧ Rescalable a ∧
    InRange a tau ∧ NoSource a ∧ R.fluxDown tau false = .ok F ∧ R.fluxDown tau true = .error .shapeError := by
  obtain ⟨x, hx⟩ := demo_wellPosed hn
  have hh : nHalf (demo n x) = n := demo_nHalf x
  set S : Sources := ⟨1, .scalar 1, .vec ⟨n, fun _ => 1⟩, ⟨2, 2, fun _ _ => 0⟩⟩ with hS
  have hw : WellPosed refExt (under (demo n x) S) :=
    wellPosed_under hx zero_le_one (fun _ => one_pos) trivial (Or.inr (Or.inr hh.symm)) trivial trivial rfl
  have hr : Rescalable (under (demo n x) S) := Or.inl (Or.inl one_pos)
  obtain ⟨R, h1⟩ := pydisort_isOk hw J
  have ht := threeTops_inRange hw.accepted
  obtain ⟨F, D, x1, _⟩ := R.I.fluxDown_plain R.S (checkTau_of_inRange h1 ht)
  exact ⟨_, R, threeTops, _, h1, hw, hr, ht, fun _ _ _ _ => rfl, x1,
    C35_beam_in_layers_raises h1 one_pos (by simp [demo, under]) ht (by simp [threeTops]) (by simp [demo, under, threeTops])⟩

/-- **C37 is false**. -/
theorem C37_false {n : ℕ} (hn : 0 < n) (J : Junk) (phi : A1 ℝ) : ∃ a R tau A, pydisort refExt J a = .ok R ∧ WellPosed refExt a
    ∧ Rescalable a ∧ InRange a tau ∧ R.u tau phi false = .ok A ∧ R.u tau phi true = .error .shapeError := by
  obtain ⟨x, R, h1, hw, h2, h3⟩ := demo_call hn J
  have ht := threeTops_inRange hw.accepted
  obtain ⟨B, hB, _⟩ := u_returns h1 (rfl : (demo n x).onlyFlux = false) (phi := phi) ht (fun h => by simp [demo] at h)
  exact ⟨_, R, threeTops, B, h1, hw, h3, ht, hB, C37_source_in_layers_raises h1 (demo_source x) (by simp [demo]) ht
    (Or.inl ⟨by simp [demo], by simp [threeTops], by simp [demo, threeTops]⟩) phi rfl⟩

/-- The absorbing atmosphere without a beam. -/
noncomputable def demoBlackDark (n : ℕ) : Args := { demoBlack n with I0 := 0 }

theorem demoBlackDark_call {n : ℕ} (hn : 0 < n) (J : Junk) :
    ∃ R, pydisort refExt J (demoBlackDark n) = .ok R ∧ WellPosed refExt (demoBlackDark n) := by
  have h := demo_accepted (n := n) hn one_pos le_rfl
  have hN : nHalf (demoBlackDark n) = n := demo_nHalf 1
  have hb : Absorbing (demoBlackDark n) :=
    ⟨⟨fun _ _ => rfl, fun _ _ j hj => absurd hj (by simp [demoBlackDark, demoBlack])⟩, rfl⟩
  have hacc : Accepted (demoBlackDark n) := { h with
    omega := fun k hk => by simp [demoBlackDark, demoBlack]
    sourceRows := Or.inl hb.source
    beam := le_rfl
    beamDir := fun h' => absurd h' (lt_irrefl _) }
  have hw : WellPosed refExt (demoBlackDark n) := absorbing_wellPosed hb hacc (by rw [hN]; exact refExt_gauss hn) refExt_eig
    (fun l hl => by rw [show peak (demoBlackDark n) l = 1 / 8 from demo_peak (n := n) (x := 1) hl]; norm_num) trivial trivial (Or.inl rfl)
    (fun h' => by simp [demoBlackDark, demoBlack, demo] at h')
  obtain ⟨R, hR⟩ := pydisort_isOk hw J
  exact ⟨R, hR, hw⟩

/-- **C36 is false**: in an absorbing atmosphere lit from below, `u0(tau, True)` is not an antiderivative of `u0(tau)`. -/
theorem C36_false {n : ℕ} (hn : 0 < n) (J : Junk) : ∃ a R, pydisort refExt J a = .ok R ∧ WellPosed refExt a ∧ Rescalable a ∧
    NoSource a ∧ ¬ ∃ F P : ℕ → ℝ → ℝ,
      (∀ tau, InRange a tau → Returns2 (R.u0 tau false) (2 * nHalf a) tau.n (fun i t => F i (tau.get t))) ∧
      (∀ tau, InRange a tau → Returns2 (R.u0 tau true) (2 * nHalf a) tau.n (fun i t => P i (tau.get t))) ∧
      ∀ i < 2 * nHalf a, AntiOf a (F i) (P i) := by
  have h := demo_accepted (n := n) hn one_pos le_rfl
  set a := demoBlackDark n with ha
  have hN : nHalf a = n := demo_nHalf 1
  have hb : Absorbing a := ⟨⟨fun _ _ => rfl, fun _ _ j hj => absurd hj (by simp [ha, demoBlackDark, demoBlack])⟩, rfl⟩
  have hacc : Accepted a := { h with
    omega := fun k hk => by simp [ha, demoBlackDark, demoBlack]
    sourceRows := Or.inl hb.source
    beam := le_rfl
    beamDir := fun h' => absurd h' (lt_irrefl _) }
  have hg : GaussContract refExt (nHalf a) := by rw [hN]; exact refExt_gauss hn
  have hpk : ∀ l < a.tauArr.n, peak a l < 1 := fun l hl => by
    rw [show peak a l = 1 / 8 from demo_peak (n := n) (x := 1) hl]; norm_num
  have hang : a.NTcor = true → ∀ i < nHalf a, 1 / 10 ^ 8 ≤ |node refExt a i - a.mu0| := fun h' => by
    simp [ha, demoBlackDark, demoBlack, demo] at h'
  have hr : Rescalable a := Or.inl (Or.inr (Or.inl one_pos))
  obtain ⟨R, hR, hE⟩ := C64_absorbing_closed_form hb hacc hg refExt_eig hpk trivial trivial (Or.inl rfl) hang hr J
  refine ⟨a, R, hR, absorbing_wellPosed hb hacc hg refExt_eig hpk trivial trivial (Or.inl rfl) hang, hr, hb.source, ?_⟩
  rintro ⟨F, P, hF, hP, hA⟩
  have hign := C36_flag_ignored hR (lt_irrefl _) hb.source
  have hbot : bottom a = 2 := by norm_num [bottom, ha, demoBlackDark, demoBlack, demo]
  have hv : ∀ t, 0 ≤ t → t ≤ 2 → F 0 t = Real.exp (-(2 - t) / node refExt a 0) ∧ P 0 t = Real.exp (-(2 - t) / node refExt a 0) := by
    intro t h0 h1
    have ht : InRange a ⟨1, fun _ => t⟩ := fun _ _ => ⟨h0, by rw [← hbot] at h1; exact h1⟩
    obtain ⟨A, a1, _, _, a2⟩ := hF _ ht
    obtain ⟨B, b1, _, _, b2⟩ := hP _ ht
    obtain ⟨C, c1, _, _, c2⟩ := hE.u0 _ ht
    rw [hign, a1] at b1
    rw [a1] at c1
    cases b1; cases c1
    have e := c2 0 (by omega) 0 one_pos
    have e1 := a2 0 (by omega) 0 one_pos
    have e2 := b2 0 (by omega) 0 one_pos
    beta_reduce at e e1 e2
    have : (absorbed a (node refExt a) (weight refExt a)).u0 t 0 = Real.exp (-(2 - t) / node refExt a 0) := by
      unfold absorbed
      simp only [hbot]
      rw [if_pos (by omega), show bcVal a.bpos 0 0 = 1 from rfl, one_mul]
    rw [← this]
    exact ⟨e1.symm.trans e, e2.symm.trans e⟩
  have hder := (hA 0 (by omega)).deriv 0 (by simp [ha, demoBlackDark, demoBlack, demo]) (1 / 2)
    (by norm_num [bdry]) (by norm_num [bdry, ha, demoBlackDark, demoBlack, demo])
  have hmu := node_pos (E := refExt) (a := a) hg (i := 0) (by omega)
  have hd2 : HasDerivAt (fun t : ℝ => Real.exp (-(2 - t) / node refExt a 0))
      (Real.exp (-(2 - 1 / 2) / node refExt a 0) * (1 / node refExt a 0)) (1 / 2) := by
    refine HasDerivAt.exp ?_
    have := (((hasDerivAt_id (1 / 2 : ℝ)).const_sub 2).neg).div_const (node refExt a 0)
    simpa using this
  have hd3 : HasDerivAt (P 0) (Real.exp (-(2 - 1 / 2) / node refExt a 0) * (1 / node refExt a 0)) (1 / 2) := by
    refine hd2.congr_of_eventuallyEq ?_
    filter_upwards [Ioo_mem_nhds (show (0 : ℝ) < 1 / 2 by norm_num) (show (1 / 2 : ℝ) < 1 by norm_num)] with y hy
    exact (hv y hy.1.le (by linarith [hy.2])).2
  have := hder.unique hd3
  rw [(hv (1 / 2) (by norm_num) (by norm_num)).1] at this
  have hp := Real.exp_pos (-(2 - 1 / 2) / node refExt a 0)
  have h1 : 1 / node refExt a 0 = 1 := by
    apply mul_left_cancel₀ hp.ne'
    rw [mul_one]; exact this.symm
  rw [div_eq_one_iff_eq hmu.1.ne'] at h1
  linarith [hmu.2]

/-- The hypotheses of the partial theorems are met, for every number of streams: no internal source, several layers. -/
example {n : ℕ} (hn : 0 < n) (J : Junk) : ∃ a R, pydisort refExt J a = .ok R ∧ Sound refExt a ∧ NoSource a ∧ 0 < a.I0
    ∧ a.NTcor = false ∧ a.onlyFlux = false ∧ 2 ≤ a.tauArr.n := by
  obtain ⟨x, hx⟩ := demo_wellPosed hn
  have hh : nHalf (demo n x) = n := demo_nHalf x
  have hw : WellPosed refExt (under (demo n x) ⟨1, .scalar 1, .vec ⟨n, fun _ => 1⟩, ⟨2, 2, fun _ _ => 0⟩⟩) :=
    wellPosed_under hx zero_le_one (fun _ => one_pos) trivial (Or.inr (Or.inr hh.symm)) trivial trivial rfl
  obtain ⟨R, h1⟩ := pydisort_isOk hw J
  exact ⟨_, R, h1, hw.sound, fun _ _ _ _ => rfl, one_pos, rfl, rfl, le_rfl⟩

end
end Pydisort

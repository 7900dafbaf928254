import Verif.Spec.Defined
import Verif.Props.Corrections
import Verif.Props.CorrAnti
import Verif.Props.Cache
import Verif.WitnessIso

/-!
# C92: quotients and roots are defined
-/

namespace Pydisort
open Finset Spec

variable {E : Ext} {J : Junk} {a : Args} {R : Solved}

/-- C92, solver. In a well-posed call no denominator of the solver and of the functions that it returns is zero, and the radicands are positive. -/
theorem C92_solver_quotients (hw : WellPosed E a) (hr : Rescalable a) (h : pydisort E J a = .ok R) : SolverQuotients a R := by
  obtain ⟨hacc, O, r, hO, hrf, hI, hsol, _⟩ := pydisort_ok h
  have hs := Args.optics_spec hacc hO
  have hI' : R.I = a.asm E O r := hI
  have hg := asm_good (r := r) hacc hs hw.sound.toNumerics
  have hsol' := hsol
  rw [hI'] at hsol'
  have hnr := asm_nonRes hacc hs hw.sound hsol'
  obtain ⟨out, GC, hout, _, hS⟩ := AsmIn.solveAll_ok hsol'
  have hsp := genSol_spec hg.F hout
  constructor
  · rw [hI']
    exact fun i hi => (node_pos hw.gauss hi).1.ne'
  · rw [hI']
    intro l hl
    have hl' : l < a.tauArr.n := hl
    refine ⟨?_, fun hf => ?_⟩
    · change O.scale l ≠ 0
      rw [hs.scale l hl']; exact (Args.scale_pos hacc hl').ne'
    · have := hw.peak l hl'
      rw [Args.peak_of_pos hacc hf hl'] at this
      linarith
  · rw [hI']
    intro hi
    have hIso : a.Iso := by simpa [Args.asmIn] using hi
    have hlit : Lit a := hr.resolve_right fun h' => Args.iso_iff.1 hIso h'.1
    exact ((rescale_spec hacc hs hrf).2.2 hlit).ne'
  · rw [hS, hI']
    exact fun m hm l hl j hj => AsmIn.K_ne_zero hsp hg.quad hg.eig hm hl hj
  · rw [hI']
    intro hi i hi'
    have hIso : a.Iso := by simpa [Args.asmIn] using hi
    have hd := hw.degree.resolve_left (Args.iso_iff.1 hIso)
    have hn : (a.asm E O r).Nscoeffs = a.s.c := Args.nsc_of_iso hIso
    exact fac64_ne_zero (by omega)
  · rw [hI']
    intro hb
    have hb' : 0 < a.I0 := by simpa [Args.asmIn, Args.Beam] using hb
    exact ((hacc.beamDir hb').1).1.ne'
  · rw [hI']
    exact hnr

/-- C92, corrections, the part that is true: in a well-posed call with corrections all denominators are different from zero and no radicand is
negative exactly if some layer has both a forward peak and scattering, and no quadrature angle is the scaled angle of the beam. Missing: the code
does not test these two conditions, see `C92_peaks_false` and `C92_secondary_false`. -/
theorem C92_correction_quotients_partial (hw : WellPosed E a) (hc : Corrected a) (h : pydisort E J a = .ok R) :
    ∃ n, R.nt = some n ∧ (CorrectionQuotients n ↔
      (∃ l < a.tauArr.n, peak a l * a.omega.get l ≠ 0) ∧ ∀ i < nHalf a, node E a i ≠ scaledMu0 a) := by
  obtain ⟨n, hn, H⟩ := ntSpec h hc
  have hacc := hw.accepted
  have hb := hacc.beamDir hc.2.2.1
  have hpos : ∀ k < a.tauArr.n, 0 < a.tauArr.get k := by
    intro k
    induction k with
    | zero => intro _; exact hacc.top
    | succ k ih => intro hk; exact (ih (by omega)).trans (hacc.increasing k hk)
  have hav := avgPeak_lt_one hacc
  have hsm : 0 < scaledMu0 a := div_pos hb.1.1 (by linarith)
  have hsum2 : n.sum2 ≠ 0 ↔ ∃ l < a.tauArr.n, peak a l * a.omega.get l ≠ 0 := by
    rw [sum2_eq H]
    unfold weighted
    have hnn : ∀ k ∈ range a.tauArr.n, 0 ≤ peak a k * a.omega.get k * a.tauArr.get k := fun k hk =>
      mul_nonneg (mul_nonneg (Args.peak_range hacc k).1 (hacc.omega k (mem_range.1 hk)).1) (hpos k (mem_range.1 hk)).le
    rw [Ne, sum_eq_zero_iff_of_nonneg hnn]
    push Not
    constructor
    · rintro ⟨k, hk, hne⟩
      exact ⟨k, mem_range.1 hk, fun h0 => hne (by rw [h0, zero_mul])⟩
    · rintro ⟨k, hk, hne⟩
      exact ⟨k, mem_range.2 hk, mul_ne_zero hne (hpos k hk).ne'⟩
  have hx : ∀ i < nHalf a, 1 / n.mu i - 1 / n.scaledMu0 ≠ 0 ↔ node E a i ≠ scaledMu0 a := by
    intro i hi
    have hni := (node_pos hw.gauss hi).1
    rw [scaledMu0_eq H hacc hc, H.mu, sub_ne_zero, Ne, Ne, one_div, one_div, inv_inj]
  refine ⟨n, hn, fun hq => ⟨hsum2.1 hq.peaks, fun i hi => (hx i hi).1 (hq.secondary.2 i (by rw [H.N]; exact hi))⟩, ?_⟩
  rintro ⟨h1, h2⟩
  constructor
  · refine ⟨by rw [H.mu0]; exact hb.1.1.ne', fun i hi => ?_⟩
    rw [H.mu0, H.muArr_eq]
    rw [H.N] at hi
    unfold stream
    split_ifs with hlt
    · have := (node_pos hw.gauss hlt).1
      have := hb.1.1
      positivity
    · intro h0
      have := hw.angles hc.1 (i - nHalf a) (by omega)
      rw [show node E a (i - nHalf a) - a.mu0 = 0 by linarith, abs_zero] at this
      norm_num at this
  · intro l hl
    rw [H.NLayers] at hl
    rw [H.f l hl]
    linarith [hw.peak l hl]
  · intro l hl
    rw [H.NLayers] at hl
    refine ⟨by rw [H.scale l hl]; exact (Args.scale_pos hacc hl).ne', fun i hi => ?_⟩
    rw [H.mu]; rw [H.N] at hi
    exact (node_pos hw.gauss hi).1.ne'
  · intro i _ k _
    unfold NTIn.decayProd
    split_ifs
    · exact one_ne_zero
    · exact (Real.exp_pos _).ne'
  · rw [H.NLayers, H.tauArr]
    exact (sum_pos (fun k hk => hpos k (mem_range.1 hk)) ⟨0, mem_range.2 hacc.layers⟩).ne'
  · exact (sum1_pos H hacc hc).ne'
  · exact hsum2.2 h1
  · rw [avg_eq H hacc hc]; linarith
  · refine ⟨by rw [scaledMu0_eq H hacc hc]; exact hsm.ne', fun i hi => (hx i (by rw [H.N] at hi; exact hi)).2 (h2 i (by rw [H.N] at hi; exact hi))⟩
  · refine ⟨by rw [H.mu0]; nlinarith [hb.1.1, hb.1.2], fun i hi => ?_⟩
    rw [H.N] at hi
    rw [H.mu]
    have h3 := node_pos hw.gauss hi
    nlinarith [h3.1, h3.2]

/-! ### The statement is false for the corrections -/

/-- An atmosphere whose upper layer only absorbs, with a forward peak given for that layer only. -/
noncomputable def demoPure (n : ℕ) (x : ℝ) : Args :=
  { demoIso n 2 n x with
    omega := ⟨2, fun l => if l = 0 then 0 else 1 / 2⟩
    fArr := ⟨2, fun l => if l = 0 then 1 / 8 else 0⟩
    NTcor := true }

theorem demoPure_wellPosed {n : ℕ} (hn : 0 < n) (hn' : n < 10 ^ 7) : ∃ x, WellPosed refExt (demoPure n x) := by
  set v := node refExt (demoPure n 1) with hv
  obtain ⟨x, hx, hb⟩ := exists_beamRegular_in (demoPure n 1) v (weight refExt (demoPure n 1)) (fun y hy => hy.1) (away_infinite hn' v)
  have hN : ∀ x, nHalf (demoPure n x) = n := fun x => demoIso_nHalf (n := n) (L := 2) (F := n) (x := x)
  have hg : GaussContract refExt (nHalf (demoPure n x)) := by rw [hN]; exact refExt_gauss hn
  have hom : ∀ l, (0 : ℝ) ≤ (if l = 0 then 0 else 1 / 2) ∧ (if l = 0 then (0 : ℝ) else 1 / 2) < 1 := fun l => by split_ifs <;> norm_num
  have hpk : ∀ l : ℕ, (0 : ℝ) ≤ (if l = 0 then 1 / 8 else 0) ∧ (if l = 0 then (1 : ℝ) / 8 else 0) ≤ 1 / 8 := fun l => by split_ifs <;> norm_num
  have hacc : Accepted (demoPure n x) :=
    { demoIso_accepted (n := n) (L := 2) (F := n) hn (by norm_num) hn le_rfl hx.1.1 hx.1.2 with
      omegaLen := rfl
      omega := fun l _ => hom l
      peakLen := Or.inr rfl
      peak := fun l _ => ⟨(hpk l).1, (hpk l).2.trans (by norm_num)⟩ }
  have hpk' : ∀ l < 2, peak (demoPure n x) l = if l = 0 then 1 / 8 else 0 := fun l hl => if_pos hl
  refine ⟨x, hacc, hg, refExt_eig, fun l hl => ?_, ?_, hb, ?_, trivial, trivial, Or.inl rfl, Or.inr (Nat.le_of_ble_eq_true rfl), fun _ i hi => ?_⟩
  · rw [hpk' l hl]; linarith [(hpk l).2]
  · refine dissipates_of_nLeg_le hg ?_ hacc.omega ?_ ?_
    · rw [hN]; exact (demoIso_nLeg (n := n) (L := 2) (F := n) (x := x)).le
    · intro l hl
      rw [hpk' l hl]; exact ⟨(hpk l).1, by linarith [(hpk l).2]⟩
    · intro l _ k _
      unfold leg
      split_ifs with h
      · exact le_rfl
      · simp only [demoPure, demoIso]
        split_ifs
        linarith [(isoPeak_bounds l).2]
  · intro m _ M hM
    simp [demoPure, demoIso] at hM
  · rw [hN] at hi
    exact hx.2 i hi

/-- C92 is false: in a well-posed call with corrections, the denominator `sum2` of line 609 can be zero. The numerator is not zero for the
coefficients that are not used in the solver. Any number of streams. -/
theorem C92_peaks_false {n : ℕ} (hn : 0 < n) (hn' : n < 10 ^ 7) (J : Junk) :
    ∃ a R I, WellPosed refExt a ∧ Corrected a ∧ nHalf a = n ∧ pydisort refExt J a = .ok R ∧ R.nt = some I ∧ I.sum2 = 0 ∧
      ∀ k, nLeg a ≤ k → k < a.leg.c → weighted a (fun l => leg a l k) ≠ 0 := by
  obtain ⟨x, hw⟩ := demoPure_wellPosed hn hn'
  obtain ⟨R, hR⟩ := pydisort_isOk hw J
  have hc : Corrected (demoPure n x) :=
    ⟨rfl, rfl, one_pos, ⟨0, by norm_num [demoPure], by norm_num [demoPure]⟩, by
      rw [show nLeg (demoPure n x) = n from demoIso_nLeg (n := n) (L := 2) (F := n) (x := x)]
      change n < 2 * n; omega,
      ⟨1, by norm_num [demoPure], by norm_num [demoPure]⟩⟩
  obtain ⟨I, hI, H⟩ := ntSpec hR hc
  refine ⟨_, R, I, hw, hc, demoIso_nHalf (n := n) (L := 2) (F := n) (x := x), hR, hI, ?_, fun k hk hk' => ?_⟩
  · rw [sum2_eq H]
    unfold weighted
    refine sum_eq_zero fun k _ => ?_
    unfold peak
    simp only [demoPure]
    split_ifs <;> simp_all
  · rw [show nLeg (demoPure n x) = n from demoIso_nLeg (n := n) (L := 2) (F := n) (x := x)] at hk
    unfold weighted
    rw [show (demoPure n x).tauArr.n = 2 from rfl, sum_range_succ, sum_range_one]
    unfold leg
    have hk' : k < 2 * n := hk'
    simp only [demoPure, demoIso]
    have : 0 < isoPeak 1 := by linarith [(isoPeak_bounds 1).1]
    have hk0 : k ≠ 0 := by omega
    simp [hk', this.ne']
    rw [if_neg hk0, if_neg hk0]
    positivity

/-- An atmosphere of one layer and two streams in which the scaled angle of the beam is the quadrature angle. -/
noncomputable def demoGrazing : Args := { demoIso 1 1 1 (15 / 32) with NTcor := true }

/-- C92 is false: in a well-posed call with corrections, `x = 1 / mu - 1 / scaled_mu0` of line 617, by which lines 623-628 divide, can be zero; the
code only tests the angle of the beam itself. -/
theorem C92_secondary_false (J : Junk) : ∃ a R I, WellPosed refExt a ∧ Corrected a ∧ pydisort refExt J a = .ok R ∧ R.nt = some I ∧
    (∃ l < a.tauArr.n, peak a l * a.omega.get l ≠ 0) ∧ 1 / I.mu 0 - 1 / I.scaledMu0 = 0 := by
  have hN : nHalf demoGrazing = 1 := demoIso_nHalf (n := 1) (L := 1) (F := 1) (x := 15 / 32)
  have hg : GaussContract refExt (nHalf demoGrazing) := by rw [hN]; exact refExt_gauss one_pos
  obtain ⟨n0, w0⟩ := half_node (E := refExt) demoGrazing hN hg
  have hacc : Accepted demoGrazing :=
    { demoIso_accepted (n := 1) (L := 1) (F := 1) (x := 15 / 32) one_pos one_pos one_pos le_rfl (by norm_num) (by norm_num) with }
  have hp : ∀ l < 1, peak demoGrazing l = isoPeak l := fun l hl => demoIso_peak (n := 1) (F := 1) (x := 15 / 32) hl
  have hk : ∀ y z, kernel demoGrazing 0 0 y z = 7 / 30 := by
    intro y z
    rw [show kernel demoGrazing 0 0 y z = omegaStar (demoIso 1 1 1 (15 / 32)) 0 / 2 from demoIso_kernel (n := 1) (F := 1) one_pos one_pos y z]
    unfold omegaStar
    rw [demoIso_scale one_pos, demoIso_peak one_pos]
    simp only [isoPeak, demoIso, if_true]
    norm_num
  have hw : WellPosed refExt demoGrazing := by
    refine ⟨hacc, hg, refExt_eig, fun l hl => ?_, ?_, ?_, ?_, trivial, trivial, Or.inl rfl, Or.inr (Nat.le_of_ble_eq_true rfl), fun _ i hi => ?_⟩
    · rw [hp l hl]; linarith [(isoPeak_bounds l).2]
    · refine dissipates_of_nLeg_le hg ?_ hacc.omega ?_ ?_
      · rw [hN]; exact (demoIso_nLeg (n := 1) (L := 1) (F := 1) (x := 15 / 32)).le
      · intro l hl
        rw [hp l hl]; exact ⟨by linarith [(isoPeak_bounds l).1], by linarith [(isoPeak_bounds l).2]⟩
      · intro l _ k _
        unfold leg
        split_ifs with h
        · exact le_rfl
        · simp only [demoGrazing, demoIso]
          split_ifs
          linarith [(isoPeak_bounds l).2]
    · intro _ m hm l hl _
      rw [show nFourier demoGrazing = 1 from demoIso_nFourier (n := 1) (L := 1) (F := 1) (x := 15 / 32)] at hm
      have hl' : l < 1 := hl
      obtain rfl : m = 0 := by omega
      obtain rfl : l = 0 := by omega
      rw [hN, Matrix.det_fin_one]
      simp only [toM, reduced, range_one, sum_singleton, Spec.alpha, Spec.beta, hk, Fin.isValue, Fin.val_zero, n0, w0, if_true]
      change _ - 1 / (15 / 32 : ℝ) ^ 2 ≠ 0
      norm_num
    · intro m _ M hM
      simp [demoGrazing, demoIso] at hM
    · rw [hN] at hi
      obtain rfl : i = 0 := by omega
      rw [n0]
      change _ ≤ |(1 / 2 : ℝ) - 15 / 32|
      norm_num
  obtain ⟨R, hR⟩ := pydisort_isOk hw J
  have hc : Corrected demoGrazing :=
    ⟨rfl, rfl, one_pos, ⟨0, one_pos, by norm_num [demoGrazing, demoIso, isoPeak]⟩, by
      rw [show nLeg demoGrazing = 1 from demoIso_nLeg (n := 1) (L := 1) (F := 1) (x := 15 / 32)]
      change 1 < 2 * 1; omega, ⟨0, one_pos, by norm_num [demoGrazing, demoIso]⟩⟩
  obtain ⟨I, hI, H⟩ := ntSpec hR hc
  refine ⟨_, R, I, hw, hc, hR, hI, ⟨0, one_pos, ?_⟩, ?_⟩
  · rw [hp 0 one_pos]; norm_num [isoPeak, demoGrazing, demoIso]
  · rw [scaledMu0_eq H hacc hc, H.mu, n0]
    have hav : avgPeak demoGrazing = 1 / 16 := by
      unfold avgPeak weighted
      rw [show demoGrazing.tauArr.n = 1 from rfl, sum_range_one, sum_range_one, hp 0 one_pos]
      norm_num [isoPeak, demoGrazing, demoIso]
    unfold scaledMu0
    rw [hav]
    norm_num [demoGrazing, demoIso]

/-- Two layers with a forward peak: all quotients are defined for some beam direction, also those of the corrections. -/
example (n : ℕ) (hn : 0 < n) (hn' : n < 10 ^ 7) (J : Junk) : ∃ a R I, nHalf a = n ∧ pydisort refExt J a = .ok R ∧ SolverQuotients a R ∧
    R.nt = some I ∧ CorrectionQuotients I :=
  let ⟨a, R, hR, hw, hr, hc, _, hN, _, h1, h2, _⟩ := exists_equalScale J hn hn'
  let ⟨I, hI, hiff⟩ := C92_correction_quotients_partial hw hc hR
  ⟨a, R, I, hN, hR, C92_solver_quotients hw hr hR, hI, hiff.2 ⟨h1, h2⟩⟩

end Pydisort

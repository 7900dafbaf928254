import Verif.Spec.TwoStream
import Verif.Props.Bounds

/-!
# C105: with two streams the code computes the two-stream approximation

Specification used: `Spec.TwoStream`, `Spec.twoUp`, `Spec.twoDown`.
-/

namespace Pydisort
open Finset Spec

variable {E : Ext} {J : Junk} {a : Args} {R : Solved}

theorem assocLegendre_zero_zero (x : ℝ) : assocLegendre 0 0 x = 1 := by simp [assocLegendre, legendreP_zero]
theorem assocLegendre_zero_one (x : ℝ) : assocLegendre 0 1 x = x := by simp [assocLegendre, legendreP_one]

section
variable {I Ib B : ℝ}

theorem two_nHalf (ht : TwoStream a I Ib B) : nHalf a = 1 := by unfold nHalf; rw [ht.streams]; rfl

theorem two_nLeg (ht : TwoStream a I Ib B) (hacc : Accepted a) : nLeg a = 1 ∨ nLeg a = 2 := by
  have := hacc.nLeg
  rw [ht.streams] at this
  unfold nLeg
  rw [ht.streams]
  omega

theorem two_moment (ht : TwoStream a I Ib B) (hacc : Accepted a) (hpk : peak a 0 < 1) (x y : ℝ) :
    phaseMoment (nLeg a) (legStar a 0) 0 x y = 1 + 3 * asymmetry a * x * y := by
  have h0 : legStar a 0 0 = 1 := by unfold legStar leg; rw [if_pos rfl]; exact div_self (by linarith)
  unfold phaseMoment asymmetry
  rcases two_nLeg ht hacc with h | h
  · rw [h, if_pos rfl]
    simp [assocLegendre_zero_zero, h0]
  · rw [h, if_neg (by norm_num)]
    simp only [sum_Ico_eq_sum_range, sum_range_succ, sum_range_zero]
    rw [h0]
    simp [-mul_eq_mul_right_iff, assocLegendre_zero_zero, assocLegendre_zero_one]
    norm_num

theorem two_kernel (ht : TwoStream a I Ib B) (hacc : Accepted a) (hpk : peak a 0 < 1) (hn : NoNeglect a) (x y : ℝ) :
    kernel a 0 0 x y = omegaStar a 0 / 2 * (1 + 3 * asymmetry a * x * y) := by
  unfold kernel scatD
  rw [two_moment ht hacc hpk]
  split_ifs with h
  · rfl
  · rcases hn 0 (by rw [ht.layer]; exact one_pos) with h0 | h0
    · rw [h0]; ring
    · exact absurd h0 h

theorem two_beam (ht : TwoStream a I Ib B) (hacc : Accepted a) (hpk : peak a 0 < 1) (hn : NoNeglect a) (x : ℝ) :
    beamSource a 0 0 x = fromBeam (omegaStar a 0) (asymmetry a) a.I0 a.mu0 x := by
  unfold beamSource beamX fromBeam
  rw [two_moment ht hacc hpk, if_pos (rfl : (0 : ℕ) = 0)]
  split_ifs with h
  · ring
  · rcases hn 0 (by rw [ht.layer]; exact one_pos) with h0 | h0
    · rw [h0]; ring
    · exact absurd h0 h

theorem two_rule (ht : TwoStream a I Ib B) (hg : GaussContract E (nHalf a)) : node E a 0 = 1 / 2 ∧ weight E a 0 = 1 := by
  have h1 := sum_weight_node hg (by rw [two_nHalf ht]; exact one_pos)
  have h2 := half_exact hg 1 (by simp)
  rw [two_nHalf ht, sum_range_one] at h1 h2
  simp only [Polynomial.eval_one, mul_one, intervalIntegral.integral_const, sub_zero, smul_eq_mul] at h2
  rw [h2, one_mul] at h1
  exact ⟨h1, h2⟩

theorem kappa_sq {om g : ℝ} (h1 : om < 1) (h2 : 3 / 4 * om * g < 1) : kappa om g ^ 2 = gamma1 om g ^ 2 - gamma2 om g ^ 2 := by
  unfold kappa gamma1 gamma2
  rw [mul_pow, Real.sq_sqrt (by nlinarith)]
  ring

theorem nFourier_pos' (hacc : Accepted a) : 0 < nFourier a := by
  unfold nFourier
  split_ifs with h
  · exact one_pos
  · have := hacc.modes (by simpa using h)
    omega

theorem two_dissipates (ht : TwoStream a I Ib B) (hw : WellPosed E a) (hn : NoNeglect a) :
    omegaStar a 0 < 1 ∧ 3 / 4 * omegaStar a 0 * asymmetry a < 1 := by
  have hl : 0 < a.tauArr.n := by rw [ht.layer]; exact one_pos
  have hd := hw.dissipates 0 (nFourier_pos' hw.accepted) 0 hl
  obtain ⟨hm, hwt⟩ := two_rule ht hw.gauss
  have hk := two_kernel ht hw.accepted (hw.peak 0 hl) hn
  rw [two_nHalf ht] at hd
  constructor
  · have := hd (fun _ => 1) ⟨0, by norm_num, one_ne_zero⟩
    simp only [sum_range_succ, sum_range_zero, hk, streamW, stream, hm, hwt] at this
    norm_num at this
    linarith
  · have := hd (fun i => if i = 0 then 1 else -1) ⟨0, by norm_num, by norm_num⟩
    simp only [sum_range_succ, sum_range_zero, hk, streamW, stream, hm, hwt] at this
    norm_num at this
    linarith

theorem two_den {om g T : ℝ} (h0 : 0 ≤ om) (h1 : om < 1) (h2 : 3 / 4 * om * g < 1) (hT : 0 < T) :
    0 < kappa om g * Real.cosh (kappa om g * T) + gamma1 om g * Real.sinh (kappa om g * T) := by
  have hk : 0 < kappa om g := by
    unfold kappa
    have : 0 < (1 - om) * (1 - 3 / 4 * om * g) := mul_pos (by linarith) (by linarith)
    positivity
  have hg : 0 < gamma1 om g := by unfold gamma1; linarith
  have := Real.sinh_pos_iff.2 (mul_pos hk hT)
  have := Real.cosh_pos (kappa om g * T)
  positivity

/-- The amplitudes of the light that follows the beam. -/
theorem follow_spec {om g I0 mu0 : ℝ} (h1 : om < 1) (h2 : 3 / 4 * om * g < 1) (hd : om * I0 = 0 ∨ kappa om g ^ 2 ≠ 1 / mu0 ^ 2) :
    -(1 / mu0) * followUp om g I0 mu0 = gamma1 om g * followUp om g I0 mu0 - gamma2 om g * followDown om g I0 mu0 - 2 * fromBeam om g I0 mu0 (1 / 2) ∧
      -(1 / mu0) * followDown om g I0 mu0 = gamma2 om g * followUp om g I0 mu0 - gamma1 om g * followDown om g I0 mu0 + 2 * fromBeam om g I0 mu0 (-1 / 2) := by
  rcases hd with h | h
  · have e : ∀ x, fromBeam om g I0 mu0 x = 0 := fun x => by unfold fromBeam; rw [h]; ring
    simp [followUp, followDown, e]
  · have hne : kappa om g ^ 2 - 1 / mu0 ^ 2 ≠ 0 := sub_ne_zero.2 h
    have hk := kappa_sq h1 h2
    have e1 : 1 / mu0 ^ 2 = (1 / mu0) ^ 2 := by rw [one_div, one_div, inv_pow]
    unfold followUp followDown
    rw [hk, e1] at hne ⊢
    generalize fromBeam om g I0 mu0 (1 / 2) = X at *
    generalize fromBeam om g I0 mu0 (-1 / 2) = Y at *
    generalize gamma1 om g = p at *
    generalize gamma2 om g = q at *
    generalize 1 / mu0 = r at *
    constructor
    · field_simp
      ring
    · field_simp
      ring

theorem onward_deriv (om g T x : ℝ) (h1 : om < 1) (h2 : 3 / 4 * om * g < 1) :
    HasDerivAt (onward om g T) (gamma1 om g * onward om g T x - gamma2 om g * backward om g T x) x := by
  have hk := kappa_sq h1 h2
  have hl : HasDerivAt (fun x => kappa om g * x) (kappa om g) x := by simpa using (hasDerivAt_id x).const_mul (kappa om g)
  have := (((hl.cosh).const_mul (kappa om g)).add ((hl.sinh).const_mul (gamma1 om g))).div_const
    (kappa om g * Real.cosh (kappa om g * T) + gamma1 om g * Real.sinh (kappa om g * T))
  refine this.congr_deriv ?_
  unfold onward backward
  rw [← mul_div_assoc, ← mul_div_assoc, ← sub_div]
  congr 1
  linear_combination Real.sinh (kappa om g * x) * hk

theorem backward_deriv (om g T x : ℝ) :
    HasDerivAt (backward om g T) (gamma2 om g * onward om g T x - gamma1 om g * backward om g T x) x := by
  have hl : HasDerivAt (fun x => kappa om g * x) (kappa om g) x := by simpa using (hasDerivAt_id x).const_mul (kappa om g)
  have := ((hl.sinh).const_mul (gamma2 om g)).div_const
    (kappa om g * Real.cosh (kappa om g * T) + gamma1 om g * Real.sinh (kappa om g * T))
  refine this.congr_deriv ?_
  unfold onward backward
  rw [← mul_div_assoc, ← mul_div_assoc, ← sub_div]
  congr 1
  ring

section
variable {om g I0 mu0 T : ℝ}

theorem follow_deriv (mu0 x : ℝ) : HasDerivAt (fun x => Real.exp (-x / mu0)) (-(1 / mu0) * Real.exp (-x / mu0)) x := by
  have : HasDerivAt (fun x => -x / mu0) (-(1 / mu0)) x := by
    simpa [neg_div] using ((hasDerivAt_id x).neg.div_const mu0)
  exact this.exp.congr_deriv (by ring)

theorem twoUp_deriv (h1 : om < 1) (h2 : 3 / 4 * om * g < 1) (hd : om * I0 = 0 ∨ kappa om g ^ 2 ≠ 1 / mu0 ^ 2) (I Ib B x : ℝ) :
    HasDerivAt (twoUp om g I0 mu0 I Ib B T) (gamma1 om g * twoUp om g I0 mu0 I Ib B T x - gamma2 om g * twoDown om g I0 mu0 I Ib B T x
      - 2 * fromBeam om g I0 mu0 (1 / 2) * Real.exp (-x / mu0) - 2 * (1 - om) * B) x := by
  have hf := (follow_spec h1 h2 hd).1
  have d1 := (follow_deriv mu0 x).const_mul (followUp om g I0 mu0)
  have d2 := ((backward_deriv om g T (T - x)).comp x ((hasDerivAt_id x).const_sub T)).const_mul (I - B - followDown om g I0 mu0)
  have d3 := (onward_deriv om g T x h1 h2).const_mul (Ib - B - followUp om g I0 mu0 * Real.exp (-T / mu0))
  refine (((d1.const_add B).add d2).add d3).congr_deriv ?_
  unfold twoUp twoDown
  have e : gamma1 om g - gamma2 om g = 2 * (1 - om) := by unfold gamma1 gamma2; ring
  linear_combination Real.exp (-x / mu0) * hf - B * e

theorem twoDown_deriv (h1 : om < 1) (h2 : 3 / 4 * om * g < 1) (hd : om * I0 = 0 ∨ kappa om g ^ 2 ≠ 1 / mu0 ^ 2) (I Ib B x : ℝ) :
    HasDerivAt (twoDown om g I0 mu0 I Ib B T) (gamma2 om g * twoUp om g I0 mu0 I Ib B T x - gamma1 om g * twoDown om g I0 mu0 I Ib B T x
      + 2 * fromBeam om g I0 mu0 (-1 / 2) * Real.exp (-x / mu0) + 2 * (1 - om) * B) x := by
  have hf := (follow_spec h1 h2 hd).2
  have d1 := (follow_deriv mu0 x).const_mul (followDown om g I0 mu0)
  have d2 := ((onward_deriv om g T (T - x) h1 h2).comp x ((hasDerivAt_id x).const_sub T)).const_mul (I - B - followDown om g I0 mu0)
  have d3 := (backward_deriv om g T x).const_mul (Ib - B - followUp om g I0 mu0 * Real.exp (-T / mu0))
  refine (((d1.const_add B).add d2).add d3).congr_deriv ?_
  unfold twoUp twoDown
  have e : gamma1 om g - gamma2 om g = 2 * (1 - om) := by unfold gamma1 gamma2; ring
  linear_combination Real.exp (-x / mu0) * hf + B * e

theorem twoUp_bottom (h0 : 0 ≤ om) (h1 : om < 1) (h2 : 3 / 4 * om * g < 1) (hT : 0 < T) (I Ib B : ℝ) : twoUp om g I0 mu0 I Ib B T T = Ib := by
  have h := (two_den h0 h1 h2 hT).ne'
  unfold twoUp onward backward
  rw [div_self h]
  simp

theorem twoDown_top (h0 : 0 ≤ om) (h1 : om < 1) (h2 : 3 / 4 * om * g < 1) (hT : 0 < T) (I Ib B : ℝ) : twoDown om g I0 mu0 I Ib B T 0 = I := by
  have h := (two_den h0 h1 h2 hT).ne'
  unfold twoDown onward backward
  rw [sub_zero, div_self h]
  simp

end

/-- The closed form solves the boundary value problem of mode zero. -/
theorem two_isSolution (ht : TwoStream a I Ib B) (hw : WellPosed E a) (hn : NoNeglect a) (rho : ℝ → ℝ → ℝ) :
    IsSolution a (node E a) (weight E a) rho 0 (fun t i =>
      (if i = 0 then twoUp else twoDown) (omegaStar a 0) (asymmetry a) a.I0 a.mu0 I Ib B (scale a 0 * bottom a) (scale a 0 * t)) := by
  have hacc := hw.accepted
  have hl : 0 < a.tauArr.n := by rw [ht.layer]; exact one_pos
  obtain ⟨h1, h2⟩ := two_dissipates ht hw hn
  obtain ⟨hm, hwt⟩ := two_rule ht hw.gauss
  have hk := two_kernel ht hacc (hw.peak 0 hl) hn
  have hb := two_beam ht hacc (hw.peak 0 hl) hn
  have hs := Args.scale_pos hacc hl
  have hT : 0 < scale a 0 * bottom a := mul_pos hs (bottom_pos hacc)
  have h0 : 0 ≤ omegaStar a 0 := by
    unfold omegaStar
    have := (hacc.omega 0 hl).1
    have := hw.peak 0 hl
    exact div_nonneg (mul_nonneg (by linarith) (by assumption)) hs.le
  have hd : omegaStar a 0 * a.I0 = 0 ∨ kappa (omegaStar a 0) (asymmetry a) ^ 2 ≠ 1 / a.mu0 ^ 2 := by
    rcases eq_or_lt_of_le hacc.beam with hI | hI
    · left; rw [← hI, mul_zero]
    rcases hn 0 hl with hz | hz
    · left; rw [hz, zero_mul]
    right
    intro he
    refine hw.beam hI 0 (nFourier_pos' hacc) 0 hl hz ?_
    rw [two_nHalf ht, Matrix.det_fin_one]
    unfold toM reduced alpha beta
    simp only [Matrix.of_apply, Fin.val_eq_zero, sum_range_one, if_true, hk, hm, hwt]
    rw [← he, kappa_sq h1 h2]
    unfold gamma1 gamma2
    ring
  have hts : ∀ t, tauStar a 0 t = scale a 0 * t := by
    intro t
    unfold tauStar bdryStar bdry
    simp
  have habs : scale a 0 * (1 - omegaStar a 0) = 1 - a.omega.get 0 := by
    unfold omegaStar
    rw [mul_sub, mul_div_cancel₀ _ hs.ne']
    unfold scale; ring
  have hlin : ∀ t, HasDerivAt (fun t => scale a 0 * t) (scale a 0) t := fun t => by simpa using (hasDerivAt_id t).const_mul (scale a 0)
  refine ⟨fun i _ => ?_, fun l hl' t t0 t1 i hi => ?_, fun i hi => ?_, fun i hi => ?_⟩
  · split_ifs
    · exact fun t _ => (((twoUp_deriv h1 h2 hd I Ib B _).comp t (hlin t)).continuousAt).continuousWithinAt
    · exact fun t _ => (((twoDown_deriv h1 h2 hd I Ib B _).comp t (hlin t)).continuousAt).continuousWithinAt
  · obtain rfl : l = 0 := by rw [ht.layer] at hl'; omega
    have hin : InLayer a 0 t := ⟨t0.le, t1.le⟩
    rw [two_nHalf ht] at hi
    rw [rteUser_zero, hts, ht.inner t hin, two_nHalf ht]
    interval_cases i
    · refine ⟨_, (twoUp_deriv h1 h2 hd I Ib B _).comp t (hlin t), ?_⟩
      simp only [sum_range_succ, sum_range_zero, hk, hb, streamW, stream, hm, hwt]
      norm_num
      unfold gamma1 gamma2
      linear_combination (-B) * habs
    · refine ⟨_, (twoDown_deriv h1 h2 hd I Ib B _).comp t (hlin t), ?_⟩
      simp only [sum_range_succ, sum_range_zero, hk, hb, streamW, stream, hm, hwt]
      norm_num
      unfold gamma1 gamma2
      linear_combination (-B) * habs
  · rw [two_nHalf ht] at hi ⊢
    obtain rfl : i = 0 := by omega
    rw [if_neg (by norm_num), mul_zero, twoDown_top h0 h1 h2 hT, ht.top]
  · rw [two_nHalf ht] at hi
    obtain rfl : i = 0 := by omega
    rw [if_pos rfl, twoUp_bottom h0 h1 h2 hT, ht.bottom, ht.black]
    simp

/-- **C105.** With two streams and one layer over black ground, the returned functions are the two-stream approximation: the upward intensity is `twoUp`, the downward intensity
`twoDown`, at the delta-M scaled depth; the fluxes are `π` times these (plus the attenuated beam). -/
theorem C105_two_stream (h : pydisort E J a = .ok R) (hw : WellPosed E a) (hres : Rescalable a) (hn : NoNeglect a) (ht : TwoStream a I Ib B)
    {F : Fields} (hF : Evaluates a R F) {t : ℝ} (h0 : 0 ≤ t) (h1 : t ≤ bottom a) :
    F.u0 t 0 = twoUp (omegaStar a 0) (asymmetry a) a.I0 a.mu0 I Ib B (scale a 0 * bottom a) (scale a 0 * t) ∧
    F.u0 t 1 = twoDown (omegaStar a 0) (asymmetry a) a.I0 a.mu0 I Ib B (scale a 0 * bottom a) (scale a 0 * t) ∧
    F.up t = Real.pi * twoUp (omegaStar a 0) (asymmetry a) a.I0 a.mu0 I Ib B (scale a 0 * bottom a) (scale a 0 * t) ∧
    F.diffuse t + F.direct t = Real.pi * twoDown (omegaStar a 0) (asymmetry a) a.I0 a.mu0 I Ib B (scale a 0 * bottom a) (scale a 0 * t)
      + a.I0 * a.mu0 * Real.exp (-(scale a 0 * t) / a.mu0) := by
  have hacc := hw.accepted
  have hl : 0 < a.tauArr.n := by rw [ht.layer]; exact one_pos
  obtain ⟨U, hU, _⟩ := C02_modes_solve_transfer_equation h hw.sound hres
  have hno : ∀ m < nFourier a, ∀ M, a.bdrf[m]? = some M → Represents M (fun _ _ => 0) := fun m _ M hM => by rw [ht.black] at hM; simp at hM
  have hs := modes_isSolution h hw.sound hres hw.bottomBC hw.topBC hno hU (nFourier_pos' hacc)
  have key := solution_unique hacc hw.gauss hw.dissipates hw.surface (nFourier_pos' hacc) (hno 0 (nFourier_pos' hacc)) hs (two_isSolution ht hw hn _) t h0 h1
  rw [two_nHalf ht] at key
  have k0 := key 0 (by norm_num)
  have k1 := key 1 (by norm_num)
  rw [if_pos rfl] at k0
  rw [if_neg (by norm_num)] at k1
  obtain ⟨e1, e2, e3, e4⟩ := evaluates_unique hF (evaluates h hres hU) h0 h1
  rw [two_nHalf ht] at e1
  obtain ⟨hm, hwt⟩ := two_rule ht hw.gauss
  refine ⟨(e1 0 (by norm_num)).trans k0, (e1 1 (by norm_num)).trans k1, ?_, ?_⟩
  · rw [e2]
    change hemiFlux a (node E a) (weight E a) (fun i => U 0 t i) = _
    unfold hemiFlux
    rw [two_nHalf ht, sum_range_one, hm, hwt]
    beta_reduce
    rw [k0]; ring
  · rw [e3, e4]
    change hemiFlux a (node E a) (weight E a) (fun i => U 0 t (nHalf a + i)) + (a.I0 * a.mu0 * Real.exp (-tauStar a (layOf a t) t / a.mu0)
      - a.I0 * a.mu0 * Real.exp (-t / a.mu0)) + a.I0 * a.mu0 * Real.exp (-t / a.mu0) = _
    have hlay : layOf a t = 0 := by
      have := (layOf_spec hacc h0 h1).1
      rw [ht.layer] at this; omega
    have hts : tauStar a 0 t = scale a 0 * t := by
      unfold tauStar bdryStar bdry
      simp
    unfold hemiFlux
    rw [two_nHalf ht, sum_range_one, hm, hwt, hlay, hts]
    beta_reduce
    rw [add_zero, k1]; ring

/-- **C105, plane albedo and transmission.** Diffuse light alone, from above: the fluxes that leave the layer at the top and at the bottom. -/
theorem C105_reflection_transmission (h : pydisort E J a = .ok R) (hw : WellPosed E a) (hres : Rescalable a) (hn : NoNeglect a) (ht : TwoStream a I 0 0)
    (hI : a.I0 = 0) {F : Fields} (hF : Evaluates a R F) {om g k T : ℝ} (hom : om = omegaStar a 0) (hg : g = asymmetry a) (hk : k = kappa om g)
    (hT : T = scale a 0 * bottom a) :
    F.up 0 = Real.pi * I * (gamma2 om g * Real.sinh (k * T)) / (k * Real.cosh (k * T) + gamma1 om g * Real.sinh (k * T)) ∧
    F.diffuse (bottom a) = Real.pi * I * k / (k * Real.cosh (k * T) + gamma1 om g * Real.sinh (k * T)) := by
  have hb := (bottom_pos hw.accepted).le
  have k1 := (C105_two_stream h hw hres hn ht hF le_rfl hb).2.2.1
  have k2 := (C105_two_stream h hw hres hn ht hF hb le_rfl).2.2.2
  obtain ⟨U, hU, _⟩ := C02_modes_solve_transfer_equation h hw.sound hres
  have e4 := (evaluates_unique hF (evaluates h hres hU) hb le_rfl).2.2.2
  have hz : F.direct (bottom a) = 0 := by
    rw [e4]
    change a.I0 * _ * _ = 0
    rw [hI]; ring
  rw [hz, add_zero] at k2
  rw [k1, k2, ← hT, ← hg, ← hom, hI, hk]
  have f1 : followUp om g 0 a.mu0 = 0 := by unfold followUp fromBeam; simp
  have f2 : followDown om g 0 a.mu0 = 0 := by unfold followDown fromBeam; simp
  unfold twoUp twoDown
  rw [f1, f2]
  unfold onward backward
  simp only [mul_zero, zero_mul, sub_zero, zero_add, add_zero, sub_self, Real.cosh_zero, Real.sinh_zero, mul_one]
  constructor <;> ring

end

/-- One layer of thickness `T`, with a beam, light from above and below, a constant source, and delta-M scaling. -/
noncomputable def demoTwo (T : ℝ) : Args where
  tauArr := ⟨1, fun _ => T⟩
  omega := ⟨1, fun _ => 1 / 2⟩
  NQuad := 2
  leg := ⟨1, 2, fun _ k => (1 / 2) ^ k⟩
  mu0 := 1
  I0 := 1
  phi0 := 1
  NFourier := some 1
  bpos := .scalar 2
  bneg := .vec ⟨1, fun _ => 3⟩
  fArr := ⟨1, fun _ => 1 / 8⟩
  s := ⟨1, 1, fun _ _ => 4⟩

theorem demoTwo_spec {T : ℝ} (hT : 0 < T) : WellPosed refExt (demoTwo T) ∧ NoNeglect (demoTwo T) ∧ TwoStream (demoTwo T) 3 2 4 := by
  have hacc : Accepted (demoTwo T) :=
    { layers := by simp [demoTwo]
      top := hT
      increasing := by intro k hk; simp [demoTwo] at hk
      omegaLen := rfl
      omega := by intro k _; simp only [demoTwo]; norm_num
      legRows := rfl
      legCols := by simp [demoTwo]
      legVal := by
        intro l _ k _ hk
        simp only [demoTwo]
        have hp : (0 : ℝ) < (1 / 2) ^ k := by positivity
        exact ⟨by linarith, pow_lt_one₀ (by norm_num) (by norm_num) (by omega)⟩
      peakLen := Or.inr rfl
      peak := by intro k _; simp only [demoTwo]; norm_num
      sourceRows := Or.inr rfl
      streams := ⟨le_rfl, ⟨1, rfl⟩⟩
      modes := by intro _; simp [demoTwo]
      nLeg := by simp [demoTwo]
      beam := by simp [demoTwo]
      beamDir := by
        intro _
        refine ⟨⟨one_pos, le_rfl⟩, by simp [demoTwo], ?_⟩
        simp only [demoTwo]
        linarith [Real.two_le_pi]
      bottom := trivial
      topBC := Or.inr (Or.inl rfl)
      banded := by simp [demoTwo] }
  have hl : ∀ l < (demoTwo T).tauArr.n, l = 0 := fun l hl => by simpa [demoTwo] using hl
  have hpk : peak (demoTwo T) 0 = 1 / 8 := by simp [peak, demoTwo]
  have hsc : scale (demoTwo T) 0 = 15 / 16 := by unfold scale; rw [hpk]; simp only [demoTwo]; norm_num
  have hom : omegaStar (demoTwo T) 0 = 7 / 15 := by unfold omegaStar; rw [hpk, hsc]; simp only [demoTwo]; norm_num
  have hleg0 : legStar (demoTwo T) 0 0 = 1 := by unfold legStar leg; rw [hpk]; norm_num
  have hleg1 : legStar (demoTwo T) 0 1 = 3 / 7 := by unfold legStar leg; rw [hpk]; simp only [demoTwo]; norm_num
  have hg : asymmetry (demoTwo T) = 3 / 7 := by unfold asymmetry; rw [if_neg (by simp [nLeg, demoTwo]), hleg1]
  have hnn : NoNeglect (demoTwo T) := by
    intro l h
    rw [hl l h]
    right
    refine ⟨0, le_rfl, by simp [nLeg, demoTwo], ?_⟩
    rw [hom, hleg0]; norm_num
  have ht : TwoStream (demoTwo T) 3 2 4 := ⟨rfl, rfl, rfl, fun t _ => by simp [source, demoTwo], by simp [bcVal, demoTwo], by simp [bcVal, demoTwo]⟩
  have hgc : GaussContract refExt (nHalf (demoTwo T)) := by rw [two_nHalf ht]; exact refExt_gauss one_pos
  obtain ⟨hm, hwt⟩ := two_rule ht hgc
  have hk := two_kernel ht hacc (by rw [hpk]; norm_num) hnn
  have hF : ∀ m < nFourier (demoTwo T), m = 0 := fun m h => by simpa [nFourier, demoTwo] using h
  refine ⟨⟨hacc, hgc, refExt_eig, fun l h => by rw [hl l h, hpk]; norm_num, ?_, ?_, fun m _ M hM => ?_, trivial, trivial, Or.inl rfl, Or.inr (by simp [demoTwo]),
    by simp [demoTwo]⟩, hnn, ht⟩
  · intro m hm' l h x hx
    rw [hF m hm', hl l h]
    rw [two_nHalf ht] at hx ⊢
    simp only [sum_range_succ, sum_range_zero, hk, streamW, stream, hm, hwt, hom, hg]
    norm_num
    obtain ⟨i, hi, hne⟩ := hx
    have : 0 < x 0 ^ 2 + x 1 ^ 2 := by
      interval_cases i
      · positivity
      · positivity
    nlinarith [sq_nonneg (x 0 - x 1), sq_nonneg (x 0 + x 1)]
  · intro _ m hm' l h _
    rw [hF m hm', hl l h, two_nHalf ht, Matrix.det_fin_one]
    unfold toM reduced alpha beta
    simp only [Fin.val_eq_zero, sum_range_one, if_true, hk, hm, hwt, hom, hg]
    simp only [demoTwo]
    norm_num
  · simp [demoTwo] at hM

/-- The hypotheses are met, for every thickness. -/
example {T : ℝ} (hT : 0 < T) (J : Junk) : ∃ R F, pydisort refExt J (demoTwo T) = .ok R ∧ WellPosed refExt (demoTwo T) ∧ Rescalable (demoTwo T)
    ∧ NoNeglect (demoTwo T) ∧ TwoStream (demoTwo T) 3 2 4 ∧ Evaluates (demoTwo T) R F := by
  obtain ⟨hw, hn, ht⟩ := demoTwo_spec hT
  obtain ⟨R, h⟩ := pydisort_isOk hw J
  have hr : Rescalable (demoTwo T) := Or.inl (Or.inl one_pos)
  obtain ⟨F, hF⟩ := evaluates_exists h hw.sound hr
  exact ⟨R, F, h, hw, hr, hn, ht, hF⟩

end Pydisort

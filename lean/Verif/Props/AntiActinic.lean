import Verif.Props.Handed

/-!
# C95: antiderivatives of the actinic fluxes
-/

namespace Pydisort
open Finset Spec

noncomputable section

variable {E : Ext} {J : Junk} {a : Args} {R : Solved}

/-- **C95, upward, the part that is true.** With a beam, and no internal source or a single layer, `flux_act_up(tau, True)` is an antiderivative of
`flux_act_up(tau)` in every layer, for every array of depths. Missing: see `C95_false`. -/
theorem C95_up_partial (h : pydisort E J a = .ok R) (hS : Sound E a) (hb : 0 < a.I0) (hc : NoSource a ∨ a.tauArr.n = 1) :
    ∃ F P : ℝ → ℝ,
      (∀ tau, InRange a tau → Hands (fluxActUpReturned E (R.u0Returned zero1 false) (R.u0Returned tau false)) [tau.n]
        (fun ix => F (tau.get (ix.getD 0 0)))) ∧
      (∀ tau, InRange a tau → Hands (fluxActUpReturned E (R.u0Returned zero1 false) (R.u0Returned tau true)) [tau.n]
        (fun ix => P (tau.get (ix.getD 0 0)))) ∧ AntiOf a F P := by
  obtain ⟨hd, e1, e2⟩ := depthOK_of h
  have hc' : R.I.iso = false ∨ R.I.NLayers = 1 := hc.imp (iso_false_of h) (fun x => by rw [e2]; exact x)
  obtain ⟨_, _, _, _, hN, hF⟩ := anti_facts h hS
  set f : ℕ → ℝ → ℝ := fun l t => hemiActinic a (weight E a) (fun i => R.I.rescale * R.I.fL R.S 0 l t i) with hf
  set q : ℕ → ℝ → ℝ := fun l t => hemiActinic a (weight E a) (fun i => R.I.rescale * R.I.qL R.S 0 l t i) with hq
  refine ⟨fun t => f (R.I.layer t) t, fun t => q (R.I.layer t) t, fun tau ht => ?_, fun tau ht => ?_, ?_⟩
  · obtain ⟨A, x1, x2, x3, x4⟩ := R.I.u0_plain R.S (checkTau_of_inRange h ht)
    refine Hands.congr (fluxActUpReturned_hands h x1 (by rw [x2, hN])) (by rw [x3]) fun ix hix => ?_
    rw [x3] at hix
    obtain _ | ⟨k0, _ | _⟩ := hix
    simp only [hf, hemiActinic, List.getD_cons_zero]
    congr 1
    refine sum_congr rfl fun i hi => ?_
    rw [x4 i (by have := mem_range.mp hi; omega) _ k0]
    beta_reduce
    rw [AsmIn.val_fL hd]
  · obtain ⟨A, x1, x2, x3, x4⟩ := AsmIn.u0_anti (S := R.S) hd ((beam_iff h).2 hb) hc' (checkTau_of_inRange h ht)
    refine Hands.congr (fluxActUpReturned_hands h x1 (by rw [x2, hN])) (by rw [x3]) fun ix hix => ?_
    rw [x3] at hix
    obtain _ | ⟨k0, _ | _⟩ := hix
    simp only [hq, hemiActinic, List.getD_cons_zero]
    congr 1
    refine sum_congr rfl fun i hi => ?_
    rw [x4 i (by have := mem_range.mp hi; omega) _ k0]
    beta_reduce
    rw [AsmIn.valAnti_qL hd]
  · refine antiOf_layers hd e1 e2 (fun l hl t => ?_) (fun l _ => ?_)
    · exact (HasDerivAt.fun_sum fun i _ => ((hasDerivAt_mode h hS hF hl t i).const_mul _).const_mul _).const_mul _
    · exact continuous_const.mul (continuous_finsetSum _ fun i _ => continuous_const.mul (continuous_const.mul (AsmIn.continuous_fL 0 l i)))

/-- What `flux_act_down_diffuse` computes from `u0`, for both values of the flag. -/
theorem fluxActDown_values (h : pydisort E J a = .ok R) {tau : A1 ℝ} {anti : Bool} {A : A2 ℝ} (hA : R.u0 tau anti = .ok A)
    (hr : A.r = 2 * nHalf a) (hc : A.c = tau.n) :
    Returns1 (fluxActDown E R.u0 R.u0Reclass tau anti) tau.n (fun t => hemiActinic a (weight E a) (fun i => A.get (nHalf a + i) t)
      + if ∃ k < R.I.NLayers, R.I.scale k ≠ 1 then (R.I.actReclass tau anti).get t else 0) := by
  have hsum : ∀ t, ∑ i ∈ range (nHalf a), 2 * Real.pi * weight E a i * A.get (nHalf a + i) t
      = hemiActinic a (weight E a) (fun i => A.get (nHalf a + i) t) := fun t => by
    unfold hemiActinic
    rw [mul_sum]
    exact sum_congr rfl fun i _ => by ring
  unfold fluxActDown
  rw [actWeights_ok h]
  simp only [bind, Except.bind, Solved.u0Reclass]
  rw [hA]
  simp only [hemiSum, pure, Except.pure]
  rw [if_pos (by rw [hr]; omega)]
  simp only
  by_cases hs : ∃ k < R.I.NLayers, R.I.scale k ≠ 1
  · have hn : (R.I.actReclass tau anti).n = tau.n := by
      unfold AsmIn.actReclass
      rw [if_pos hs]
      split_ifs <;> rfl
    obtain ⟨z, z1, z2, z3⟩ := A1.bin_same (fun x y : ℝ => x + y)
      (x := ⟨A.c, fun t => ∑ i ∈ range (nHalf a), 2 * Real.pi * weight E a i * A.get (nHalf a + i) t⟩)
      (y := R.I.actReclass tau anti) (by rw [hn]; exact hc)
    refine ⟨z, z1, by rw [z2]; exact hc, fun t htt => ?_⟩
    rw [z3 t (by rw [hc]; exact htt)]
    simp only
    rw [if_pos hs, hsum]
  · have e : R.I.actReclass tau anti = ⟨1, fun _ => 0⟩ := by unfold AsmIn.actReclass; rw [if_neg hs]
    rw [e]
    unfold A1.bin
    rw [bdim_one_right]
    refine ⟨_, rfl, hc, fun t htt => ?_⟩
    simp only
    rw [bix_of_lt (by rw [hc]; exact htt), hsum, if_neg hs]

/-- **C95, downward, the part that is true.** With a beam, and no internal source or a single layer, `flux_act_down_diffuse(tau, True)` is an antiderivative
of `flux_act_down_diffuse(tau)` in every layer, for every array of depths, whether or not layers are delta-M scaled. Missing: see `C95_false`. -/
theorem C95_down_partial (h : pydisort E J a = .ok R) (hS : Sound E a) (hb : 0 < a.I0) (hc : NoSource a ∨ a.tauArr.n = 1) :
    ∃ F P : ℝ → ℝ,
      (∀ tau, InRange a tau → Hands (fluxActDownReturned E (R.u0Returned zero1 false) (R.u0ReclassReturned tau false)) [tau.n]
        (fun ix => F (tau.get (ix.getD 0 0)))) ∧
      (∀ tau, InRange a tau → Hands (fluxActDownReturned E (R.u0Returned zero1 false) (R.u0ReclassReturned tau true)) [tau.n]
        (fun ix => P (tau.get (ix.getD 0 0)))) ∧ AntiOf a F P := by
  obtain ⟨hd, e1, e2⟩ := depthOK_of h
  have hc' : R.I.iso = false ∨ R.I.NLayers = 1 := hc.imp (iso_false_of h) (fun x => by rw [e2]; exact x)
  obtain ⟨hsc, _, hmu, _, hN, hF⟩ := anti_facts h hS
  have hm := hmu ((beam_iff h).2 hb)
  have hst : ∀ t, R.I.scaledTau t = R.I.sT (R.I.layer t) t := AsmIn.scaledTau_eq hd
  set f : ℕ → ℝ → ℝ := fun l t => hemiActinic a (weight E a) (fun i => R.I.rescale * R.I.fL R.S 0 l t (nHalf a + i))
    + if ∃ k < R.I.NLayers, R.I.scale k ≠ 1 then R.I.I0 * Real.exp (-R.I.sT l t / R.I.mu0) - R.I.I0 * Real.exp (-t / R.I.mu0) else 0 with hf
  set q : ℕ → ℝ → ℝ := fun l t => hemiActinic a (weight E a) (fun i => R.I.rescale * R.I.qL R.S 0 l t (nHalf a + i))
    + if ∃ k < R.I.NLayers, R.I.scale k ≠ 1 then R.I.I0 * Real.exp (-R.I.sT l t / R.I.mu0) / (-R.I.scale l / R.I.mu0)
      - R.I.I0 * Real.exp (-t / R.I.mu0) * -R.I.mu0 else 0 with hq
  refine ⟨fun t => f (R.I.layer t) t, fun t => q (R.I.layer t) t, fun tau ht => ?_, fun tau ht => ?_, ?_⟩
  · obtain ⟨A, x1, x2, x3, x4⟩ := R.I.u0_plain R.S (checkTau_of_inRange h ht)
    have x2' : A.r = 2 * nHalf a := by rw [x2, hN]
    refine Hands.congr (fluxActDownReturned_hands h x1 x2' x3 (fluxActDown_values h x1 x2' x3)) rfl fun ix hix => ?_
    obtain _ | ⟨k0, _ | _⟩ := hix
    simp only [hf, hemiActinic, List.getD_cons_zero]
    congr 1
    · congr 1
      refine sum_congr rfl fun i hi => ?_
      rw [x4 (nHalf a + i) (by have := mem_range.mp hi; omega) _ k0]
      beta_reduce
      rw [AsmIn.val_fL hd]
    · split_ifs with hs
      · unfold AsmIn.actReclass
        rw [if_pos hs, if_neg (by simp)]
        simp only [A1.map]
        rw [hst]
      · rfl
  · obtain ⟨A, x1, x2, x3, x4⟩ := AsmIn.u0_anti (S := R.S) hd ((beam_iff h).2 hb) hc' (checkTau_of_inRange h ht)
    have x2' : A.r = 2 * nHalf a := by rw [x2, hN]
    refine Hands.congr (fluxActDownReturned_hands h x1 x2' x3 (fluxActDown_values h x1 x2' x3)) rfl fun ix hix => ?_
    obtain _ | ⟨k0, _ | _⟩ := hix
    simp only [hq, hemiActinic, List.getD_cons_zero]
    congr 1
    · congr 1
      refine sum_congr rfl fun i hi => ?_
      rw [x4 (nHalf a + i) (by have := mem_range.mp hi; omega) _ k0]
      beta_reduce
      rw [AsmIn.valAnti_qL hd]
    · split_ifs with hs
      · unfold AsmIn.actReclass
        rw [if_pos hs, if_pos rfl]
        simp only [A1.map]
        rw [hst]
      · rfl
  · refine antiOf_layers hd e1 e2 (fun l hl t => ?_) (fun l _ => ?_)
    · refine HasDerivAt.add ((HasDerivAt.fun_sum fun i _ => ((hasDerivAt_mode h hS hF hl t (nHalf a + i)).const_mul _).const_mul _).const_mul _) ?_
      split_ifs with hs
      · have h1 := AsmIn.hasDerivAt_sT (I := R.I) l t
        have h2 := ((h1.fun_neg.div_const R.I.mu0).exp.const_mul R.I.I0).div_const (-R.I.scale l / R.I.mu0)
        have h3 := (((hasDerivAt_id t).fun_neg.div_const R.I.mu0).exp.const_mul R.I.I0).mul_const (-R.I.mu0)
        refine (h2.sub h3).congr_deriv ?_
        have := hsc l hl
        simp only [id]
        field_simp
      · exact hasDerivAt_const _ _
    · have h1 : Continuous (fun t => R.I.sT l t) := by unfold AsmIn.sT; fun_prop
      refine (continuous_const.mul (continuous_finsetSum _ fun i _ => continuous_const.mul (continuous_const.mul (AsmIn.continuous_fL 0 l _)))).add ?_
      split_ifs <;> fun_prop

theorem hands1 {x : Py (ND ℝ)} {F G : ℝ → ℝ} {t : ℝ} (hF : Hands x [1] fun _ => F t) (hG : Hands x [1] fun _ => G t) : F t = G t := by
  obtain ⟨A, a1, -, a3⟩ := hF
  obtain ⟨B, b1, -, b3⟩ := hG
  rw [a1] at b1
  injection b1 with b1
  subst b1
  have hv : ValidIx [1] [0] := .cons one_pos .nil
  exact (a3 [0] hv).symm.trans (b3 [0] hv)

/-- **C95 is false**: for every number of streams there is a well-posed problem (no beam, no internal source, no scattering) in which `flux_act_up(tau, True)` is not an
antiderivative of `flux_act_up(tau)`: it returns the same values. -/
theorem C95_false {n : ℕ} (hn : 0 < n) (J : Junk) : ∃ a R, pydisort refExt J a = .ok R ∧ WellPosed refExt a ∧ Rescalable a ∧ NoSource a ∧
    ¬ ∃ F P : ℝ → ℝ,
      (∀ tau, InRange a tau → Hands (fluxActUpReturned refExt (R.u0Returned zero1 false) (R.u0Returned tau false)) [tau.n]
        (fun ix => F (tau.get (ix.getD 0 0)))) ∧
      (∀ tau, InRange a tau → Hands (fluxActUpReturned refExt (R.u0Returned zero1 false) (R.u0Returned tau true)) [tau.n]
        (fun ix => P (tau.get (ix.getD 0 0)))) ∧ AntiOf a F P := by
  obtain ⟨R₀, -, hw⟩ := demoBlackDark_call hn J
  set a := demoBlackDark n with ha
  have hN : nHalf a = n := demo_nHalf 1
  have hb : Absorbing a := ⟨⟨fun _ _ => rfl, fun _ _ j hj => absurd hj (by simp [ha, demoBlackDark, demoBlack])⟩, rfl⟩
  have hr : Rescalable a := Or.inl (Or.inr (Or.inl one_pos))
  obtain ⟨R, hR, hE⟩ := C64_absorbing_closed_form hb hw.accepted hw.gauss refExt_eig hw.peak trivial trivial (Or.inl rfl) hw.angles hr J
  refine ⟨a, R, hR, hw, hr, hb.source, ?_⟩
  rintro ⟨F, P, hF, hP, hA⟩
  have hbot : bottom a = 2 := by norm_num [bottom, ha, demoBlackDark, demoBlack, demo]
  set mu := node refExt a with hmu
  have hm : ∀ i < nHalf a, 0 < mu i ∧ mu i < 1 := fun i hi => ⟨(node_pos hw.gauss hi).1, node_lt_one hw.gauss hi⟩
  set G : ℝ → ℝ := fun t => hemiActinic a (weight refExt a) (fun i => Real.exp (-(2 - t) / mu i)) with hG
  have hv : ∀ t, 0 ≤ t → t ≤ 2 → F t = G t ∧ P t = G t := by
    intro t h0 h1
    have ht : InRange a ⟨1, fun _ => t⟩ := fun _ _ => ⟨h0, by rw [← hbot] at h1; exact h1⟩
    have key := C94_actinic_up hR hE ht
    have e : hemiActinic a (weight refExt a) ((absorbed a (node refExt a) (weight refExt a)).u0 t) = G t := by
      rw [hG]
      unfold hemiActinic
      congr 1
      refine sum_congr rfl fun i hi => ?_
      unfold absorbed
      simp only [hbot]
      rw [if_pos (mem_range.mp hi), show bcVal a.bpos 0 i = 1 from rfl, one_mul]
    have hG' : Hands (fluxActUpReturned refExt (R.u0Returned zero1 false) (R.u0Returned ⟨1, fun _ => t⟩ false)) [1] fun _ => G t := by
      rw [← e]; exact key
    have hp := hP _ ht
    have hign : R.u0Returned ⟨1, fun _ => t⟩ true = R.u0Returned ⟨1, fun _ => t⟩ false := by
      unfold Solved.u0Returned
      rw [C36_flag_ignored hR (lt_irrefl _) hb.source]
    rw [hign] at hp
    exact ⟨hands1 (hF _ ht) hG', hands1 hp hG'⟩
  have hder := hA.deriv 0 (by simp [ha, demoBlackDark, demoBlack, demo]) (1 / 2)
    (by norm_num [bdry]) (by norm_num [bdry, ha, demoBlackDark, demoBlack, demo])
  have hd2 : HasDerivAt G (hemiActinic a (weight refExt a) (fun i => Real.exp (-(2 - 1 / 2) / mu i) * (1 / mu i))) (1 / 2) := by
    refine (HasDerivAt.fun_sum fun i _ => HasDerivAt.const_mul _ (HasDerivAt.exp ?_)).const_mul _
    have := (((hasDerivAt_id (1 / 2 : ℝ)).const_sub 2).neg).div_const (mu i)
    simpa using this
  have hd3 : HasDerivAt P (hemiActinic a (weight refExt a) (fun i => Real.exp (-(2 - 1 / 2) / mu i) * (1 / mu i))) (1 / 2) := by
    refine hd2.congr_of_eventuallyEq ?_
    filter_upwards [Ioo_mem_nhds (show (0 : ℝ) < 1 / 2 by norm_num) (show (1 / 2 : ℝ) < 1 by norm_num)] with y hy
    exact (hv y hy.1.le (by linarith [hy.2])).2
  have e := hder.unique hd3
  rw [(hv (1 / 2) (by norm_num) (by norm_num)).1, hG] at e
  have hlt : hemiActinic a (weight refExt a) (fun i => Real.exp (-(2 - 1 / 2) / mu i))
      < hemiActinic a (weight refExt a) (fun i => Real.exp (-(2 - 1 / 2) / mu i) * (1 / mu i)) := by
    unfold hemiActinic
    refine mul_lt_mul_of_pos_left (sum_lt_sum_of_nonempty ⟨0, by rw [mem_range, hN]; exact hn⟩ fun i hi => ?_) (by positivity)
    have hi' := mem_range.mp hi
    refine mul_lt_mul_of_pos_left ?_ (weight_pos hw.gauss hi')
    exact lt_mul_of_one_lt_right (Real.exp_pos _) (by rw [lt_div_iff₀ (hm i hi').1]; linarith [(hm i hi').2])
  exact absurd e hlt.ne

/-- The hypotheses of the partial theorems are met, for every number of streams: no internal source, several delta-M scaled layers. -/
example {n : ℕ} (hn : 0 < n) (J : Junk) : ∃ a R, pydisort refExt J a = .ok R ∧ Sound refExt a ∧ NoSource a ∧ 0 < a.I0 ∧ 2 ≤ a.tauArr.n
    ∧ scale a 0 ≠ 1 := by
  obtain ⟨x, hx⟩ := demo_wellPosed hn
  have hh : nHalf (demo n x) = n := demo_nHalf x
  have hw : WellPosed refExt (under (demo n x) ⟨1, .scalar 1, .vec ⟨n, fun _ => 1⟩, ⟨2, 2, fun _ _ => 0⟩⟩) :=
    wellPosed_under hx zero_le_one (fun _ => one_pos) trivial (Or.inr (Or.inr hh.symm)) trivial trivial rfl
  obtain ⟨R, h⟩ := pydisort_isOk hw J
  exact ⟨_, R, h, hw.sound, fun _ _ _ _ => rfl, one_pos, le_rfl, by norm_num [scale, peak, under, demo]⟩

end
end Pydisort

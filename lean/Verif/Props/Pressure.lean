import Verif.Props.Flux
import Verif.Spec.Pressure

/-!
# C143: balance of radiation pressure

Specification used: `Spec.pressure`, `Spec.effForward`, `Spec.ReturnsFluxes`.
-/

namespace Pydisort
open Finset Spec

variable {E : Ext} {J : Junk} {a : Args} {R : Solved}

theorem legendreP_one_X : legendreP 1 = Polynomial.X := by
  unfold legendreP
  simp
  rw [← mul_assoc, show (1 + 1 : Polynomial ℝ) = Polynomial.C 2 by rw [map_ofNat]; norm_num, ← Polynomial.C_mul]
  norm_num

/-- First moment of the Legendre polynomials over the streams. -/
theorem sum_mu_legendre (hg : GaussContract E (nHalf a)) (k : ℕ) (hk : k + 1 ≤ 2 * nHalf a - 1) :
    ∑ i ∈ range (2 * nHalf a), streamW (nHalf a) (weight E a) i * (stream (nHalf a) (node E a) i
      * assocLegendre 0 k (stream (nHalf a) (node E a) i)) = if k = 1 then 2 / 3 else 0 := by
  have h := full_exact hg (Polynomial.X * legendreP k)
    ((Polynomial.natDegree_mul_le.trans (add_le_add Polynomial.natDegree_X_le (natDegree_legendreP k))).trans (by omega))
  simp only [Polynomial.eval_mul, Polynomial.eval_X] at h
  simp only [assocLegendre, pow_zero, one_mul, Function.iterate_zero, id_eq]
  rw [h]
  split_ifs with h1
  · subst h1
    rw [legendreP_one_X, ← legendreP_one_X, pint_legendreP_sq]; norm_num
  · rcases Nat.lt_or_ge k 1 with h0 | h0
    · have : k = 0 := by omega
      subst this
      rw [legendreP_zero, mul_one, ← mul_one Polynomial.X, ← legendreP_one_X]
      exact pint_legendreP_lower (by rw [Polynomial.natDegree_one]; omega)
    · rw [mul_comm]
      exact pint_legendreP_lower (by rw [Polynomial.natDegree_X]; omega)

theorem sum_mu_phaseMoment (hg : GaussContract E (nHalf a)) (hN : nLeg a < 2 * nHalf a) (g : ℕ → ℝ) (y : ℝ) :
    ∑ i ∈ range (2 * nHalf a), streamW (nHalf a) (weight E a) i * (stream (nHalf a) (node E a) i
      * phaseMoment (nLeg a) g 0 (stream (nHalf a) (node E a) i) y) = if 1 < nLeg a then 2 * g 1 * y else 0 := by
  unfold phaseMoment
  simp only [mul_sum]
  rw [sum_comm]
  have : ∀ k ∈ Ico 0 (nLeg a), ∑ i ∈ range (2 * nHalf a), streamW (nHalf a) (weight E a) i * (stream (nHalf a) (node E a) i
      * ((2 * (k : ℝ) + 1) * g k * (((k - 0).factorial : ℝ) / ((k + 0).factorial : ℝ))
      * assocLegendre 0 k (stream (nHalf a) (node E a) i) * assocLegendre 0 k y))
      = if k = 1 then 2 * g 1 * y else 0 := by
    intro k hk
    have hk' := (mem_Ico.1 hk).2
    have h1 := sum_mu_legendre hg k (by omega)
    have hf : ((k - 0).factorial : ℝ) / ((k + 0).factorial : ℝ) = 1 := by
      rw [Nat.sub_zero, Nat.add_zero]; exact div_self (by positivity)
    calc _ = ((2 * (k : ℝ) + 1) * g k * assocLegendre 0 k y) * ∑ i ∈ range (2 * nHalf a), streamW (nHalf a) (weight E a) i
            * (stream (nHalf a) (node E a) i * assocLegendre 0 k (stream (nHalf a) (node E a) i)) := by
          rw [mul_sum]; exact sum_congr rfl fun i _ => by rw [hf]; ring
      _ = _ := by
          rw [h1]
          split_ifs with h0
          · subst h0
            simp [assocLegendre, legendreP_one_X]; ring
          · ring
  rw [sum_congr rfl this, sum_ite_eq']
  simp

theorem sum_mu_kernel (hg : GaussContract E (nHalf a)) (hN : nLeg a < 2 * nHalf a) (l : ℕ) (y : ℝ) :
    ∑ i ∈ range (2 * nHalf a), streamW (nHalf a) (weight E a) i * (stream (nHalf a) (node E a) i
      * kernel a 0 l (stream (nHalf a) (node E a) i) y) = effForward a l * y := by
  unfold kernel effForward
  by_cases hs : Significant (omegaStar a l) (nLeg a) (legStar a l) 0
  · have h := sum_mu_phaseMoment hg hN (legStar a l) y
    simp only [hs, if_true, true_and]
    calc _ = omegaStar a l / 2 * ∑ i ∈ range (2 * nHalf a), streamW (nHalf a) (weight E a) i * (stream (nHalf a) (node E a) i
            * phaseMoment (nLeg a) (legStar a l) 0 (stream (nHalf a) (node E a) i) y) := by
          rw [mul_sum]; exact sum_congr rfl fun i _ => by unfold scatD; ring
      _ = _ := by
          rw [h]
          split_ifs <;> ring
  · simp [hs]

theorem sum_mu_beamSource (hg : GaussContract E (nHalf a)) (hN : nLeg a < 2 * nHalf a) (l : ℕ) :
    2 * Real.pi * ∑ i ∈ range (2 * nHalf a), streamW (nHalf a) (weight E a) i * (stream (nHalf a) (node E a) i
      * beamSource a 0 l (stream (nHalf a) (node E a) i)) = -(effForward a l * a.I0 * a.mu0) := by
  unfold beamSource effForward
  by_cases hs : Significant (omegaStar a l) (nLeg a) (legStar a l) 0
  · have h := sum_mu_phaseMoment hg hN (legStar a l) (-a.mu0)
    simp only [hs, if_true, true_and]
    have : ∑ i ∈ range (2 * nHalf a), streamW (nHalf a) (weight E a) i * (stream (nHalf a) (node E a) i
        * beamX (omegaStar a l) (nLeg a) (legStar a l) a.I0 a.mu0 0 (stream (nHalf a) (node E a) i))
        = omegaStar a l * a.I0 * (2 - 1) / (4 * Real.pi) * ∑ i ∈ range (2 * nHalf a), streamW (nHalf a) (weight E a) i
            * (stream (nHalf a) (node E a) i * phaseMoment (nLeg a) (legStar a l) 0 (stream (nHalf a) (node E a) i) (-a.mu0)) := by
      rw [mul_sum]
      exact sum_congr rfl fun i _ => by unfold beamX; rw [if_pos rfl]; ring
    rw [this, h]
    have := Real.pi_ne_zero
    split_ifs
    · field_simp; ring
    · ring
  · simp [hs]

/-- The streams balance. -/
theorem sum_mu_streamW : ∑ i ∈ range (2 * nHalf a), streamW (nHalf a) (weight E a) i * stream (nHalf a) (node E a) i = 0 := by
  rw [sum_range_two_mul, ← sum_add_distrib]
  refine sum_eq_zero fun i hi => ?_
  have := mem_range.1 hi
  simp only [stream, streamW, this, Nat.not_lt.2 (Nat.le_add_right _ _), if_true, if_false, Nat.add_sub_cancel_left]
  ring

/-- **C143.** When fewer phase function moments than streams are used, the radiation pressure of the diffuse light and the beam
together changes with depth in proportion to the net flux that the call returns: the factor is the scaled optical thickness times
one minus scaled albedo times scaled asymmetry parameter. Internal sources do not enter, whatever they are. -/
theorem C143_pressure_balance (h : pydisort E J a = .ok R) (hS : Sound E a) (hres : Rescalable a) (hN : nLeg a < 2 * nHalf a) :
    ∃ (up diffuse direct : ℝ → ℝ) (u : ℝ → ℕ → ℝ),
      (∀ tau, InRange a tau → Returns1 (R.fluxUp tau false) tau.n (fun t => up (tau.get t)) ∧
        ReturnsFluxes (R.fluxDown tau false) tau.n (fun t => diffuse (tau.get t)) (fun t => direct (tau.get t)) ∧
        Returns2 (R.u0 tau false) (2 * nHalf a) tau.n (fun i t => u (tau.get t) i)) ∧
      ∀ l < a.tauArr.n, ∀ t, bdry a.tauArr.get l < t → t < bdry a.tauArr.get (l + 1) →
        HasDerivAt (fun x => pressure a (node E a) (weight E a) (u x) + a.I0 * a.mu0 ^ 2 * Real.exp (-tauStar a l x / a.mu0))
          (scale a l * (1 - effForward a l) * (up t - diffuse t - direct t)) t := by
  obtain ⟨hacc, _⟩ := pydisort_ok h
  obtain ⟨u, hu, hode⟩ := C01_u0_solves_transfer_equation h hS hres
  obtain ⟨hd, e1, e2⟩ := depthOK_of h
  set mu := node E a with hmu
  set w := weight E a with hw
  refine ⟨fun t => hemiFlux a mu w (u t), fun t => hemiFlux a mu w (fun i => u t (nHalf a + i))
      + (a.I0 * a.mu0 * Real.exp (-tauStar a (R.I.layer t) t / a.mu0) - a.I0 * a.mu0 * Real.exp (-t / a.mu0)),
    fun t => a.I0 * a.mu0 * Real.exp (-t / a.mu0), u, ?_, ?_⟩
  · intro tau ht
    obtain ⟨A, hA, hA1, hA2, hA3⟩ := hu tau ht
    refine ⟨?_, ?_, A, hA, hA1, hA2, hA3⟩
    · obtain ⟨A', hA', F, hF, hF1, hF2⟩ := C09_flux_up h tau ht
      rw [hA] at hA'; cases hA'
      refine ⟨F, hF, hF1, fun t htt => ?_⟩
      rw [hF2 t htt]
      exact hemiFlux_congr fun i hi => hA3 i (by omega) t htt
    · obtain ⟨A', hA', F, D, fl, hF, hF1, hF2, hF3, hF4⟩ := C09_flux_down h hres tau ht (fun t => R.I.layer (tau.get t)) (by
        intro t htt
        obtain ⟨l, hl, h1, h2, h3⟩ := AsmIn.exists_layer hd (t := tau.get t) (by rw [e1, e2]; exact (ht t htt).2)
        rw [h3]
        rw [e1] at h1 h2
        refine ⟨by omega, ?_, h2⟩
        rcases h1 with h1 | h1
        · exact h1.le
        · rw [h1]; simpa [bdry] using (ht t htt).1)
      rw [hA] at hA'; cases hA'
      refine ⟨F, D, fl, hF, hF1, fun t htt => ?_, hF3, hF4⟩
      rw [hF2 t htt]
      beta_reduce
      congr 1
      exact hemiFlux_congr fun i hi => hA3 _ (by omega) t htt
  · intro l hl t h1 h2
    choose! d hdd hdeq using hode l hl t h1 h2
    have hnet : hemiFlux a mu w (u t) - hemiFlux a mu w (fun i => u t (nHalf a + i))
        = 2 * Real.pi * ∑ i ∈ range (2 * nHalf a), streamW (nHalf a) w i * (stream (nHalf a) mu i * u t i) := by
      unfold hemiFlux
      rw [← mul_sub, sum_range_two_mul, sub_eq_add_neg, ← sum_neg_distrib]
      congr 2
      · refine sum_congr rfl fun i hi => ?_
        have := mem_range.1 hi
        simp only [stream, streamW, this, if_true]; ring
      · refine sum_congr rfl fun i hi => ?_
        simp only [stream, streamW, Nat.not_lt.2 (Nat.le_add_right _ _), if_false, Nat.add_sub_cancel_left]; ring
    have hlay : R.I.layer t = l := AsmIn.layer_eq hd (by omega) (Or.inl (by rw [e1]; exact h1)) (by rw [e1]; exact h2.le)
    have hD1 : HasDerivAt (fun x => pressure a mu w (u x))
        (2 * Real.pi * ∑ i ∈ range (2 * nHalf a), streamW (nHalf a) w i * (stream (nHalf a) mu i ^ 2 * d i)) t :=
      (HasDerivAt.fun_sum fun i hi => ((hdd i (mem_range.1 hi)).const_mul _).const_mul _).const_mul _
    have hD2 : HasDerivAt (fun x => a.I0 * a.mu0 ^ 2 * Real.exp (-tauStar a l x / a.mu0))
        (a.I0 * a.mu0 ^ 2 * (Real.exp (-tauStar a l t / a.mu0) * (-(scale a l) / a.mu0))) t := by
      have h0 : HasDerivAt (fun x => tauStar a l x) (scale a l) t := by
        unfold tauStar
        simpa using (((hasDerivAt_id t).sub_const (bdry a.tauArr.get l)).const_mul (scale a l)).const_add (bdryStar a l)
      exact ((h0.neg.div_const a.mu0).exp).const_mul _
    refine (hD1.add hD2).congr_deriv ?_
    have hsum : ∑ i ∈ range (2 * nHalf a), streamW (nHalf a) w i * (stream (nHalf a) mu i ^ 2 * d i)
        = scale a l * ((∑ i ∈ range (2 * nHalf a), streamW (nHalf a) w i * (stream (nHalf a) mu i * u t i))
            - (∑ j ∈ range (2 * nHalf a), (∑ i ∈ range (2 * nHalf a), streamW (nHalf a) w i * (stream (nHalf a) mu i
                * kernel a 0 l (stream (nHalf a) mu i) (stream (nHalf a) mu j))) * (streamW (nHalf a) w j * u t j))
            - (∑ i ∈ range (2 * nHalf a), streamW (nHalf a) w i * (stream (nHalf a) mu i * beamSource a 0 l (stream (nHalf a) mu i)))
              * Real.exp (-tauStar a l t / a.mu0))
          - (∑ i ∈ range (2 * nHalf a), streamW (nHalf a) w i * stream (nHalf a) mu i) * ((1 - a.omega.get l) * source a l t) := by
      have e : ∑ j ∈ range (2 * nHalf a), (∑ i ∈ range (2 * nHalf a), streamW (nHalf a) w i * (stream (nHalf a) mu i
          * kernel a 0 l (stream (nHalf a) mu i) (stream (nHalf a) mu j))) * (streamW (nHalf a) w j * u t j)
          = ∑ i ∈ range (2 * nHalf a), streamW (nHalf a) w i * (stream (nHalf a) mu i * ∑ j ∈ range (2 * nHalf a), streamW (nHalf a) w j
              * kernel a 0 l (stream (nHalf a) mu i) (stream (nHalf a) mu j) * u t j) := by
        simp only [sum_mul, mul_sum]
        rw [sum_comm]
        exact sum_congr rfl fun i _ => sum_congr rfl fun j _ => by ring
      rw [e, sum_mul, sum_mul, ← sum_sub_distrib, ← sum_sub_distrib, mul_sum, ← sum_sub_distrib]
      refine sum_congr rfl fun i hi => ?_
      have hi' := hdeq i (mem_range.1 hi)
      rw [show streamW (nHalf a) w i * (stream (nHalf a) mu i ^ 2 * d i)
        = streamW (nHalf a) w i * stream (nHalf a) mu i * (stream (nHalf a) mu i * d i) by ring, hi']
      unfold rteUser rteRHS
      rw [if_pos rfl]
      ring
    have hkk : ∑ j ∈ range (2 * nHalf a), (∑ i ∈ range (2 * nHalf a), streamW (nHalf a) w i * (stream (nHalf a) mu i
        * kernel a 0 l (stream (nHalf a) mu i) (stream (nHalf a) mu j))) * (streamW (nHalf a) w j * u t j)
        = effForward a l * ∑ j ∈ range (2 * nHalf a), streamW (nHalf a) w j * (stream (nHalf a) mu j * u t j) := by
      rw [mul_sum]
      refine sum_congr rfl fun j _ => ?_
      rw [sum_mu_kernel hS.gauss hN]; ring
    have hb := sum_mu_beamSource hS.gauss hN l
    rw [hsum, hkk, sum_mu_streamW]
    have hbeam : a.I0 * a.mu0 ^ 2 * (Real.exp (-tauStar a l t / a.mu0) * (-(scale a l) / a.mu0))
        = -(scale a l) * (a.I0 * a.mu0 * Real.exp (-tauStar a l t / a.mu0)) := by
      by_cases h0 : a.mu0 = 0
      · rw [h0]; ring
      · field_simp
    rw [hbeam]
    beta_reduce
    rw [hlay]
    linear_combination (-(scale a l) * Real.exp (-tauStar a l t / a.mu0)) * hb - (scale a l * (1 - effForward a l)) * hnet

/-- **C143, similarity.** In a scattering layer the factor is one minus albedo times asymmetry parameter as the caller gave them:
the delta-M scaling leaves the loss of momentum as it was. -/
theorem C143_unscaled_factor (hacc : Accepted a) {l : ℕ} (hl : l < a.tauArr.n) (hp : peak a l < 1)
    (hs : Significant (omegaStar a l) (nLeg a) (legStar a l) 0) (h1 : 1 < nLeg a) :
    scale a l * (1 - effForward a l) = 1 - a.omega.get l * leg a l 1 := by
  have h := Args.scale_pos hacc hl
  have hp' : 1 - peak a l ≠ 0 := by linarith
  unfold effForward
  rw [if_pos ⟨hs, h1⟩]
  have e : scale a l * omegaStar a l = (1 - peak a l) * a.omega.get l := by
    unfold omegaStar; rw [mul_div_cancel₀ _ h.ne']
  have e2 : (1 - peak a l) * legStar a l 1 = leg a l 1 - peak a l := by
    unfold legStar; rw [mul_div_cancel₀ _ hp']
  have e3 : scale a l = 1 - a.omega.get l * peak a l := by unfold scale; ring
  linear_combination (-legStar a l 1) * e - a.omega.get l * e2 + e3

/-- The hypotheses are met for every number of streams above two: in `demo` both layers scatter and emit, there is a beam, and
half as many moments as streams are used. -/
example {n : ℕ} (hn : 1 < n) (J : Junk) : ∃ (x : ℝ) (R : Solved), pydisort refExt J (demo n x) = .ok R ∧ Sound refExt (demo n x)
    ∧ Rescalable (demo n x) ∧ Accepted (demo n x) ∧ nLeg (demo n x) < 2 * nHalf (demo n x) ∧ 1 < nLeg (demo n x) ∧ 0 < (demo n x).I0 ∧
    ∀ l < (demo n x).tauArr.n, peak (demo n x) l < 1 ∧
      Significant (omegaStar (demo n x) l) (nLeg (demo n x)) (legStar (demo n x) l) 0 := by
  obtain ⟨x, R, h1, hw, h2, h3⟩ := demo_call (by omega : 0 < n) J
  refine ⟨x, R, h1, h2, h3, hw.accepted, ?_, by simpa [nLeg, demo] using hn, by simp [demo], fun l hl => ⟨h2.peak l hl, 0, le_rfl, by simp [nLeg, demo]; omega, ?_⟩⟩
  · rw [demo_nHalf]; simp [nLeg, demo]; omega
  unfold omegaStar legStar leg scale
  rw [demo_peak hl]
  simp only [demo, if_true]
  split_ifs <;> norm_num

end Pydisort

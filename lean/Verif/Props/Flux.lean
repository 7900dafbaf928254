import Verif.FluxLemmas
import Verif.Spec.Flux
import Verif.Witness
import Verif.Uniqueness
import Verif.Props.Transfer

/-!
# C09, C10, C11, C46: fluxes

Specification used: `Spec.hemiFlux`, `Spec.actinic`, `Spec.ReturnsFluxes`, `Spec.effAlbedo`, `Spec.tauStar`.
-/

namespace Pydisort
open Finset Spec

variable {E : Ext} {J : Junk} {a : Args} {R : Solved}

theorem hemiFlux_congr {mu w v v' : Vec} (h : ∀ i < nHalf a, v i = v' i) : hemiFlux a mu w v = hemiFlux a mu w v' := by
  unfold hemiFlux
  congr 1
  exact sum_congr rfl fun i hi => by rw [h i (mem_range.1 hi)]

/-- **C09, upward.** -/
theorem C09_flux_up (h : pydisort E J a = .ok R) (tau : A1 ℝ) (ht : InRange a tau) :
    ∃ A, R.u0 tau false = .ok A ∧
      Returns1 (R.fluxUp tau false) tau.n (fun t => hemiFlux a (node E a) (weight E a) (fun i => A.get i t)) := by
  obtain ⟨hacc, O, r, hO, hr, hI, _⟩ := pydisort_ok h
  have hc : R.I.checkTau tau = .ok () := AsmIn.checkTau_ok (by rw [hI]; exact ht)
  obtain ⟨A, hA, h1, h2, h3⟩ := R.I.u0_plain R.S hc
  obtain ⟨F, hF, h4, h5⟩ := R.I.fluxUp_plain R.S hc
  refine ⟨A, hA, F, hF, h4, fun t htt => ?_⟩
  rw [h5 t htt]
  unfold hemiFlux
  beta_reduce
  rw [mul_sum, mul_sum]
  have hn : R.I.N = nHalf a := by rw [hI]; rfl
  rw [hn]
  refine sum_congr rfl fun i hi => ?_
  have := mem_range.1 hi
  rw [h3 i (by omega) t htt]
  have e1 : R.I.mu i = node E a i := by rw [hI]; rfl
  have e2 : R.I.W i = weight E a i := by rw [hI]; rfl
  rw [e1, e2]; ring

/-- **C09, downward and C10.** The diffuse downward flux is the quadrature of `u0` plus the part of the scattered
beam that delta-M scaling left in the beam; the direct flux obeys Beer's law in the caller's depth and intensity. -/
theorem C09_flux_down (h : pydisort E J a = .ok R) (hres : Rescalable a) (tau : A1 ℝ) (ht : InRange a tau)
    (lay : ℕ → ℕ) (hlay : ∀ t < tau.n, lay t < a.tauArr.n ∧ InLayer a (lay t) (tau.get t)) :
    ∃ A, R.u0 tau false = .ok A ∧ ReturnsFluxes (R.fluxDown tau false) tau.n
      (fun t => hemiFlux a (node E a) (weight E a) (fun i => A.get (nHalf a + i) t)
        + (a.I0 * a.mu0 * Real.exp (-tauStar a (lay t) (tau.get t) / a.mu0)
          - a.I0 * a.mu0 * Real.exp (-tau.get t / a.mu0)))
      (fun t => a.I0 * a.mu0 * Real.exp (-tau.get t / a.mu0)) := by
  obtain ⟨hacc, O, r, hO, hr, hI, _⟩ := pydisort_ok h
  have hs := Args.optics_spec hacc hO
  have hc : R.I.checkTau tau = .ok () := AsmIn.checkTau_ok (by rw [hI]; exact ht)
  obtain ⟨A, hA, h1, h2, h3⟩ := R.I.u0_plain R.S hc
  obtain ⟨F, D, hF, h4, h5, h6, h7⟩ := R.I.fluxDown_plain R.S hc
  have hI0 : R.I.rescale * R.I.I0 = a.I0 := by rw [hI]; exact rescale_I0 hacc hs hr hres
  have hmu0 : R.I.mu0 = a.mu0 := by rw [hI]; rfl
  have hbeam : R.I.beam = true ∨ R.I.beam = false ∧ a.I0 = 0 := by
    by_cases hb : R.I.beam = true
    · exact Or.inl hb
    · refine Or.inr ⟨by simpa using hb, ?_⟩
      have : ¬ a.I0 > 0 := by rw [hI] at hb; simpa [Args.asmIn, Args.Beam] using hb
      exact le_antisymm (not_lt.mp this) hacc.beam
  refine ⟨A, hA, F, D, R.I.beam, hF, h4, fun t htt => ?_, h6, fun t htt => ?_⟩
  · rw [h5 t htt, mul_add]
    congr 1
    · unfold hemiFlux
      rw [mul_sum, mul_sum]
      have hn : R.I.N = nHalf a := by rw [hI]; rfl
      rw [hn]
      refine sum_congr rfl fun i hi => ?_
      have := mem_range.1 hi
      simp only
      rw [h3 _ (by omega) t htt]
      have e1 : R.I.mu i = node E a i := by rw [hI]; rfl
      have e2 : R.I.W i = weight E a i := by rw [hI]; rfl
      rw [e1, e2]; ring
    · rw [scaledTau_of h (hlay t htt).1 (hlay t htt).2, hmu0]
      rcases hbeam with hb | ⟨hb, h0⟩
      · rw [if_pos hb, ← hI0]; ring
      · rw [if_neg (by simp [hb]), h0]; ring
  · rcases hbeam with hb | ⟨hb, h0⟩
    · rw [if_pos hb] at h6
      rw [if_pos hb, h7 t (by omega), if_pos hb, hmu0, ← hI0]; ring
    · rw [if_neg (by simp [hb])] at h6
      rw [if_neg (by simp [hb]), h7 0 (by omega), if_neg (by simp [hb]), h0]; ring

/-- Every depth of the atmosphere has a layer, so the hypothesis on `lay` above can always be met. -/
theorem layers_exist (h : pydisort E J a = .ok R) (tau : A1 ℝ) (ht : InRange a tau) :
    ∃ lay : ℕ → ℕ, ∀ t < tau.n, lay t < a.tauArr.n ∧ InLayer a (lay t) (tau.get t) := by
  obtain ⟨hd, e1, e2⟩ := depthOK_of h
  refine ⟨fun t => R.I.layer (tau.get t), fun t htt => ?_⟩
  obtain ⟨l, hl, h1, h2, h3⟩ := AsmIn.exists_layer hd (t := tau.get t) (by rw [e1, e2]; exact (ht t htt).2)
  beta_reduce
  rw [h3]
  rw [e1] at h1 h2
  refine ⟨by omega, ?_, h2⟩
  rcases h1 with h1 | h1
  · exact h1.le
  · rw [h1]; simpa [bdry] using (ht t htt).1

/-- **C10, direct flux.** Beer's law with the caller's depth and beam, whatever the delta-M scaling. -/
theorem C10_direct_flux (h : pydisort E J a = .ok R) (hres : Rescalable a) (tau : A1 ℝ) (ht : InRange a tau) :
    ∃ diffuse, ReturnsFluxes (R.fluxDown tau false) tau.n diffuse
      (fun t => a.I0 * a.mu0 * Real.exp (-tau.get t / a.mu0)) := by
  obtain ⟨lay, hlay⟩ := layers_exist h tau ht
  obtain ⟨A, _, hF⟩ := C09_flux_down h hres tau ht lay hlay
  exact ⟨_, hF⟩

/-- **C10, conservation.** Diffuse plus direct flux is the diffuse flux of the scaled problem plus its direct beam. -/
theorem C10_reclassification_conserves (h : pydisort E J a = .ok R) (hres : Rescalable a) (tau : A1 ℝ) (ht : InRange a tau)
    {diffuse direct : ℕ → ℝ} (hF : ReturnsFluxes (R.fluxDown tau false) tau.n diffuse direct) {A : A2 ℝ}
    (hA : R.u0 tau false = .ok A) : ∀ t < tau.n, ∀ l < a.tauArr.n, InLayer a l (tau.get t) →
      diffuse t + direct t = hemiFlux a (node E a) (weight E a) (fun i => A.get (nHalf a + i) t)
        + a.I0 * a.mu0 * Real.exp (-tauStar a l (tau.get t) / a.mu0) := by
  intro t htt l hl hin
  obtain ⟨lay, hlay⟩ := layers_exist h tau ht
  have hlay' : ∀ k < tau.n, (if k = t then l else lay k) < a.tauArr.n ∧ InLayer a (if k = t then l else lay k) (tau.get k) := by
    intro k hk
    split_ifs with hkt
    · subst hkt; exact ⟨hl, hin⟩
    · exact hlay k hk
  obtain ⟨A', hA', F', D', fl', e', h1', h2', h3', h4'⟩ := C09_flux_down h hres tau ht _ hlay'
  rw [hA] at hA'; cases hA'
  obtain ⟨F, D, fl, e, h1, h2, h3, h4⟩ := hF
  rw [e] at e'; cases e'
  rw [← h2 t htt, ← h4 t htt, h2' t htt, h4' t htt]
  beta_reduce
  rw [if_pos rfl]
  ring

/-- **C10, top.** At the top of the atmosphere the diffuse downward flux is the boundary illumination alone. -/
theorem C10_top_diffuse (h : pydisort E J a = .ok R) (hS : Sound E a) (hres : Rescalable a) (hb : Azimuthless a.bneg)
    {diffuse direct : ℕ → ℝ} (hF : ReturnsFluxes (R.fluxDown ⟨1, fun _ => 0⟩ false) 1 diffuse direct) :
    diffuse 0 = hemiFlux a (node E a) (weight E a) (bcVal a.bneg 0) := by
  obtain ⟨hacc, _⟩ := pydisort_ok h
  have hpos := (bottom_pos hacc).le
  have hin : InRange a ⟨1, fun _ => 0⟩ := fun _ _ => ⟨le_rfl, hpos⟩
  obtain ⟨A, B, hA, _, hAB⟩ := C03_top_intensity h hS hres hb ⟨0, fun _ => 0⟩
  obtain ⟨F, D, fl, e, h1, h2, h3, h4⟩ := hF
  obtain ⟨A', hA', F', D', fl', e', h1', h2', h3', h4'⟩ := C09_flux_down h hres ⟨1, fun _ => 0⟩ hin (fun _ => 0)
    (fun t _ => ⟨hacc.layers, by simp [bdry], by rw [Spec.bdry_succ]; exact hacc.top.le⟩)
  rw [hA] at hA'; cases hA'
  rw [e] at e'; cases e'
  rw [← h2 0 Nat.one_pos, h2' 0 Nat.one_pos]
  have ht : tauStar a 0 0 = 0 := by simp [tauStar, bdryStar, bdry]
  simp only [ht]
  rw [sub_self, add_zero]
  exact hemiFlux_congr fun i hi => (hAB i hi).1

/-- The hypotheses are met. -/
example {n : ℕ} (hn : 0 < n) (J : Junk) : ∃ (x : ℝ) (R : Solved) (d b : ℕ → ℝ), pydisort refExt J (demo n x) = .ok R
    ∧ Sound refExt (demo n x) ∧ Rescalable (demo n x) ∧ Azimuthless (demo n x).bneg ∧ InRange (demo n x) ⟨1, fun _ => 0⟩
    ∧ ReturnsFluxes (R.fluxDown ⟨1, fun _ => 0⟩ false) 1 d b := by
  obtain ⟨x, R, h1, _, h2, h3⟩ := demo_call hn J
  have hin : InRange (demo n x) ⟨1, fun _ => 0⟩ := fun _ _ => ⟨le_rfl, by simp [demo]⟩
  obtain ⟨d, hd⟩ := C10_direct_flux h1 h3 ⟨1, fun _ => 0⟩ hin
  exact ⟨x, R, d, _, h1, h2, h3, trivial, hin, hd⟩

/-! ## C11 -/

/-- Sum of the Legendre polynomials over the streams. -/
theorem sum_legendre (hg : GaussContract E (nHalf a)) (k : ℕ) (hk : k ≤ 2 * nHalf a - 1) :
    ∑ i ∈ range (2 * nHalf a), streamW (nHalf a) (weight E a) i * assocLegendre 0 k (stream (nHalf a) (node E a) i)
      = if k = 0 then 2 else 0 := by
  have h := full_exact hg (legendreP k) ((natDegree_legendreP k).trans hk)
  simp only [assocLegendre, pow_zero, one_mul, Function.iterate_zero, id_eq]
  rw [h]
  split_ifs with h0
  · subst h0
    rw [legendreP_zero]; simp [pint]; norm_num
  · have := pint_legendreP_lower (l := k) (q := 1) (by rw [Polynomial.natDegree_one]; omega)
    rwa [mul_one] at this

theorem sum_phaseMoment (hg : GaussContract E (nHalf a)) (hN : nLeg a ≤ 2 * nHalf a) (hL : 0 < nLeg a) (g : ℕ → ℝ) (y : ℝ) :
    ∑ i ∈ range (2 * nHalf a), streamW (nHalf a) (weight E a) i
      * phaseMoment (nLeg a) g 0 (stream (nHalf a) (node E a) i) y = 2 * g 0 := by
  unfold phaseMoment
  simp only [mul_sum]
  rw [sum_comm]
  have : ∀ k ∈ Ico 0 (nLeg a), ∑ i ∈ range (2 * nHalf a), streamW (nHalf a) (weight E a) i * ((2 * (k : ℝ) + 1) * g k
      * (((k - 0).factorial : ℝ) / ((k + 0).factorial : ℝ)) * assocLegendre 0 k (stream (nHalf a) (node E a) i) * assocLegendre 0 k y)
      = if k = 0 then 2 * g 0 else 0 := by
    intro k hk
    have hk' := (mem_Ico.1 hk).2
    have h1 := sum_legendre hg k (by omega)
    have hf : ((k - 0).factorial : ℝ) / ((k + 0).factorial : ℝ) = 1 := by
      rw [Nat.sub_zero, Nat.add_zero]; exact div_self (by positivity)
    calc _ = ((2 * (k : ℝ) + 1) * g k * assocLegendre 0 k y) * ∑ i ∈ range (2 * nHalf a), streamW (nHalf a) (weight E a) i * assocLegendre 0 k (stream (nHalf a) (node E a) i) := by
          rw [mul_sum]; exact sum_congr rfl fun i _ => by rw [hf]; ring
      _ = _ := by
          rw [h1]
          split_ifs with h0
          · subst h0
            simp [assocLegendre, legendreP_zero]; ring
          · ring
  rw [sum_congr rfl this, sum_ite_eq' , if_pos (mem_Ico.2 ⟨le_rfl, hL⟩)]

theorem sum_kernel (hg : GaussContract E (nHalf a)) (hN : nLeg a ≤ 2 * nHalf a) (hL : 0 < nLeg a) {l : ℕ}
    (hp : peak a l < 1) (y : ℝ) :
    ∑ i ∈ range (2 * nHalf a), streamW (nHalf a) (weight E a) i * kernel a 0 l (stream (nHalf a) (node E a) i) y
      = effAlbedo a l := by
  unfold kernel effAlbedo
  split_ifs with hs
  · have h := sum_phaseMoment hg hN hL (legStar a l) y
    have h0 : legStar a l 0 = 1 := by
      unfold legStar leg; rw [if_pos rfl]; exact div_self (by linarith)
    calc _ = omegaStar a l / 2 * ∑ i ∈ range (2 * nHalf a), streamW (nHalf a) (weight E a) i
            * phaseMoment (nLeg a) (legStar a l) 0 (stream (nHalf a) (node E a) i) y := by
          rw [mul_sum]; exact sum_congr rfl fun i _ => by unfold scatD; ring
      _ = _ := by rw [h, h0]; ring
  · simp

theorem sum_beamSource (hg : GaussContract E (nHalf a)) (hN : nLeg a ≤ 2 * nHalf a) (hL : 0 < nLeg a) {l : ℕ}
    (hp : peak a l < 1) :
    2 * Real.pi * ∑ i ∈ range (2 * nHalf a), streamW (nHalf a) (weight E a) i * beamSource a 0 l (stream (nHalf a) (node E a) i)
      = effAlbedo a l * a.I0 := by
  unfold beamSource effAlbedo
  split_ifs with hs
  · have h := sum_phaseMoment hg hN hL (legStar a l) (-a.mu0)
    have h0 : legStar a l 0 = 1 := by
      unfold legStar leg; rw [if_pos rfl]; exact div_self (by linarith)
    have : ∑ i ∈ range (2 * nHalf a), streamW (nHalf a) (weight E a) i
        * beamX (omegaStar a l) (nLeg a) (legStar a l) a.I0 a.mu0 0 (stream (nHalf a) (node E a) i)
        = omegaStar a l * a.I0 * (2 - 1) / (4 * Real.pi) * ∑ i ∈ range (2 * nHalf a), streamW (nHalf a) (weight E a) i
            * phaseMoment (nLeg a) (legStar a l) 0 (stream (nHalf a) (node E a) i) (-a.mu0) := by
      rw [mul_sum]
      exact sum_congr rfl fun i _ => by unfold beamX; rw [if_pos rfl]; ring
    rw [this, h, h0]
    have := Real.pi_ne_zero
    field_simp; ring
  · simp

theorem sum_streamW (hg : GaussContract E (nHalf a)) (hn : 0 < nHalf a) :
    ∑ i ∈ range (2 * nHalf a), streamW (nHalf a) (weight E a) i = 2 := by
  have := sum_legendre hg 0 (by omega)
  simpa [assocLegendre, legendreP_zero] using this

/-- **C11, scattering conserves energy.** Summed over all outgoing streams, the scattering kernel returns exactly the
(effective) albedo, for every incoming stream, layer and admissible number of Legendre coefficients. -/
theorem C11_scattering_conserves (hacc : Accepted a) (hg : GaussContract E (nHalf a)) {l : ℕ} (hp : peak a l < 1) (y : ℝ) :
    ∑ i ∈ range (2 * nHalf a), streamW (nHalf a) (weight E a) i * kernel a 0 l (stream (nHalf a) (node E a) i) y
      = effAlbedo a l := by
  have h1 := hacc.nLeg
  have h2 := hacc.streams
  refine sum_kernel hg ?_ ?_ hp y
  · unfold nLeg nHalf
    obtain ⟨k, hk⟩ := h2.2
    omega
  · unfold nLeg; omega

/-- **C11.** Energy balance of the returned fluxes: there are functions `up`, `diffuse`, `direct` and `u` of depth which
the returned functions evaluate, and inside every layer the net flux changes only by absorption of the light (diffuse and direct)
and by internal emission. -/
theorem C11_energy_balance (h : pydisort E J a = .ok R) (hS : Sound E a) (hres : Rescalable a) :
    ∃ (up diffuse direct : ℝ → ℝ) (u : ℝ → ℕ → ℝ),
      (∀ tau, InRange a tau → Returns1 (R.fluxUp tau false) tau.n (fun t => up (tau.get t)) ∧
        ReturnsFluxes (R.fluxDown tau false) tau.n (fun t => diffuse (tau.get t)) (fun t => direct (tau.get t)) ∧
        Returns2 (R.u0 tau false) (2 * nHalf a) tau.n (fun i t => u (tau.get t) i)) ∧
      ∀ l < a.tauArr.n, ∀ t, bdry a.tauArr.get l < t → t < bdry a.tauArr.get (l + 1) →
        HasDerivAt (fun x => up x - diffuse x - direct x)
          (scale a l * (1 - effAlbedo a l) * (actinic a (weight E a) (u t) + a.I0 * Real.exp (-tauStar a l t / a.mu0))
            - 4 * Real.pi * (1 - a.omega.get l) * source a l t) t := by
  obtain ⟨hacc, _⟩ := pydisort_ok h
  have hn : 0 < nHalf a := by
    have := hacc.streams.1
    unfold nHalf; omega
  obtain ⟨u, hu, hode⟩ := C01_u0_solves_transfer_equation h hS hres
  obtain ⟨hd, e1, e2⟩ := depthOK_of h
  have hl1 := hacc.nLeg
  have hN : nLeg a ≤ 2 * nHalf a := by
    unfold nLeg nHalf
    obtain ⟨k, hk⟩ := hacc.streams.2
    omega
  have hL : 0 < nLeg a := by unfold nLeg; omega
  set mu := node E a with hmu
  set w := weight E a with hw
  refine ⟨fun t => hemiFlux a mu w (u t), fun t => hemiFlux a mu w (fun i => u t (nHalf a + i))
      + (a.I0 * a.mu0 * Real.exp (-tauStar a (R.I.layer t) t / a.mu0) - a.I0 * a.mu0 * Real.exp (-t / a.mu0)),
    fun t => a.I0 * a.mu0 * Real.exp (-t / a.mu0), u, ?_, ?_⟩
  · intro tau ht
    obtain ⟨A, hA, hA1, hA2, hA3⟩ := hu tau ht
    refine ⟨?_, ?_, A, hA, hA1, hA2, hA3⟩
    · obtain ⟨A', hA', F, hF, hF1, hF2⟩ := C09_flux_up h tau ht
      rw [hA] at hA'; cases hA'
      refine ⟨F, hF, hF1, fun t htt => ?_⟩
      rw [hF2 t htt]
      exact hemiFlux_congr fun i hi => hA3 i (by omega) t htt
    · obtain ⟨A', hA', F, D, fl, hF, hF1, hF2, hF3, hF4⟩ := C09_flux_down h hres tau ht (fun t => R.I.layer (tau.get t)) (by
        intro t htt
        obtain ⟨l, hl, h1, h2, h3⟩ := AsmIn.exists_layer hd (t := tau.get t) (by rw [e1, e2]; exact (ht t htt).2)
        rw [h3]
        rw [e1] at h1 h2
        refine ⟨by omega, ?_, h2⟩
        rcases h1 with h1 | h1
        · exact h1.le
        · rw [h1]; simpa [bdry] using (ht t htt).1)
      rw [hA] at hA'; cases hA'
      refine ⟨F, D, fl, hF, hF1, fun t htt => ?_, hF3, hF4⟩
      rw [hF2 t htt]
      beta_reduce
      congr 1
      exact hemiFlux_congr fun i hi => hA3 _ (by omega) t htt
  · intro l hl t h1 h2
    choose! d hdd hdeq using hode l hl t h1 h2
    -- the net flux is a sum over the streams
    have hnet : ∀ x, hemiFlux a mu w (u x) - hemiFlux a mu w (fun i => u x (nHalf a + i))
        = 2 * Real.pi * ∑ i ∈ range (2 * nHalf a), streamW (nHalf a) w i * (stream (nHalf a) mu i * u x i) := by
      intro x
      unfold hemiFlux
      rw [← mul_sub, sum_range_two_mul, sub_eq_add_neg, ← sum_neg_distrib]
      congr 2
      · refine sum_congr rfl fun i hi => ?_
        have := mem_range.1 hi
        simp only [stream, streamW, this, if_true]; ring
      · refine sum_congr rfl fun i hi => ?_
        simp only [stream, streamW, Nat.not_lt.2 (Nat.le_add_right _ _), if_false, Nat.add_sub_cancel_left]; ring
    have hlay : ∀ x, bdry a.tauArr.get l < x → x < bdry a.tauArr.get (l + 1) → R.I.layer x = l := by
      intro x hx1 hx2
      exact AsmIn.layer_eq hd (by omega) (Or.inl (by rw [e1]; exact hx1)) (by rw [e1]; exact hx2.le)
    have hD1 : HasDerivAt (fun x => 2 * Real.pi * ∑ i ∈ range (2 * nHalf a), streamW (nHalf a) w i * (stream (nHalf a) mu i * u x i))
        (2 * Real.pi * ∑ i ∈ range (2 * nHalf a), streamW (nHalf a) w i * (stream (nHalf a) mu i * d i)) t :=
      (HasDerivAt.fun_sum fun i hi => ((hdd i (mem_range.1 hi)).const_mul _).const_mul _).const_mul _
    have hD2 : HasDerivAt (fun x => a.I0 * a.mu0 * Real.exp (-tauStar a l x / a.mu0))
        (a.I0 * a.mu0 * (Real.exp (-tauStar a l t / a.mu0) * (-(scale a l) / a.mu0))) t := by
      have h0 : HasDerivAt (fun x => tauStar a l x) (scale a l) t := by
        unfold tauStar
        simpa using (((hasDerivAt_id t).sub_const (bdry a.tauArr.get l)).const_mul (scale a l)).const_add (bdryStar a l)
      exact ((h0.neg.div_const a.mu0).exp).const_mul _
    refine ((hD1.sub hD2).congr_of_eventuallyEq ?_).congr_deriv ?_
    · filter_upwards [Ioo_mem_nhds h1 h2] with x hx
      simp only [Pi.sub_apply]
      rw [← hnet x, hlay x hx.1 hx.2]
      ring
    · have hsum : ∑ i ∈ range (2 * nHalf a), streamW (nHalf a) w i * (stream (nHalf a) mu i * d i)
          = scale a l * ((∑ i ∈ range (2 * nHalf a), streamW (nHalf a) w i * u t i)
              - (∑ j ∈ range (2 * nHalf a), (∑ i ∈ range (2 * nHalf a), streamW (nHalf a) w i
                  * kernel a 0 l (stream (nHalf a) mu i) (stream (nHalf a) mu j)) * (streamW (nHalf a) w j * u t j))
              - (∑ i ∈ range (2 * nHalf a), streamW (nHalf a) w i * beamSource a 0 l (stream (nHalf a) mu i))
                * Real.exp (-tauStar a l t / a.mu0))
            - (∑ i ∈ range (2 * nHalf a), streamW (nHalf a) w i) * ((1 - a.omega.get l) * source a l t) := by
        have e : ∑ j ∈ range (2 * nHalf a), (∑ i ∈ range (2 * nHalf a), streamW (nHalf a) w i
            * kernel a 0 l (stream (nHalf a) mu i) (stream (nHalf a) mu j)) * (streamW (nHalf a) w j * u t j)
            = ∑ i ∈ range (2 * nHalf a), streamW (nHalf a) w i * ∑ j ∈ range (2 * nHalf a), streamW (nHalf a) w j
                * kernel a 0 l (stream (nHalf a) mu i) (stream (nHalf a) mu j) * u t j := by
          simp only [sum_mul, mul_sum]
          rw [sum_comm]
          exact sum_congr rfl fun i _ => sum_congr rfl fun j _ => by ring
        rw [e, sum_mul, sum_mul, ← sum_sub_distrib, ← sum_sub_distrib, mul_sum, ← sum_sub_distrib]
        refine sum_congr rfl fun i hi => ?_
        rw [hdeq i (mem_range.1 hi)]
        unfold rteUser rteRHS
        rw [if_pos rfl]
        ring
      rw [hsum, sum_streamW hS.gauss hn]
      have hk : ∀ j, ∑ i ∈ range (2 * nHalf a), streamW (nHalf a) w i
          * kernel a 0 l (stream (nHalf a) mu i) (stream (nHalf a) mu j) = effAlbedo a l :=
        fun j => sum_kernel hS.gauss hN hL (hS.peak l hl) _
      have hb := sum_beamSource hS.gauss hN hL (hS.peak l hl)
      simp only [hk, ← mul_sum]
      unfold actinic
      have hbeam : a.I0 * a.mu0 * (Real.exp (-tauStar a l t / a.mu0) * (-(scale a l) / a.mu0))
          = -(scale a l) * (a.I0 * Real.exp (-tauStar a l t / a.mu0)) := by
        by_cases h0 : a.mu0 = 0
        · have : ¬ 0 < a.I0 := fun hh => absurd (hacc.beamDir hh).1.1 (by rw [h0]; exact lt_irrefl _)
          have : a.I0 = 0 := le_antisymm (not_lt.1 this) hacc.beam
          rw [this]; ring
        · field_simp
      rw [hbeam]
      linear_combination (-(scale a l) * Real.exp (-tauStar a l t / a.mu0)) * hb

/-- **C11, absorption.** In a scattering layer the absorbed fraction is the caller's co-albedo `1 - ω`; so the net flux is
constant in the limit of conservative scattering without emission. -/
theorem C11_absorbed_fraction (hacc : Accepted a) {l : ℕ} (hl : l < a.tauArr.n)
    (hs : Significant (omegaStar a l) (nLeg a) (legStar a l) 0) : scale a l * (1 - effAlbedo a l) = 1 - a.omega.get l := by
  have h := Args.scale_pos hacc hl
  unfold effAlbedo
  rw [if_pos hs]
  unfold omegaStar
  rw [mul_sub, mul_div_cancel₀ _ h.ne']
  unfold scale; ring

/-- The hypotheses are met: in `demo` both layers scatter. -/
example {n : ℕ} (hn : 0 < n) (J : Junk) : ∃ (x : ℝ) (R : Solved), pydisort refExt J (demo n x) = .ok R ∧ Sound refExt (demo n x)
    ∧ Rescalable (demo n x) ∧ Accepted (demo n x) ∧ ∀ l < (demo n x).tauArr.n,
      Significant (omegaStar (demo n x) l) (nLeg (demo n x)) (legStar (demo n x) l) 0 := by
  obtain ⟨x, R, h1, hw, h2, h3⟩ := demo_call hn J
  refine ⟨x, R, h1, h2, h3, hw.accepted, fun l hl => ⟨0, le_rfl, by simpa [nLeg, demo] using hn, ?_⟩⟩
  unfold omegaStar legStar leg scale
  rw [demo_peak hl]
  simp only [demo, if_true]
  split_ifs <;> norm_num

/-! ## C46 -/

/-- **C46 (partial).** With a beam both entries of `flux_down` have the size of `tau`. Missing: the case without a beam, where
the statement is false (next theorem). -/
theorem C46_direct_flux_size_partial (h : pydisort E J a = .ok R) (hb : 0 < a.I0) (tau : A1 ℝ) (ht : InRange a tau) :
    ∃ F D, R.fluxDown tau false = .ok (F, D, true) ∧ F.n = tau.n ∧ D.n = tau.n := by
  obtain ⟨hacc, O, r, hO, hr, hI, _⟩ := pydisort_ok h
  have hc : R.I.checkTau tau = .ok () := AsmIn.checkTau_ok (by rw [hI]; exact ht)
  obtain ⟨F, D, hF, h4, h5, h6, h7⟩ := R.I.fluxDown_plain R.S hc
  have hbeam : R.I.beam = true := by rw [hI]; simpa [Args.asmIn, Args.Beam] using hb
  rw [hbeam] at hF
  rw [if_pos hbeam] at h6
  exact ⟨F, D, hF, h4, h6⟩

/-- **C46 is false without a beam.** For every depth array whose length is not one, the direct entry does not have the size of
`tau`. -/
theorem C46_false_without_beam (h : pydisort E J a = .ok R) (hb : a.I0 = 0) (tau : A1 ℝ) (ht : InRange a tau) (hn : tau.n ≠ 1) :
    ∃ F D flag, R.fluxDown tau false = .ok (F, D, flag) ∧ F.n = tau.n ∧ D.n ≠ tau.n := by
  obtain ⟨hacc, O, r, hO, hr, hI, _⟩ := pydisort_ok h
  have hc : R.I.checkTau tau = .ok () := AsmIn.checkTau_ok (by rw [hI]; exact ht)
  obtain ⟨F, D, hF, h4, h5, h6, h7⟩ := R.I.fluxDown_plain R.S hc
  have hbeam : ¬ R.I.beam = true := by rw [hI]; simp [Args.asmIn, Args.Beam, hb]
  rw [if_neg hbeam] at h6
  exact ⟨F, D, _, hF, h4, by omega⟩

/-- Both cases occur. -/
example {n : ℕ} (hn : 0 < n) (J : Junk) : ∃ (x : ℝ) (R : Solved), pydisort refExt J (demo n x) = .ok R ∧ 0 < (demo n x).I0 := by
  obtain ⟨x, R, h1, _⟩ := demo_call hn J
  exact ⟨x, R, h1, by simp [demo]⟩

example {n : ℕ} (hn : 0 < n) (J : Junk) : ∃ R, pydisort refExt J (demoDark n) = .ok R ∧ (demoDark n).I0 = 0
    ∧ InRange (demoDark n) ⟨2, fun k => k⟩ := by
  obtain ⟨R, h1⟩ := pydisort_isOk (demoDark_wellPosed hn) J
  refine ⟨R, h1, rfl, fun k hk => ⟨Nat.cast_nonneg k, ?_⟩⟩
  have : (k : ℝ) ≤ 1 := by exact_mod_cast Nat.lt_succ_iff.1 hk
  simp only [demoDark, demo]; norm_num; linarith

end Pydisort

import Verif.Props.Eigen
import Verif.FluxLemmas
import Verif.Spec.Flux
import Verif.NTLemmas

/-!
# C16, C19, C21, C22: evaluation of the returned functions
-/

namespace Pydisort
open Finset Spec

variable {E : Ext} {J : Junk} {a : Args} {R : Solved}

theorem checkTau_of_inRange (h : pydisort E J a = .ok R) {tau : A1 ℝ} (ht : InRange a tau) : R.I.checkTau tau = .ok () := by
  obtain ⟨_, e1, e2⟩ := depthOK_of h
  refine AsmIn.checkTau_ok fun t hlt => ?_
  rw [e1, e2]; exact ht t hlt

theorem checkTau_of_not (h : pydisort E J a = .ok R) {tau : A1 ℝ} (ht : ¬ InRange a tau) :
    R.I.checkTau tau = .error (.valueError "tau input outside the tau range") := by
  obtain ⟨_, e1, e2⟩ := depthOK_of h
  refine AsmIn.checkTau_error fun hall => ht fun t hlt => ?_
  have := hall t hlt
  rw [e1, e2] at this; exact this

/-! ## C21 -/

/-- **C21.** For a depth in the atmosphere the layer used is the one and only layer `l` with
`tau_arr[l-1] < t ≤ tau_arr[l]` (layer `0` for `t = 0`). -/
theorem C21_layer_lookup (h : pydisort E J a = .ok R) {t : ℝ} (h1 : t ≤ a.tauArr.get (a.tauArr.n - 1))
    (l : ℕ) : R.I.layer t = l ↔
      l < a.tauArr.n ∧ (l = 0 ∨ a.tauArr.get (l - 1) < t) ∧ t ≤ a.tauArr.get l := by
  obtain ⟨hd, e1, e2⟩ := depthOK_of h
  constructor
  · rintro rfl
    obtain ⟨l, hl, h3, h4, h5⟩ := AsmIn.exists_layer hd (t := t) (by rw [e1, e2]; exact h1)
    rw [h5]
    rw [e1] at h3 h4
    rw [bdry_succ] at h4
    refine ⟨by omega, ?_, h4⟩
    by_cases h0 : l = 0
    · exact Or.inl h0
    · right
      simpa [bdry, h0] using h3
  · rintro ⟨hl, h3, h4⟩
    refine AsmIn.layer_eq hd (by omega) ?_ (by rw [e1, bdry_succ]; exact h4)
    rw [e1]
    by_cases h0 : l = 0
    · exact Or.inr h0
    · left
      simpa [bdry, h0] using h3

/-- **C21, range check.** If some depth lies outside the atmosphere, every returned function raises `ValueError`, also
when the antiderivative is asked for, whatever the other depths are. -/
theorem C21_out_of_range (h : pydisort E J a = .ok R) {tau : A1 ℝ} (ht : ¬ InRange a tau) (phi : A1 ℝ) (anti : Bool) :
    R.u0 tau anti = .error (.valueError "tau input outside the tau range") ∧
    R.fluxUp tau anti = .error (.valueError "tau input outside the tau range") ∧
    R.fluxDown tau anti = .error (.valueError "tau input outside the tau range") ∧
    (a.onlyFlux = false → R.u tau phi anti = .error (.valueError "tau input outside the tau range")) := by
  have hc := checkTau_of_not h ht
  refine ⟨?_, ?_, ?_, ?_⟩
  · simp [Solved.u0, AsmIn.u0, hc, bind, Except.bind]
  · simp [Solved.fluxUp, AsmIn.fluxUp, hc, bind, Except.bind]
  · simp [Solved.fluxDown, AsmIn.fluxDown, hc, bind, Except.bind]
  · intro hf
    have hu : R.uUncorrected tau phi anti = .error (.valueError "tau input outside the tau range") := by
      simp [Solved.uUncorrected, AsmIn.u, AsmIn.uRaw, hc, bind, Except.bind]
    obtain ⟨_, O, r, _, _, _, _, hof, hg1, hg2⟩ := pydisort_ok h
    unfold Solved.u
    rw [hof, hf]
    by_cases hg : a.NTGate
    · simp [hg1 hg, Solved.uCorrected, hu, bind, Except.bind]
    · simp [hg2 hg, hu]

/-- **C21, converse.** Depths within the atmosphere are accepted by all functions. -/
theorem C21_in_range (h : pydisort E J a = .ok R) {tau : A1 ℝ} (ht : InRange a tau) (phi : A1 ℝ) :
    (∃ A, R.u0 tau false = .ok A) ∧ (∃ A, R.fluxUp tau false = .ok A) ∧ (∃ A, R.fluxDown tau false = .ok A) ∧
    (∃ A, R.uUncorrected tau phi false = .ok A) := by
  have hc := checkTau_of_inRange h ht
  refine ⟨?_, ?_, ?_, ?_⟩
  · obtain ⟨A, hA, _⟩ := R.I.u0_plain R.S hc; exact ⟨A, hA⟩
  · obtain ⟨A, hA, _⟩ := R.I.fluxUp_plain R.S hc; exact ⟨A, hA⟩
  · obtain ⟨F, D, hA, _⟩ := R.I.fluxDown_plain R.S hc; exact ⟨_, hA⟩
  · obtain ⟨A, hA, _⟩ := R.I.u_plain R.S phi hc; exact ⟨A, hA⟩

/-- Both cases occur. -/
example {n : ℕ} (hn : 0 < n) (J : Junk) : ∃ (x : ℝ) (R : Solved), pydisort refExt J (demo n x) = .ok R ∧
    InRange (demo n x) ⟨2, fun k => (k : ℝ)⟩ ∧ ¬ InRange (demo n x) ⟨2, fun k => (k : ℝ) * 5⟩ := by
  obtain ⟨x, R, h1, _⟩ := demo_call hn J
  refine ⟨x, R, h1, fun t ht => ?_, fun hh => ?_⟩
  · change t < 2 at ht
    simp only [demo]
    interval_cases t <;> norm_num
  · have := (hh 1 (by norm_num)).2
    norm_num [demo] at this

/-! ## C22 -/

/-- **C22.** The returned functions work depth by depth: there are functions of a single depth whose values fill the
arrays returned for any array of depths, in any order and with repeats. -/
theorem C22_pointwise (h : pydisort E J a = .ok R) :
    (∃ v : ℝ → ℕ → ℝ, ∀ tau, InRange a tau →
      Returns2 (R.u0 tau false) (2 * nHalf a) tau.n (fun i t => v (tau.get t) i)) ∧
    (∃ v : ℝ → ℝ, ∀ tau, InRange a tau → Returns1 (R.fluxUp tau false) tau.n (fun t => v (tau.get t))) ∧
    (∃ v w : ℝ → ℝ, ∀ tau, InRange a tau →
      ReturnsFluxes (R.fluxDown tau false) tau.n (fun t => v (tau.get t)) (fun t => w (tau.get t))) := by
  obtain ⟨hacc, O, r, hO, hr, hI, _⟩ := pydisort_ok h
  have hN : R.I.N = nHalf a := by rw [hI]; rfl
  refine ⟨⟨fun t i => R.I.rescale * R.I.val R.S 0 t i, fun tau ht => ?_⟩, ⟨fun t => R.I.rescale
    * ∑ i ∈ range R.I.N, (2 * Real.pi * (R.I.mu i * R.I.W i)) * R.I.val R.S 0 t i, fun tau ht =>
    R.I.fluxUp_plain R.S (checkTau_of_inRange h ht)⟩, ?_⟩
  · rw [← hN]; exact R.I.u0_plain R.S (checkTau_of_inRange h ht)
  · refine ⟨fun t => R.I.rescale * (∑ i ∈ range R.I.N, (2 * Real.pi * (R.I.mu i * R.I.W i)) * R.I.val R.S 0 t (R.I.N + i)
        + if R.I.beam = true then R.I.I0 * R.I.mu0 * Real.exp (-R.I.scaledTau t / R.I.mu0)
          - R.I.I0 * R.I.mu0 * Real.exp (-t / R.I.mu0) else 0),
      fun t => R.I.rescale * (if R.I.beam = true then R.I.I0 * R.I.mu0 * Real.exp (-t / R.I.mu0) else 0),
      fun tau ht => ?_⟩
    obtain ⟨F, D, h1, h2, h3, h4, h5⟩ := R.I.fluxDown_plain R.S (checkTau_of_inRange h ht)
    refine ⟨F, D, _, h1, h2, h3, h4, fun t htn => ?_⟩
    by_cases hb : R.I.beam = true
    · rw [if_pos hb]
      rw [if_pos hb] at h4
      exact h5 t (by omega)
    · rw [if_neg hb]
      rw [if_neg hb] at h4
      rw [h5 0 (by omega), if_neg hb]
      simp only [if_neg hb]

/-- What `u` returns, with or without corrections. -/
theorem u_returns (h : pydisort E J a = .ok R) (hf : a.onlyFlux = false) {tau phi : A1 ℝ} (ht : InRange a tau)
    (hnt : a.NTcor = true → tau.n ≠ 0 ∧ (nHalf a ≠ 1 ∨ phi.n = 1)) :
    Returns3 (R.u tau phi false) (2 * nHalf a) tau.n phi.n (fun i t p =>
      (∑ m ∈ range (nFourier a), (R.I.rescale * R.I.val R.S m (tau.get t) i) * Real.cos ((m : ℝ) * (a.phi0 - phi.get p)))
        + (match R.nt with
          | some n => R.I.rescale * n.corrVal false i (R.I.layer (tau.get t)) (tau.get t) (phi.get p)
          | none => 0)) := by
  obtain ⟨hacc, O, r, hO, hr, hI, hsol, hof, hg1, hg2⟩ := pydisort_ok h
  have hN : R.I.N = nHalf a := by rw [hI]; rfl
  have hp : R.I.phi0 = a.phi0 := by rw [hI]; rfl
  have hF : R.I.NFourier = nFourier a := by rw [hI, ← nFourier_eq (a := a)]; rfl
  obtain ⟨A, h1, h2, h3, h4, h5⟩ := R.I.u_plain R.S phi (checkTau_of_inRange h ht)
  rw [hN] at h2
  rw [hN, hF, hp] at h5
  unfold Solved.u
  rw [hof, hf]
  simp only [Bool.false_eq_true, if_false]
  by_cases hg : a.NTGate
  · rw [hg1 hg]
    simp only
    obtain ⟨hn1, hn2⟩ := hnt hg.1
    have hNt : (a.ntIn (node E a) O r).N = nHalf a := rfl
    have hNpos : 0 < nHalf a := by
      have := hacc.streams.1
      unfold nHalf; omega
    obtain ⟨B, g1, g2, g3, g4, g5⟩ := (a.ntIn (node E a) O r).corr_returns (by rw [hNt]; exact hNpos) (tau := tau)
      (phi := phi) false (fun t => R.I.layer (tau.get t)) hn1 (by rw [hNt]; exact hn2)
    rw [hNt] at g2 g5
    unfold Solved.uCorrected Solved.uUncorrected
    rw [h1, g1]
    simp only [bind, Except.bind, addSqueezed]
    rw [if_pos ⟨by omega, by omega, by omega⟩]
    refine ⟨_, rfl, h2, h3, h4, fun i hi t ht p hp => ?_⟩
    simp only
    rw [h5 i hi t ht p hp, g5 i hi t ht p hp]
  · rw [hg2 hg]
    refine ⟨A, h1, h2, h3, h4, fun i hi t ht p hp => ?_⟩
    rw [h5 i hi t ht p hp]
    beta_reduce
    simp only [add_zero]

/-- **C22 for `u`**, with or without corrections: entry `[i, t, p]` depends on the stream, the one depth `tau[t]` and
the one azimuth `phi[p]` only. (With corrections: at least one depth, and more than two streams or one azimuth,
see C45.) -/
theorem C22_pointwise_u (h : pydisort E J a = .ok R) (hf : a.onlyFlux = false) :
    ∃ v : ℝ → ℝ → ℕ → ℝ, ∀ tau phi, InRange a tau →
      (a.NTcor = true → tau.n ≠ 0 ∧ (nHalf a ≠ 1 ∨ phi.n = 1)) →
      Returns3 (R.u tau phi false) (2 * nHalf a) tau.n phi.n (fun i t p => v (tau.get t) (phi.get p) i) :=
  ⟨fun t ph i => (∑ m ∈ range (nFourier a), (R.I.rescale * R.I.val R.S m t i) * Real.cos ((m : ℝ) * (a.phi0 - ph)))
        + (match R.nt with
          | some n => R.I.rescale * n.corrVal false i (R.I.layer t) t ph
          | none => 0), fun _ _ ht hnt => u_returns h hf ht hnt⟩

/-! ## C19 -/

theorem nuVal_periodic (mu phi mup phip : ℝ) : nuVal mu (phi + 2 * Real.pi) mup phip = nuVal mu phi mup phip := by
  unfold nuVal
  rw [show phip - (phi + 2 * Real.pi) = phip - phi - 2 * Real.pi by ring, Real.cos_sub_two_pi]

theorem nuVal_symm (mu x mup phip : ℝ) : nuVal mu (phip + x) mup phip = nuVal mu (phip - x) mup phip := by
  unfold nuVal
  rw [show phip - (phip + x) = -x by ring, show phip - (phip - x) = x by ring, Real.cos_neg]

/-- **C19.** The intensity returned by `u` (with or without corrections) is `2π`-periodic in azimuth and symmetric
about `phi0`. -/
theorem C19_azimuthal_symmetry (h : pydisort E J a = .ok R) (hf : a.onlyFlux = false) :
    ∃ v : ℝ → ℝ → ℕ → ℝ,
      (∀ tau phi, InRange a tau → (a.NTcor = true → tau.n ≠ 0 ∧ (nHalf a ≠ 1 ∨ phi.n = 1)) →
        Returns3 (R.u tau phi false) (2 * nHalf a) tau.n phi.n (fun i t p => v (tau.get t) (phi.get p) i)) ∧
      (∀ t ph i, v t (ph + 2 * Real.pi) i = v t ph i) ∧ ∀ t x i, v t (a.phi0 + x) i = v t (a.phi0 - x) i := by
  refine ⟨fun t ph i => (∑ m ∈ range (nFourier a), (R.I.rescale * R.I.val R.S m t i) * Real.cos ((m : ℝ) * (a.phi0 - ph)))
        + (match R.nt with
          | some n => R.I.rescale * n.corrVal false i (R.I.layer t) t ph
          | none => 0), fun _ _ ht hnt => u_returns h hf ht hnt, fun t ph i => ?_, fun t x i => ?_⟩
  · beta_reduce
    refine congrArg₂ (· + ·) ?_ ?_
    · refine sum_congr rfl fun m _ => ?_
      rw [show (m : ℝ) * (a.phi0 - (ph + 2 * Real.pi)) = (m : ℝ) * (a.phi0 - ph) - (m : ℕ) * (2 * Real.pi) by ring,
        Real.cos_sub_nat_mul_two_pi]
    · rcases R.nt with _ | n
      · rfl
      · simp only [NTIn.corrVal, nuVal_periodic]
  · beta_reduce
    refine congrArg₂ (· + ·) ?_ ?_
    · refine sum_congr rfl fun m _ => ?_
      rw [show (m : ℝ) * (a.phi0 - (a.phi0 + x)) = -((m : ℝ) * x) by ring,
        show (m : ℝ) * (a.phi0 - (a.phi0 - x)) = (m : ℝ) * x by ring, Real.cos_neg]
    · obtain ⟨hacc, O, r, hO, hr, hI, hsol, hof, hg1, hg2⟩ := pydisort_ok h
      by_cases hg : a.NTGate
      · rw [hg1 hg]
        simp only [NTIn.corrVal]
        have e : (a.ntIn (node E a) O r).phi0 = a.phi0 := rfl
        simp only [e, nuVal_symm]
      · rw [hg2 hg]

/-- **C19, mean.** The azimuthal mean of the (uncorrected) intensity is `u0`. -/
theorem C19_azimuthal_mean (h : pydisort E J a = .ok R) :
    ∃ (v : ℝ → ℝ → ℕ → ℝ) (w : ℝ → ℕ → ℝ),
      (∀ tau phi, InRange a tau →
        Returns3 (R.uUncorrected tau phi false) (2 * nHalf a) tau.n phi.n (fun i t p => v (tau.get t) (phi.get p) i)) ∧
      (∀ tau, InRange a tau → Returns2 (R.u0 tau false) (2 * nHalf a) tau.n (fun i t => w (tau.get t) i)) ∧
      ∀ t i, (1 / (2 * Real.pi)) * ∫ ph in (0 : ℝ)..(2 * Real.pi), v t ph i = w t i := by
  obtain ⟨hacc, O, r, hO, hr, hI, hsol, hof, hg1, hg2⟩ := pydisort_ok h
  have hN : R.I.N = nHalf a := by rw [hI]; rfl
  have hp : R.I.phi0 = a.phi0 := by rw [hI]; rfl
  have hF : R.I.NFourier = nFourier a := by rw [hI, ← nFourier_eq (a := a)]; rfl
  have hFpos : 0 < nFourier a := by
    have h1 := hacc.modes
    unfold nFourier
    split_ifs with hf
    · omega
    · have := (h1 (by simpa using hf)).1; omega
  refine ⟨fun t ph i => ∑ m ∈ range (nFourier a), (R.I.rescale * R.I.val R.S m t i) * Real.cos ((m : ℝ) * (a.phi0 - ph)),
    fun t i => R.I.rescale * R.I.val R.S 0 t i, fun tau phi ht => ?_, fun tau ht => ?_, fun t i => ?_⟩
  · have := R.I.u_plain R.S phi (checkTau_of_inRange h ht)
    rw [hN, hF, hp] at this; exact this
  · rw [← hN]; exact R.I.u0_plain R.S (checkTau_of_inRange h ht)
  · beta_reduce
    rw [intervalIntegral.integral_finset_sum (fun m _ => (Continuous.intervalIntegrable (by fun_prop) _ _))]
    simp_rw [intervalIntegral.integral_const_mul, integral_cos_mode]
    have hpi : Real.pi ≠ 0 := Real.pi_ne_zero
    simp only [mul_ite, mul_zero, sum_ite_eq', mem_range, hFpos, if_true]
    field_simp

/-! ## C16 -/

theorem scaledTau_mem (h : pydisort E J a = .ok R) {t : ℝ} (h0 : 0 ≤ t) (h1 : t ≤ a.tauArr.get (a.tauArr.n - 1)) :
    R.I.layer t < a.tauArr.n ∧ R.I.tau0 (R.I.layer t) ≤ R.I.scaledTau t ∧
      R.I.scaledTau t ≤ R.I.tau0 (R.I.layer t + 1) := by
  obtain ⟨hacc, O, r, hO, hr, hI, _⟩ := pydisort_ok h
  have hs := Args.optics_spec hacc hO
  obtain ⟨hd, e1, e2⟩ := depthOK_of h
  obtain ⟨l, hl, h3, h4, h5⟩ := AsmIn.exists_layer hd (t := t) (by rw [e1, e2]; exact h1)
  have hsc : 0 < R.I.scale l := by
    rw [hI]
    have := Args.scale_pos hacc (l := l) (by rw [e2] at hl; exact hl)
    rw [← hs.scale l (by rw [e2] at hl; exact hl)] at this
    exact this
  rw [AsmIn.scaledTau_eq hd, h5, hd.step l hl]
  have h6 : bdry R.I.tauArr l ≤ t := by
    rcases h3 with h3 | h3
    · exact h3.le
    · subst h3; simpa [bdry] using h0
  refine ⟨by omega, ?_, ?_⟩
  · nlinarith
  · nlinarith

theorem tau0_mono (h : pydisort E J a = .ok R) {k : ℕ} (hk : k < a.tauArr.n) : R.I.tau0 k < R.I.tau0 (k + 1) := by
  obtain ⟨hacc, O, r, hO, hr, hI, _⟩ := pydisort_ok h
  have hs := Args.optics_spec hacc hO
  obtain ⟨hd, e1, e2⟩ := depthOK_of h
  rw [hd.step k (by omega)]
  have hsc : 0 < R.I.scale k := by
    rw [hI]
    have := Args.scale_pos hacc (l := k) hk
    rw [← hs.scale k hk] at this
    exact this
  nlinarith [hd.mono k (by omega)]

theorem tau0_nonneg (h : pydisort E J a = .ok R) {k : ℕ} (hk : k ≤ a.tauArr.n) : 0 ≤ R.I.tau0 k := by
  obtain ⟨hd, e1, e2⟩ := depthOK_of h
  induction k with
  | zero => rw [hd.tau00]
  | succ k ih => exact (ih (by omega)).trans (tau0_mono h (by omega)).le

/-- **C16, evaluation.** When `u`, `u0` or a flux is evaluated at a depth in the atmosphere, no argument of `exp` is
positive: neither those of the homogeneous solution of any mode, nor those of the beam. -/
theorem C16_evaluation_exponents (h : pydisort E J a = .ok R) (hS : Numerics E a) {t : ℝ} (h0 : 0 ≤ t)
    (h1 : t ≤ a.tauArr.get (a.tauArr.n - 1)) :
    (∀ m < nFourier a, ∀ j < 2 * nHalf a, R.I.exponent R.S m t j ≤ 0) ∧
    (0 < a.I0 → -R.I.scaledTau t / R.I.mu0 ≤ 0 ∧ -t / R.I.mu0 ≤ 0) := by
  obtain ⟨hl, h2, h3⟩ := scaledTau_mem h h0 h1
  obtain ⟨hacc, O, r, hO, hr, hI, _⟩ := pydisort_ok h
  have hN : R.I.N = nHalf a := by rw [hI]; rfl
  have hmu : R.I.mu0 = a.mu0 := by rw [hI]; rfl
  refine ⟨fun m hm j hj => ?_, fun hI0 => ?_⟩
  · obtain ⟨_, _, hK⟩ := C08_eigenvectors_diagonalise h hS hm hl
    unfold AsmIn.exponent
    rw [hN]
    split_ifs with hj'
    · exact mul_nonpos_of_nonpos_of_nonneg (hK j hj').1.le (by linarith)
    · have := hK (j - nHalf a) (by omega)
      rw [show nHalf a + (j - nHalf a) = j by omega] at this
      refine mul_nonpos_of_nonneg_of_nonpos ?_ (by linarith)
      rw [this.2]; linarith [this.1]
  · have hp := (hacc.beamDir hI0).1.1
    rw [hmu]
    have h4 := tau0_nonneg h hl.le
    exact ⟨div_nonpos_of_nonpos_of_nonneg (by linarith) hp.le, div_nonpos_of_nonpos_of_nonneg (by linarith) hp.le⟩

/-- **C16, boundary system.** None of the exponential factors entering the boundary system of a mode exceeds one
(`c` is the system set up for the call: same eigenvalues, same scaled depths). -/
theorem C16_boundary_system_exponents (h : pydisort E J a = .ok R) (hS : Numerics E a) {c : CoefIn}
    (hcN : c.N = nHalf a) (hcL : c.NLayers = a.tauArr.n) (hcK : c.K = R.S.K) (hct : c.tau0 = R.I.tau0)
    (hcm : c.mu0 = a.mu0) {m : ℕ} (hm : m < nFourier a) :
    (∀ j < nHalf a, c.E01 m j ≤ 1) ∧ (∀ j < nHalf a, c.ELm1L m j ≤ 1) ∧
    (∀ l, l + 1 < a.tauArr.n → ∀ j < nHalf a, c.Elm1l m l j ≤ 1 ∧ c.Ellp1 m l j ≤ 1) ∧
    (0 < a.I0 → ∀ l ≤ a.tauArr.n, -c.tau0 l / c.mu0 ≤ 0) := by
  obtain ⟨hacc, _⟩ := pydisort_ok h
  obtain ⟨hd, _⟩ := depthOK_of h
  have hL := hacc.layers
  have hK : ∀ l < a.tauArr.n, ∀ j < nHalf a, R.S.K m l j < 0 ∧ 0 < R.S.K m l (nHalf a + j) := by
    intro l hl j hj
    obtain ⟨_, _, hK⟩ := C08_eigenvectors_diagonalise h hS hm hl
    have := hK j hj
    exact ⟨this.1, by rw [this.2]; linarith [this.1]⟩
  refine ⟨fun j hj => ?_, fun j hj => ?_, fun l hl j hj => ⟨?_, ?_⟩, fun hI0 l hl => ?_⟩
  · unfold CoefIn.E01
    rw [hcK, hct, Real.exp_le_one_iff]
    have := tau0_mono h hL
    rw [hd.tau00] at this
    exact mul_nonpos_of_nonpos_of_nonneg (hK 0 hL j hj).1.le this.le
  · unfold CoefIn.ELm1L
    rw [hcK, hct, hcL, Real.exp_le_one_iff]
    have := tau0_mono h (k := a.tauArr.n - 1) (by omega)
    rw [show a.tauArr.n - 1 + 1 = a.tauArr.n by omega] at this
    exact mul_nonpos_of_nonpos_of_nonneg (hK _ (by omega) j hj).1.le (by linarith)
  · unfold CoefIn.Elm1l
    rw [hcK, hct, hcN, Real.exp_le_one_iff]
    have := tau0_mono h (k := l) (by omega)
    exact mul_nonpos_of_nonneg_of_nonpos (hK _ (by omega) j hj).2.le (by linarith)
  · unfold CoefIn.Ellp1
    rw [hcK, hct, hcN, Real.exp_le_one_iff]
    have := tau0_mono h (k := l + 1) (by omega)
    exact mul_nonpos_of_nonneg_of_nonpos (hK _ (by omega) j hj).2.le (by linarith)
  · rw [hct, hcm]
    exact div_nonpos_of_nonpos_of_nonneg (by linarith [tau0_nonneg h hl]) (hacc.beamDir hI0).1.1.le

/-- The hypotheses are met: the system the code sets up for the demonstration problem. -/
example {n : ℕ} (hn : 0 < n) (J : Junk) : ∃ (x : ℝ) (R : Solved) (c : CoefIn), pydisort refExt J (demo n x) = .ok R ∧
    Sound refExt (demo n x) ∧ c.N = nHalf (demo n x) ∧ c.NLayers = (demo n x).tauArr.n ∧ c.K = R.S.K ∧ c.tau0 = R.I.tau0
    ∧ c.mu0 = (demo n x).mu0 := by
  obtain ⟨x, R, h1, _, h2, _⟩ := demo_call hn J
  obtain ⟨hacc, O, r, hO, hr, hI, hsol, _⟩ := pydisort_ok h1
  obtain ⟨out, GC, h3, h4, h5⟩ := AsmIn.solveAll_ok hsol
  refine ⟨x, R, R.I.coefIn out, h1, h2, ?_, ?_, ?_, rfl, ?_⟩
  · rw [hI]; rfl
  · rw [hI]; rfl
  · rw [h5]; rfl
  · rw [hI]; rfl

end Pydisort

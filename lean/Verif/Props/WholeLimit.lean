import Verif.WholeBound
import Verif.Spec.WholeLimit
import Verif.Props.Whole

/-!
# C119: with more and more coefficients, modes and streams the intensities at all azimuths approach the solution with the whole phase function

Specification used: `Spec.WholeSolution`, `Spec.PhaseSeries`, `Spec.NonnegWhole`, `Spec.AbsorbingBDRF`, `Spec.AsksForWhole`, `Spec.AbsorbsAtLeast`, `Spec.NeglectsAtMost`.
-/

namespace Pydisort
open Finset Spec MeasureTheory

section
variable {E : Ext} {a b : Args} {g : ℕ → ℕ → ℝ} {rho : ℕ → ℝ → ℝ → ℝ} {up down : ℝ → ℝ} {w : ℝ → ℝ → ℝ → ℝ} {J : Junk} {R : Solved} {F : Fields}

/-- The returned intensities are bounded and continuous in depth and azimuth. -/
theorem asked_tame (hb : AsksForWhole E a g rho up down b) (h : pydisort E J b = .ok R) (hF : Evaluates b R F) :
    (∀ i < 2 * nHalf b, ∀ ph, ContinuousOn (fun t => F.u t ph i) (Set.Icc 0 (bottom b)))
      ∧ (∀ i < 2 * nHalf b, ∀ t ∈ Set.Icc 0 (bottom b), Continuous fun ph => F.u t ph i)
      ∧ ∃ k, ∀ t ∈ Set.Icc 0 (bottom b), ∀ ph, ∀ i < 2 * nHalf b, |F.u t ph i| ≤ k := by
  obtain ⟨U, hU, -⟩ := C02_modes_solve_transfer_equation h hb.sound hb.rescalable
  have hc : ∀ m < nFourier b, ∀ i < 2 * nHalf b, ContinuousOn (fun t => U m t i) (Set.Icc 0 (bottom b)) := fun m hm =>
    (modes_isSolution h hb.sound hb.rescalable hb.bpos hb.bneg hb.surface hU hm).cont
  have hs : ∀ t ∈ Set.Icc 0 (bottom b), ∀ i < 2 * nHalf b, ∀ ph, F.u t ph i = ∑ m ∈ range (nFourier b), U m t i * Real.cos (m * (b.phi0 - ph)) := fun t ht i hi ph =>
    evaluates_series h hb.intensities hb.uncorrected hU hF ht.1 ht.2 hi ph
  refine ⟨fun i hi ph => ?_, fun i hi t ht => ?_, ?_⟩
  · refine ContinuousOn.congr (f := fun t => ∑ m ∈ range (nFourier b), U m t i * Real.cos (m * (b.phi0 - ph))) ?_ fun t ht => hs t ht i hi ph
    exact continuousOn_finset_sum _ fun m hm => (hc m (mem_range.1 hm) i hi).mul continuousOn_const
  · simp only [hs t ht i hi]
    fun_prop
  · have hB : ∀ m i, ∃ B, m < nFourier b → i < 2 * nHalf b → ∀ t ∈ Set.Icc 0 (bottom b), |U m t i| ≤ B := fun m i => by
      by_cases hm : m < nFourier b
      · by_cases hi : i < 2 * nHalf b
        · obtain ⟨B, hB⟩ := isCompact_Icc.exists_bound_of_continuousOn (hc m hm i hi)
          exact ⟨B, fun _ _ t ht => hB t ht⟩
        · exact ⟨0, fun _ h => absurd h hi⟩
      · exact ⟨0, fun h => absurd h hm⟩
    choose B hB using hB
    refine ⟨∑ i ∈ range (2 * nHalf b), ∑ m ∈ range (nFourier b), |B m i|, fun t ht ph i hi => ?_⟩
    rw [hs t ht i hi]
    refine le_trans ?_ (single_le_sum (f := fun i => ∑ m ∈ range (nFourier b), |B m i|) (fun _ _ => sum_nonneg fun _ _ => abs_nonneg _) (mem_range.2 hi))
    refine (abs_sum_le_sum_abs _ _).trans (sum_le_sum fun m hm => ?_)
    rw [abs_mul]
    exact (mul_le_of_le_one_right (abs_nonneg _) (Real.abs_cos_le_one _)).trans ((hB m i (mem_range.1 hm) hi t ht).trans (le_abs_self _))

theorem cosAngle_turn (y ph z p : ℝ) : cosAngle y (ph + 2 * Real.pi) z p = cosAngle y ph z p := by
  unfold cosAngle
  rw [show ph + 2 * Real.pi - p = ph - p + 2 * Real.pi by ring, Real.cos_add_two_pi]

theorem bdrfOf_turn (y z x p : ℝ) : bdrfOf a rho y z (x + 2 * Real.pi - p) = bdrfOf a rho y z (x - p) := by
  unfold bdrfOf
  refine sum_congr rfl fun n _ => ?_
  congr 1
  rw [show (n : ℝ) * (x + 2 * Real.pi - p) = n * (x - p) + (n : ℕ) * (2 * Real.pi) by ring, Real.cos_add_nat_mul_two_pi]

/-- A quadrature rule of high enough degree approximates all the integrals of the equation. -/
theorem whole_quad (hacc : Accepted a) (hgs : ∀ l < a.tauArr.n, PhaseSeries (g l)) (hpos : NonnegWhole a g) (hr : AbsorbingBDRF a rho) (hw : WholeSolution a g rho up down w)
    {κ : ℝ} (hκ : AbsorbsAtLeast a rho κ) {η : ℝ} (hη : 0 < η) :
    ∃ d : ℕ, ∀ n mu wt, Rule d n mu wt →
      (∀ l < a.tauArr.n, ∀ t ∈ Set.Icc 0 (bottom a), ∀ y ∈ Set.Icc (-1 : ℝ) 1, ∀ ph,
        |∑ j ∈ range (2 * n), streamW n wt j * (∫ ph' in (0 : ℝ)..(2 * Real.pi), wholePhase (g l) (cosAngle y ph (stream n mu j) ph')
          * w t (stream n mu j) ph') - wholeScatter (g l) (w t) y ph| ≤ η)
      ∧ (∀ l < a.tauArr.n, ∀ y ∈ Set.Icc (-1 : ℝ) 1, ∀ ph,
        ∑ j ∈ range (2 * n), streamW n wt j * (∫ ph' in (0 : ℝ)..(2 * Real.pi), wholePhase (g l) (cosAngle y ph (stream n mu j) ph')) ≤ 4 * Real.pi + η)
      ∧ (∀ y ∈ Set.Icc (0 : ℝ) 1, ∀ ph, |∑ j ∈ range n, wt j * (∫ ph' in (0 : ℝ)..(2 * Real.pi), mu j * bdrfOf a rho y (mu j) (ph - ph')
          * w (bottom a) (-mu j) ph') - kint 0 1 (fun y ph z ph' => z * bdrfOf a rho y z (ph - ph')) (fun z => w (bottom a) (-z)) y ph| ≤ η)
      ∧ (∀ y ∈ Set.Icc (0 : ℝ) 1, ∀ ph, ∑ j ∈ range n, wt j * (∫ ph' in (0 : ℝ)..(2 * Real.pi), mu j * bdrfOf a rho y (mu j) (ph - ph'))
          ≤ Real.pi * (1 - κ + η)) := by
  have hpi := Real.pi_pos
  obtain ⟨M, hM⟩ := hw.bounded
  have hb0 := (bottom_pos hacc).le
  have hbm : bottom a ∈ Set.Icc 0 (bottom a) := ⟨hb0, le_rfl⟩
  have hdn : ∀ z ∈ Set.Icc (0 : ℝ) 1 \ {0}, -z ∈ Set.Icc (-1 : ℝ) 1 \ {0} := fun z hz => ⟨⟨by linarith [hz.1.2], by linarith [hz.1.1]⟩, by
    have := hz.2
    simp only [Set.mem_singleton_iff] at this ⊢
    simpa using this⟩
  have q1 : ∀ l < a.tauArr.n, _ := fun l hl => kern_quad_all (X := ℝ) isCompact_Icc (whole_kernel (hgs l hl) (hpos l hl))
    (fun y ph z p => by rw [cosAngle_turn]) (isCompact_Icc (a := (0 : ℝ)) (b := bottom a)) (f := w) hw.cont (fun t ht z hz ph => hM t ht z hz.1 hz.2 ph) hη
  have q2 : ∀ l < a.tauArr.n, _ := fun l hl => kern_quad_all (X := Unit) isCompact_Icc (whole_kernel (hgs l hl) (hpos l hl))
    (fun y ph z p => by rw [cosAngle_turn]) (isCompact_singleton (x := ())) (f := fun _ _ _ => 1) (M := 1) continuousOn_const (fun _ _ _ _ _ => by simp) hη
  obtain ⟨d₃, h₃⟩ := kern_quad (X := Unit) isCompact_Icc (bdrf_kernel hr) (fun y ph z p => by rw [bdrfOf_turn]) (isCompact_singleton (x := ()))
    (f := fun _ z ph => w (bottom a) (-z) ph) (M := M)
    (hw.cont.comp (f := fun p : Unit × ℝ × ℝ => (bottom a, -p.2.1, p.2.2)) (by fun_prop) fun p hp => ⟨hbm, hdn _ hp.2.1, trivial⟩)
    (fun _ _ z hz ph => hM _ hbm _ (hdn z hz).1 (hdn z hz).2 ph) hη
  obtain ⟨d₄, h₄⟩ := kern_quad (X := Unit) isCompact_Icc (bdrf_kernel hr) (fun y ph z p => by rw [bdrfOf_turn]) (isCompact_singleton (x := ()))
    (f := fun _ _ _ => 1) (M := 1) continuousOn_const (fun _ _ _ _ _ => by simp) hη
  choose! d₁ h₁ using q1
  choose! d₂ h₂ using q2
  refine ⟨max (max ((range a.tauArr.n).sup d₁) ((range a.tauArr.n).sup d₂)) (max d₃ d₄), fun n mu wt hR => ⟨?_, ?_, ?_, ?_⟩⟩
  · intro l hl t ht y hy ph
    have := le_sup (f := d₁) (mem_range.2 hl)
    exact h₁ l hl n mu wt (hR.mono (by omega)) t ht y hy ph
  · intro l hl y hy ph
    have := le_sup (f := d₂) (mem_range.2 hl)
    have h := h₂ l hl n mu wt (hR.mono (by omega)) () rfl y hy ph
    simp only [kint, mul_one] at h
    rw [whole_mass (hgs l hl) hy ph] at h
    linarith [(abs_le.1 h).2]
  · intro y hy ph
    exact h₃ n mu wt (hR.mono (by omega)) () rfl y hy ph
  · intro y hy ph
    have h := h₄ n mu wt (hR.mono (by omega)) () rfl y hy ph
    simp only [kint, mul_one] at h
    have h' := bdrf_mass hκ.surface hy ph
    rw [one_div, inv_mul_le_iff₀ hpi] at h'
    have := (abs_le.1 h).2
    nlinarith [Real.two_le_pi]

/-- The direct beam, scattered with the kernel of the code and attenuated along the scaled depth. -/
theorem beam_near (hacca : Accepted a) (hacc : Accepted b) (hT : Truncates a g b) (hgs : ∀ l < a.tauArr.n, PhaseSeries (g l)) {s ν G B : ℝ} (hs1 : s ≤ 1)
    (hpk : ∀ l < a.tauArr.n, 0 ≤ peak b l ∧ peak b l ≤ s) (hG : ∀ l < a.tauArr.n, ∑' k : ℕ, (2 * (k : ℝ) + 1) * |g l k| ≤ G)
    (hσ : ∀ l < a.tauArr.n, ∀ x ∈ Set.Icc (-1 : ℝ) 1, ∀ y ∈ Set.Icc (-1 : ℝ) 1, ∀ ph ph',
      |scale b l * omegaStar b l * keptPhase b l x ph y ph' - a.omega.get l * wholePhase (g l) (cosAngle x ph y ph')| ≤ ν + s)
    (hB : a.I0 / (4 * Real.pi) * (1 + G * (bottom a / a.mu0)) ≤ B) {l : ℕ} (hl : l < a.tauArr.n) {t : ℝ} (ht : InLayer a l t) {y : ℝ} (hy : y ∈ Set.Icc (-1 : ℝ) 1) (ph : ℝ) :
    |a.I0 / (4 * Real.pi) * (scale b l * omegaStar b l * keptPhase b l y ph (-a.mu0) a.phi0 * Real.exp (-tauStar b l t / a.mu0)
      - a.omega.get l * wholePhase (g l) (cosAngle y ph (-a.mu0) a.phi0) * Real.exp (-t / a.mu0))| ≤ a.I0 / (4 * Real.pi) * ν + s * B := by
  have hpi := Real.pi_pos
  have hs0 : 0 ≤ s := (hpk l hl).1.trans (hpk l hl).2
  have hbot := bottom_pos hacca
  rcases hacca.beam.eq_or_lt with h0 | h0
  · rw [← h0] at hB ⊢
    simp only [zero_div, zero_mul, abs_zero, zero_add] at hB ⊢
    positivity
  · have hmu := (hacca.beamDir h0).1
    have ho := hacca.omega l hl
    have hbb : bottom b = bottom a := by unfold bottom; rw [hT.tau]
    have hlb : l < b.tauArr.n := by rwa [hT.tau]
    have hz : -a.mu0 ∈ Set.Icc (-1 : ℝ) 1 := ⟨by linarith [hmu.2], by linarith [hmu.1]⟩
    have ht0 : 0 ≤ t := by
      have := bdry_le hacca (Nat.zero_le l) hl.le
      rw [bdry_zero] at this
      exact this.trans ht.1
    have ht1 : t ≤ bottom a := by
      have := bdry_le hacca (show l + 1 ≤ a.tauArr.n from hl) le_rfl
      rw [bdry_bottom hacca] at this
      exact ht.2.trans this
    have htb : InLayer b l t := by unfold InLayer at ht ⊢; rw [hT.tau]; exact ht
    have n1 := tauStar_near hacc (φ := s) (fun l hl => hpk l (by rwa [hT.tau] at hl)) hlb htb
    obtain ⟨y1, y2, y3⟩ := exp_near (x := tauStar b l t) (y := t) (c := s * bottom a) (m := a.mu0) (by nlinarith) n1.1 (by nlinarith) hmu.1
    have k1 := hσ l hl y hy _ hz ph a.phi0
    have k2 := (abs_wholePhase_le (hgs l hl) (cosAngle_mem hy hz ph a.phi0)).trans (hG l hl)
    set A := scale b l * omegaStar b l * keptPhase b l y ph (-a.mu0) a.phi0
    set P := wholePhase (g l) (cosAngle y ph (-a.mu0) a.phi0)
    set e₁ := Real.exp (-tauStar b l t / a.mu0) with he₁
    set e₂ := Real.exp (-t / a.mu0)
    have e0 : 0 ≤ e₁ := (Real.exp_pos _).le
    have k3 : |A * e₁ - a.omega.get l * P * e₂| ≤ ν + s + G * (s * bottom a / a.mu0) := by
      have : A * e₁ - a.omega.get l * P * e₂ = (A - a.omega.get l * P) * e₁ + a.omega.get l * P * (e₁ - e₂) := by ring
      rw [this]
      refine (abs_add_le _ _).trans (add_le_add ?_ ?_)
      · rw [abs_mul, abs_of_nonneg e0]
        exact (mul_le_of_le_one_right (abs_nonneg _) y3).trans k1
      · rw [abs_mul, abs_of_nonneg y1, abs_mul, abs_of_nonneg ho.1]
        refine mul_le_mul ((mul_le_of_le_one_left (abs_nonneg _) ho.2.le).trans k2) y2 y1 ((abs_nonneg _).trans k2)
    have hI : 0 ≤ a.I0 / (4 * Real.pi) := by positivity
    rw [abs_mul, abs_of_nonneg hI]
    have k4 := mul_le_mul_of_nonneg_left k3 hI
    have k5 := mul_le_mul_of_nonneg_left hB hs0
    have k6 : a.I0 / (4 * Real.pi) * (ν + s + G * (s * bottom a / a.mu0)) = a.I0 / (4 * Real.pi) * ν + s * (a.I0 / (4 * Real.pi) * (1 + G * (bottom a / a.mu0))) := by ring
    linarith

/-- The reflected direct beam. -/
theorem mirror_near (hacca : Accepted a) (hacc : Accepted b) (hT : Truncates a g b) {s K B : ℝ} (hs1 : s ≤ 1) (hs0 : 0 ≤ s)
    (hpk : ∀ l < a.tauArr.n, 0 ≤ peak b l ∧ peak b l ≤ s) (hK : ∀ y ∈ Set.Icc (0 : ℝ) 1, ∀ z ∈ Set.Icc (0 : ℝ) 1, ∀ d, |z * bdrfOf a rho y z d| ≤ K)
    (hB : a.I0 / Real.pi * (K * (bottom a / a.mu0)) ≤ B) (hB0 : 0 ≤ B) {y : ℝ} (hy : y ∈ Set.Icc (0 : ℝ) 1) (ph : ℝ) :
    |a.mu0 * a.I0 / Real.pi * bdrfOf a rho y a.mu0 (ph - a.phi0) * (Real.exp (-bdryStar b b.tauArr.n / a.mu0) - Real.exp (-bottom a / a.mu0))| ≤ s * B := by
  have hpi := Real.pi_pos
  have hbot := bottom_pos hacca
  rcases hacca.beam.eq_or_lt with h0 | h0
  · rw [← h0]
    simp only [mul_zero, zero_div, zero_mul, abs_zero]
    positivity
  · have hmu := (hacca.beamDir h0).1
    have hbb : bottom b = bottom a := by unfold bottom; rw [hT.tau]
    have n1 := bdryStar_near hacc (φ := s) (fun l hl => hpk l (by rwa [hT.tau] at hl)) (le_refl b.tauArr.n)
    rw [bdry_bottom hacc, hbb] at n1
    obtain ⟨y1, y2, y3⟩ := exp_near (x := bdryStar b b.tauArr.n) (y := bottom a) (c := s * bottom a) (m := a.mu0) (by nlinarith) n1.1 (by nlinarith) hmu.1
    have k1 := hK y hy a.mu0 ⟨hmu.1.le, hmu.2⟩ (ph - a.phi0)
    rw [abs_mul, abs_of_nonneg y1, show a.mu0 * a.I0 / Real.pi * bdrfOf a rho y a.mu0 (ph - a.phi0) = a.I0 / Real.pi * (a.mu0 * bdrfOf a rho y a.mu0 (ph - a.phi0)) by ring, abs_mul,
      abs_of_pos (by positivity : 0 < a.I0 / Real.pi), mul_assoc]
    have k2 := mul_le_mul k1 y2 y1 ((abs_nonneg _).trans k1)
    have k3 := mul_le_mul_of_nonneg_left k2 (by positivity : 0 ≤ a.I0 / Real.pi)
    have k4 := mul_le_mul_of_nonneg_left hB hs0
    have k5 : a.I0 / Real.pi * (K * (s * bottom a / a.mu0)) = s * (a.I0 / Real.pi * (K * (bottom a / a.mu0))) := by ring
    linarith

/-- A quantity that a contraction keeps shrinking ends up below every bound that the contraction maps below itself. -/
theorem shrinks {α : Type*} {e : α → ℝ} {S : Set α} {X q δ k₀ : ℝ} (hX : 0 ≤ X) (hk₀ : 0 ≤ k₀) (hq0 : 0 ≤ q) (hq1 : q < 1) (hfix : q * X + δ ≤ X) (h0 : ∀ p ∈ S, |e p| ≤ k₀)
    (hstep : ∀ k, 0 ≤ k → (∀ p ∈ S, |e p| ≤ k) → ∀ p ∈ S, |e p| ≤ q * k + δ) : ∀ p ∈ S, |e p| ≤ X := by
  have main : ∀ n : ℕ, ∀ p ∈ S, |e p| ≤ X + q ^ n * k₀ := by
    intro n
    induction n with
    | zero =>
      intro p hp
      rw [pow_zero, one_mul]
      exact (h0 p hp).trans (by linarith)
    | succ n ih =>
      intro p hp
      have hp' : 0 ≤ q ^ n * k₀ := by positivity
      refine (hstep _ (by linarith) ih p hp).trans ?_
      rw [pow_succ]
      linarith
  intro p hp
  have hlim : Filter.Tendsto (fun n : ℕ => X + q ^ n * k₀) Filter.atTop (nhds (X + 0 * k₀)) :=
    ((tendsto_pow_atTop_nhds_zero_of_lt_one hq0 hq1).mul_const _).const_add X
  rw [zero_mul, add_zero] at hlim
  exact ge_of_tendsto' hlim fun n => main n p hp

/-- **C119.** Let `w` solve the transfer equation with the whole phase functions in all directions, and let `M` bound it. For every `ε` there are a number of Fourier modes and a bound `η` such
that every call that uses at least so many modes, and whose delta-M peaks are at most `η` over the square of the number of coefficients, returns intensities that differ from `w` by at most
`ε + ν (M + I₀/4π) / (κ - ν)` at every depth, azimuth and stream. The second term is the price of the code ignoring scattering coefficients below `1e-8`: `ν` bounds what is
ignored, and `κ` is the least fraction absorbed. -/
theorem C119_whole_phase_function (hacc : Accepted a) (hgs : ∀ l < a.tauArr.n, PhaseSeries (g l)) (hpos : NonnegWhole a g) (hr : AbsorbingBDRF a rho)
    {κ ν : ℝ} (hκ : AbsorbsAtLeast a rho κ) (hν : NeglectsAtMost a g ν) (hνκ : ν < κ) (hw : WholeSolution a g rho up down w)
    {M : ℝ} (hM : ∀ t ∈ Set.Icc 0 (bottom a), ∀ y ∈ Set.Icc (-1 : ℝ) 1, y ≠ 0 → ∀ ph, |w t y ph| ≤ M) {ε : ℝ} (hε : 0 < ε) :
    ∃ N₀ : ℕ, ∃ η > 0, ∀ (E : Ext) (b : Args) (J : Junk) (R : Solved) (F : Fields), AsksForWhole E a g rho up down b → N₀ ≤ nFourier b →
      (∀ l < a.tauArr.n, peak b l ≤ η / (nLeg b : ℝ) ^ 2) → pydisort E J b = .ok R → Evaluates b R F →
      ∀ t, 0 ≤ t → t ≤ bottom a → ∀ ph, ∀ i < 2 * nHalf b,
        |F.u t ph i - w t (stream (nHalf b) (node E b) i) ph| ≤ ε + ν * (M + a.I0 / (4 * Real.pi)) / (κ - ν) := by
  have hpi := Real.pi_pos
  have hbot : 0 < bottom a := bottom_pos hacc
  have hI0 := hacc.beam
  have hM0 : 0 ≤ M := (abs_nonneg _).trans (hM 0 ⟨le_rfl, hbot.le⟩ 1 ⟨by norm_num, le_rfl⟩ one_ne_zero 0)
  have hν0 : 0 ≤ ν := by
    obtain ⟨K, hK⟩ := hν 0 hacc.layers
    exact le_trans (add_nonneg (by positivity) (mul_nonneg (hacc.omega 0 hacc.layers).1 (tailSum_nonneg (g 0) K))) hK
  have hd : 0 < κ - ν := by linarith
  have hκ1 : 0 ≤ 1 - κ := (hacc.omega 0 hacc.layers).1.trans (hκ.layers 0 hacc.layers)
  obtain ⟨G, hG0, hGl⟩ := exists_layer_bound (fun l => ∑' k : ℕ, (2 * (k : ℝ) + 1) * |g l k|) a.tauArr.n
  obtain ⟨K', hK'⟩ := (bdrf_kernel hr).bdd
  have hKabs : ∀ y ∈ Set.Icc (0 : ℝ) 1, ∀ z ∈ Set.Icc (0 : ℝ) 1, ∀ d, |z * bdrfOf a rho y z d| ≤ K' := fun y hy z hz d => by
    rw [abs_of_nonneg (mul_nonneg hz.1 (hr.nonneg y hy z hz d))]
    have := hK' y hy d z hz 0
    rwa [sub_zero] at this
  set B := max (a.I0 / (4 * Real.pi) * (1 + G * (bottom a / a.mu0))) 0 with hB
  set B' := max (a.I0 / Real.pi * (K' * (bottom a / a.mu0))) 0 with hB'
  have hB0 : 0 ≤ B := le_max_right _ _
  have hB0' : 0 ≤ B' := le_max_right _ _
  set X := ε + ν * (M + a.I0 / (4 * Real.pi)) / (κ - ν) with hX
  have hX0 : 0 ≤ X := by positivity
  have hXe : (κ - ν) * X = ε * (κ - ν) + ν * (M + a.I0 / (4 * Real.pi)) := by rw [hX]; field_simp
  have hXε : ε ≤ X := by rw [hX]; linarith [(by positivity : 0 ≤ ν * (M + a.I0 / (4 * Real.pi)) / (κ - ν))]
  obtain ⟨s₁, p₁, q₁⟩ := exists_small (C := 2 * M + B + B' + 2 * X) (e := ε * (κ - ν) / 2) (by positivity) (by positivity)
  obtain ⟨η₁, p₂, q₂⟩ := exists_small (C := 1 + X) (e := ε * (κ - ν) / 2) (by positivity) (by positivity)
  set s := min s₁ (min 1 ((κ - ν) / 8)) with hs
  set η := min η₁ ((κ - ν) / 4) with hη
  have s0 : 0 < s := by simp only [hs, lt_min_iff]; exact ⟨p₁, one_pos, by positivity⟩
  have η0 : 0 < η := by simp only [hη, lt_min_iff]; exact ⟨p₂, by positivity⟩
  have r₁ : s ≤ s₁ := min_le_left _ _
  have r₂ : s ≤ 1 := (min_le_right _ _).trans (min_le_left _ _)
  have r₃ : s ≤ (κ - ν) / 8 := (min_le_right _ _).trans (min_le_right _ _)
  have r₄ : η ≤ η₁ := min_le_left _ _
  have r₅ : η ≤ (κ - ν) / 4 := min_le_right _ _
  clear_value s η X
  obtain ⟨d, hquad⟩ := whole_quad hacc hgs hpos hr hw hκ η0
  have htail : ∀ l, ∃ n : ℕ, ∀ L, n ≤ L → tailSum (g l) L ≤ s / 4 := fun l => by
    have := (tailSum_tendsto (g l)).eventually (Iio_mem_nhds (show (0 : ℝ) < s / 4 by positivity))
    obtain ⟨n, hn⟩ := Filter.eventually_atTop.1 this
    exact ⟨n, fun L hL => (hn L hL).le⟩
  choose n₁ hn₁ using htail
  refine ⟨max (max ((range a.tauArr.n).sup n₁) a.bdrf.length) (2 * (d + 1)), s / 4, by positivity, fun E b J R F hb hN hpk h hF => ?_⟩
  have haccb := (pydisort_ok h).1
  have hg := hb.sound.gauss
  have hT := hb.truncates
  have hbb : bottom b = bottom a := by unfold bottom; rw [hT.tau]
  have hFL := nFourier_le_nLeg haccb
  have hLH : nLeg b ≤ 2 * nHalf b := by
    have k1 := haccb.nLeg.2
    have k2 := haccb.streams.1
    obtain ⟨k, k3⟩ := haccb.streams.2
    unfold nLeg nHalf
    omega
  have hL1 : 1 ≤ nLeg b := by
    have := haccb.nLeg.1
    unfold nLeg; omega
  have hL1' : (1 : ℝ) ≤ (nLeg b : ℝ) := by exact_mod_cast hL1
  have hL2 : (1 : ℝ) ≤ (nLeg b : ℝ) ^ 2 := one_le_pow₀ hL1'
  have hpeak : ∀ l < a.tauArr.n, 0 ≤ peak b l ∧ peak b l < 1 := fun l hl => ⟨by
    unfold peak
    split_ifs with hlf
    · exact (haccb.peak l hlf).1
    · exact le_rfl, hb.sound.peak l (by rwa [hT.tau])⟩
  have hpL : ∀ l < a.tauArr.n, peak b l * (nLeg b : ℝ) ^ 2 ≤ s / 4 := fun l hl => by
    have := hpk l hl
    rwa [le_div_iff₀ (by positivity)] at this
  have hps : ∀ l < a.tauArr.n, 0 ≤ peak b l ∧ peak b l ≤ s := fun l hl => by
    have k1 := hpL l hl
    have k2 := (hpeak l hl).1
    exact ⟨k2, by nlinarith⟩
  have hσ : ∀ l < a.tauArr.n, ∀ x ∈ Set.Icc (-1 : ℝ) 1, ∀ y ∈ Set.Icc (-1 : ℝ) 1, ∀ ph ph',
      |scale b l * omegaStar b l * keptPhase b l x ph y ph' - a.omega.get l * wholePhase (g l) (cosAngle x ph y ph')| ≤ ν + s := fun l hl x hx y hy ph ph' => by
    obtain ⟨K, hK⟩ := hν l hl
    have m0 := le_sup (f := n₁) (mem_range.2 hl)
    have m1 := hn₁ l (nFourier b) (by omega)
    have m2 := hn₁ l (nLeg b) (by omega)
    exact kept_near_whole hT haccb hl (hgs l hl) (hpeak l hl).1 (hpeak l hl).2 hK (by linarith [hpL l hl]) hx hy ph ph'
  obtain ⟨c1, c2, c3, c4⟩ := hquad _ _ _ (rule_of_gauss hg (d := d) (by omega))
  obtain ⟨t1, t2, k, t3⟩ := asked_tame hb h hF
  rw [hbb] at t1 t2 t3
  set q := 1 - κ + ν + 2 * s + η with hq
  set δ := M * (ν + 2 * s) + η + a.I0 / (4 * Real.pi) * ν + s * (B + B') with hδ
  have hq0 : 0 ≤ q := by positivity
  have hq1 : q < 1 := by rw [hq]; linarith
  have hδ0 : 0 ≤ δ := by positivity
  have hfix : q * X + δ ≤ X := by
    have z1 := mul_le_mul_of_nonneg_right r₁ (by positivity : 0 ≤ 2 * M + B + B' + 2 * X)
    have z2 := mul_le_mul_of_nonneg_right r₄ (by positivity : 0 ≤ 1 + X)
    have z3 : q * X + δ = X - (κ - ν) * X + ν * (M + a.I0 / (4 * Real.pi)) + s * (2 * M + B + B' + 2 * X) + η * (1 + X) := by rw [hq, hδ]; ring
    rw [z3, hXe]
    linarith
  have hδ1 : M * (ν + 2 * s) + η + (a.I0 / (4 * Real.pi) * ν + s * B) ≤ δ := by
    have := mul_nonneg s0.le hB0'
    rw [hδ]; linarith
  have hδ2 : η + s * B' ≤ δ := by
    have z1 := mul_nonneg s0.le hB0
    have z2 : 0 ≤ M * (ν + 2 * s) + a.I0 / (4 * Real.pi) * ν := by positivity
    rw [hδ]; linarith
  intro t ht0 ht1 ph i hi
  refine shrinks (e := fun (p : ℝ × ℝ × ℕ) => F.u p.1 p.2.1 p.2.2 - w p.1 (stream (nHalf b) (node E b) p.2.2) p.2.1)
    (S := {p | p.1 ∈ Set.Icc 0 (bottom a) ∧ p.2.2 < 2 * nHalf b}) hX0 (k₀ := |k| + M) (by positivity) hq0 hq1 hfix ?_ ?_ (t, ph, i) ⟨⟨ht0, ht1⟩, hi⟩
  · rintro ⟨t, ph, i⟩ ⟨ht, hi⟩
    obtain ⟨hy, hy0⟩ := stream_mem (a := b) hg hi
    refine (abs_sub _ _).trans (add_le_add ((t3 t ht ph i hi).trans (le_abs_self k)) (hM t ht _ hy hy0 ph))
  · intro k' hk' hle
    have hst := whole_step hacc haccb hg hT hgs hpos hr hb.modes hb.sun hw hb.sampled hM hκ.layers s0.le η0.le hps hσ c1 c2 c3 c4
      (fun l hl t ht y hy ph => beam_near hacc haccb hT hgs r₂ hps hGl hσ (le_max_left _ _) hl ht hy ph)
      (fun y hy ph => mirror_near hacc haccb hT r₂ s0.le hps hKabs (le_max_left _ _) hB0' hy ph) hδ1 hδ2
      t1 t2 (C118_kept_transfer_equation h hb.sound hb.rescalable hb.intensities hb.uncorrected hF)
      (C75_full_boundary_conditions h hb.sound hb.rescalable hb.intensities hb.uncorrected hb.bpos hb.bneg (by rw [hb.modes]; omega) hb.surface hF)
      hk' (add_nonneg (mul_nonneg hq0 hk') hδ0) fun t ht ph i hi => hle (t, ph, i) ⟨ht, hi⟩
    rintro ⟨t, ph, i⟩ ⟨ht, hi⟩
    exact hst t ht ph i hi

/-- **C119, with the usual peak.** If the Legendre coefficients decay faster than `k⁻²` then the forward peak may be `f = g_{NLeg}`, or be left out, and the number of Fourier modes is the only
thing that has to be large. -/
theorem C119_usual_peak (hacc : Accepted a) (hgs : ∀ l < a.tauArr.n, PhaseSeries (g l)) (hpos : NonnegWhole a g) (hr : AbsorbingBDRF a rho)
    (hdec : ∀ l < a.tauArr.n, Filter.Tendsto (fun k : ℕ => (k : ℝ) ^ 2 * g l k) Filter.atTop (nhds 0))
    {κ ν : ℝ} (hκ : AbsorbsAtLeast a rho κ) (hν : NeglectsAtMost a g ν) (hνκ : ν < κ) (hw : WholeSolution a g rho up down w)
    {M : ℝ} (hM : ∀ t ∈ Set.Icc 0 (bottom a), ∀ y ∈ Set.Icc (-1 : ℝ) 1, y ≠ 0 → ∀ ph, |w t y ph| ≤ M) {ε : ℝ} (hε : 0 < ε) :
    ∃ N₀ : ℕ, ∀ (E : Ext) (b : Args) (J : Junk) (R : Solved) (F : Fields), AsksForWhole E a g rho up down b → N₀ ≤ nFourier b →
      (∀ l < a.tauArr.n, peak b l = 0 ∨ peak b l = g l (nLeg b)) → pydisort E J b = .ok R → Evaluates b R F →
      ∀ t, 0 ≤ t → t ≤ bottom a → ∀ ph, ∀ i < 2 * nHalf b,
        |F.u t ph i - w t (stream (nHalf b) (node E b) i) ph| ≤ ε + ν * (M + a.I0 / (4 * Real.pi)) / (κ - ν) := by
  obtain ⟨N₀, η, hη, key⟩ := C119_whole_phase_function hacc hgs hpos hr hκ hν hνκ hw hM hε
  have hev : ∀ l, ∃ n : ℕ, l < a.tauArr.n → ∀ k, n ≤ k → (k : ℝ) ^ 2 * g l k ≤ η := fun l => by
    by_cases hl : l < a.tauArr.n
    · obtain ⟨n, hn⟩ := Filter.eventually_atTop.1 ((hdec l hl).eventually (Iio_mem_nhds hη))
      exact ⟨n, fun _ k hk => (hn k hk).le⟩
    · exact ⟨0, fun h => absurd h hl⟩
  choose n hn using hev
  refine ⟨max (max N₀ 1) ((range a.tauArr.n).sup n), fun E b J R F hb hN hpk h hF => key E b J R F hb (by omega) (fun l hl => ?_) h hF⟩
  have hFL := nFourier_le_nLeg (pydisort_ok h).1
  have h1 : (0 : ℝ) < (nLeg b : ℝ) ^ 2 := by
    have : 0 < nLeg b := by omega
    positivity
  rcases hpk l hl with h | h
  · rw [h]; positivity
  · rw [h, le_div_iff₀ h1, mul_comm]
    have := le_sup (f := n) (mem_range.2 hl)
    exact hn l hl _ (by omega)

end

/-! ### The hypotheses are met -/

theorem hg_tail (K : ℕ) : ∑' k : ℕ, (2 * ((k + K : ℕ) : ℝ) + 1) * |hg (k + K)| = (1 / 5) ^ K * (15 / 8 + 5 / 2 * K) := by
  have h2 := hasSum_geometric_of_norm_lt_one (ξ := (1 / 5 : ℝ)) (by norm_num)
  have h3 : HasSum (fun k : ℕ => (1 / 5 : ℝ) ^ K * ((2 * (k : ℝ) + 1) * |hg k| + 2 * K * (1 / 5) ^ k)) ((1 / 5) ^ K * (15 / 8 + 2 * K * (1 - 1 / 5)⁻¹)) :=
    (hg_hasSum.add (h2.mul_left _)).mul_left _
  have e : (fun k : ℕ => (2 * ((k + K : ℕ) : ℝ) + 1) * |hg (k + K)|) = fun k : ℕ => (1 / 5 : ℝ) ^ K * ((2 * (k : ℝ) + 1) * |hg k| + 2 * K * (1 / 5) ^ k) := by
    funext k
    unfold hg
    rw [abs_of_pos (by positivity), abs_of_pos (by positivity), pow_add]
    push_cast
    ring
  rw [e, h3.tsum_eq]
  norm_num
  ring

section
variable {n : ℕ}

theorem demoGlow_rho (x : ℝ) : SurfaceIs (demoGlow n x) fullRho := by
  intro m _ M hM
  rcases m with _ | _ | m
  · simp only [demoGlow, List.getElem?_cons_zero, Option.some.injEq] at hM
    subst hM
    intro _ _; simp [fullRho]
  · simp only [demoGlow, zero_add, List.getElem?_cons_succ, List.getElem?_cons_zero, Option.some.injEq] at hM
    subst hM
    intro _ _; simp [fullRho]
  · simp [demoGlow] at hM

theorem demoGlow_fair (hn : 0 < n) (x : ℝ) : FairBDRF (demoGlow n x) (node refExt (demoGlow n x)) (weight refExt (demoGlow n x)) fullRho := by
  have hg : GaussContract refExt (nHalf (demoGlow n x)) := by rw [demoGlow_nHalf]; exact refExt_gauss hn
  refine ⟨fun _ _ _ _ _ => demoDome_bdrf (n := n) x _ _ _, fun _ _ _ => demoDome_bdrf (n := n) x _ _ _, fun i hi => ?_⟩
  unfold reflectance
  rw [if_pos (by simp [demoGlow])]
  simp only [fullRho, if_true]
  rw [← sum_mul, sum_weight_node hg (by rw [demoGlow_nHalf]; exact hn)]
  norm_num

theorem demoGlow_wellPosed (hn : 0 < n) {x : ℝ} (h0 : 0 < x) (h1 : x ≤ 1) (hb : BeamRegular (demoHG n x) (node refExt (demoHG n x)) (weight refExt (demoHG n x))) :
    WellPosed refExt (demoGlow n x) := by
  have h := demoHG_wellPosed hn h0 h1 hb
  exact ⟨demoGlow_accepted hn h0 h1, h.gauss, h.eig, h.peak, h.dissipates, h.beam, C65_fair_surface_is_passive h.gauss (demoGlow_rho x) (demoGlow_fair hn x) fun _ _ _ _ => rfl,
    h.bottomBC, h.topBC, h.sourceShape, h.degree, h.angles⟩

theorem demoGlow_absorbsAtLeast (x : ℝ) : AbsorbsAtLeast (demoGlow n x) fullRho (1 / 4) where
  layers := fun l _ => by
    simp only [demoGlow, demoHG, demo]
    split_ifs <;> norm_num
  surface := fun y _ => by
    have hpi := Real.pi_ne_zero
    simp only [bdrfOf_integral, if_pos (show 0 < (demoGlow n x).bdrf.length from Nat.succ_pos _), fullRho, if_true]
    rw [intervalIntegral.integral_mul_const, integral_id]
    field_simp
    norm_num

/-- Less than one millionth is ignored. -/
theorem demoGlow_neglects (x : ℝ) : NeglectsAtMost (demoGlow n x) (fun _ => hg) (1 / 10 ^ 6) := fun l _ => by
  refine ⟨12, ?_⟩
  have ho : (demoGlow n x).omega.get l ≤ 1 := by
    simp only [demoGlow, demoHG, demo]
    split_ifs <;> norm_num
  rw [hg_tail]
  have h1 : (demoGlow n x).omega.get l * ((1 / 5) ^ 12 * (15 / 8 + 5 / 2 * ((12 : ℕ) : ℝ))) ≤ 1 * ((1 / 5) ^ 12 * (15 / 8 + 5 / 2 * ((12 : ℕ) : ℝ))) :=
    mul_le_mul_of_nonneg_right ho (by positivity)
  refine (add_le_add le_rfl h1).trans ?_
  norm_num

/-- The hypotheses of C119 are met by calls with every number of coefficients, modes and streams that describe one atmosphere, whose phase functions have infinitely many coefficients and
whose surface has a BDRF that depends on the azimuth. The peaks are the usual ones. -/
example : ∃ (a : Args) (g : ℕ → ℕ → ℝ) (rho : ℕ → ℝ → ℝ → ℝ) (up down : ℝ → ℝ) (w : ℝ → ℝ → ℝ → ℝ), Accepted a ∧ (∀ l < a.tauArr.n, PhaseSeries (g l)) ∧ NonnegWhole a g
    ∧ AbsorbingBDRF a rho ∧ (∀ l < a.tauArr.n, Filter.Tendsto (fun k : ℕ => (k : ℝ) ^ 2 * g l k) Filter.atTop (nhds 0)) ∧ AbsorbsAtLeast a rho (1 / 4)
    ∧ NeglectsAtMost a g (1 / 10 ^ 6) ∧ WholeSolution a g rho up down w ∧ (∃ M, ∀ t ∈ Set.Icc 0 (bottom a), ∀ y ∈ Set.Icc (-1 : ℝ) 1, y ≠ 0 → ∀ ph, |w t y ph| ≤ M)
    ∧ 0 < a.I0 ∧ rho 1 1 1 ≠ 0
    ∧ ∀ m, 0 < m → ∀ J, ∃ b R F, AsksForWhole refExt a g rho up down b ∧ nFourier b = m ∧ nLeg b = m ∧ (∀ l < a.tauArr.n, 0 < peak b l ∧ peak b l = g l (nLeg b))
      ∧ pydisort refExt J b = .ok R ∧ Evaluates b R F := by
  obtain ⟨x, h0, h1, hb⟩ := demoHG_beam
  obtain ⟨w, hw⟩ := (C117_whole_solution_exists (demoGlow_accepted one_pos h0 h1) (fun _ _ => hg_phase) (demoGlow_nonneg x) (demoGlow_absorbs x) tame_one tame_one).1
  refine ⟨demoGlow 1 x, fun _ => hg, fullRho, fun _ => 1, fun _ => 1, w, demoGlow_accepted one_pos h0 h1, fun _ _ => hg_phase, demoGlow_nonneg x, demoGlow_absorbs x,
    fun _ _ => hg_decay, demoGlow_absorbsAtLeast x, demoGlow_neglects x, hw, hw.bounded, one_pos, by simp [fullRho], fun m hm J => ?_⟩
  have hW := demoGlow_wellPosed hm h0 h1 (hb m)
  have hr : Rescalable (demoGlow m x) := demo_rescalable x
  obtain ⟨R, e⟩ := pydisort_isOk hW J
  obtain ⟨F, f⟩ := evaluates_exists e hW.sound hr
  refine ⟨demoGlow m x, R, F, ⟨⟨rfl, rfl, rfl, rfl, rfl, Iff.rfl, fun _ _ _ _ _ => rfl⟩, rfl, rfl, rfl, rfl, demoGlow_rho x, ⟨(demoHG_sampled x).1, (demoHG_sampled x).2⟩, trivial, trivial,
    hr, hW.sound⟩, by simp [nFourier, demoGlow, demoHG, demo], demoGlow_nLeg x, fun l hl => ?_, e, f⟩
  rw [demoGlow_peak (n := m) x hl, demoGlow_nLeg]
  exact ⟨by unfold hg; positivity, rfl⟩

end

end Pydisort

import Verif.Spec.Azimuth
import Verif.Addition
import Verif.CosLemmas
import Verif.Dissipation

/-! Expansion of the transfer equation into Fourier modes. -/

namespace Pydisort
open Finset Spec

theorem integral_cos_int (k : ℤ) (A : ℝ) :
    ∫ x in (0 : ℝ)..(2 * Real.pi), Real.cos (A - k * x) = if k = 0 then 2 * Real.pi * Real.cos A else 0 := by
  by_cases hk : k = 0
  · subst hk; simp
  · rw [if_neg hk]
    have hk' : (k : ℝ) ≠ 0 := Int.cast_ne_zero.mpr hk
    have hd : ∀ x ∈ Set.uIcc (0 : ℝ) (2 * Real.pi),
        HasDerivAt (fun x => -Real.sin (A - k * x) / k) (Real.cos (A - k * x)) x := by
      intro x _
      have h1 : HasDerivAt (fun x : ℝ => A - (k : ℝ) * x) (-(k : ℝ)) x := by
        have := ((hasDerivAt_id x).const_mul (k : ℝ)).const_sub A
        simpa using this
      refine ((h1.sin.neg).div_const (k : ℝ)).congr_deriv ?_
      field_simp
    rw [intervalIntegral.integral_eq_sub_of_hasDerivAt hd ((by fun_prop : Continuous fun x : ℝ =>
      Real.cos (A - k * x)).intervalIntegrable _ _)]
    have : Real.sin (A - k * (2 * Real.pi)) = Real.sin (A - k * 0) := by
      rw [mul_zero, sub_zero]
      exact Real.sin_sub_int_mul_two_pi _ _
    rw [this]; ring

/-- Orthogonality of the Fourier modes. -/
theorem integral_cos_cos (m n : ℕ) (ph p0 : ℝ) :
    ∫ x in (0 : ℝ)..(2 * Real.pi), Real.cos (m * (ph - x)) * Real.cos (n * (p0 - x))
      = if m = n then (1 + if m = 0 then 1 else 0) * Real.pi * Real.cos (m * (p0 - ph)) else 0 := by
  have h1 : ∀ x : ℝ, Real.cos (m * (ph - x)) * Real.cos (n * (p0 - x))
      = 1 / 2 * Real.cos ((m * ph + n * p0) - ((m + n : ℤ) : ℝ) * x) + 1 / 2 * Real.cos ((m * ph - n * p0) - ((m - n : ℤ) : ℝ) * x) := by
    intro x
    have e1 : (m * ph + n * p0) - ((m + n : ℤ) : ℝ) * x = m * (ph - x) + n * (p0 - x) := by push_cast; ring
    have e2 : (m * ph - n * p0) - ((m - n : ℤ) : ℝ) * x = m * (ph - x) - n * (p0 - x) := by push_cast; ring
    rw [e1, e2, Real.cos_add, Real.cos_sub]; ring
  simp only [h1]
  rw [intervalIntegral.integral_add ((by fun_prop : Continuous fun x : ℝ => 1 / 2 * Real.cos ((m * ph + n * p0) - ((m + n : ℤ) : ℝ) * x)).intervalIntegrable _ _)
    ((by fun_prop : Continuous fun x : ℝ => 1 / 2 * Real.cos ((m * ph - n * p0) - ((m - n : ℤ) : ℝ) * x)).intervalIntegrable _ _),
    intervalIntegral.integral_const_mul, intervalIntegral.integral_const_mul, integral_cos_int, integral_cos_int]
  by_cases hmn : m = n
  · subst hmn
    rw [if_pos rfl, if_pos (sub_self _)]
    have e3 : Real.cos (m * ph - m * p0) = Real.cos (m * (p0 - ph)) := by
      rw [← Real.cos_neg]; congr 1; ring
    by_cases hm : m = 0
    · subst hm; simp; ring
    · rw [if_neg (by omega), if_neg hm, e3]; ring
  · rw [if_neg hmn, if_neg (by omega), if_neg (by omega)]; ring

/-- The addition theorem turns the phase function into a cosine series. -/
theorem phase_series {NLeg : ℕ} (g : ℕ → ℝ) {x y : ℝ} (hx : x ^ 2 ≤ 1) (hy : y ^ 2 ≤ 1) (ph ph' : ℝ) :
    ∑ k ∈ range NLeg, (2 * (k : ℝ) + 1) * g k * (legendreP k).eval (cosAngle x ph y ph')
      = ∑ m ∈ range NLeg, (2 - if m = 0 then 1 else 0) * phaseMoment NLeg g m x y * Real.cos (m * (ph - ph')) := by
  unfold phaseMoment cosAngle
  simp only [addition_theorem _ hx hy, mul_sum, sum_mul]
  rw [range_eq_Ico]
  have h := sum_Ico_Ico_comm 0 NLeg (fun m k => (2 * (k : ℝ) + 1) * g k * ((2 - if m = 0 then 1 else 0)
    * (((k - m).factorial : ℝ) / ((k + m).factorial : ℝ)) * assocLegendre m k x * assocLegendre m k y * Real.cos (m * (ph - ph'))))
  simp only [range_eq_Ico]
  rw [← h]
  exact sum_congr rfl fun m _ => sum_congr rfl fun k _ => by ring

/-- Scattering of a cosine series. -/
theorem scatter_series {NLeg F : ℕ} (hF : F = NLeg) (g : ℕ → ℝ) {x y : ℝ} (hx : x ^ 2 ≤ 1) (hy : y ^ 2 ≤ 1) (ph p0 : ℝ) (U : ℕ → ℝ) :
    ∫ ph' in (0 : ℝ)..(2 * Real.pi), (∑ k ∈ range NLeg, (2 * (k : ℝ) + 1) * g k * (legendreP k).eval (cosAngle x ph y ph'))
        * ∑ m ∈ range F, U m * Real.cos (m * (p0 - ph'))
      = 2 * Real.pi * ∑ m ∈ range F, phaseMoment NLeg g m x y * U m * Real.cos (m * (p0 - ph)) := by
  subst hF
  simp only [phase_series g hx hy, sum_mul_sum]
  rw [intervalIntegral.integral_finsetSum fun m _ => (Continuous.intervalIntegrable (by fun_prop) _ _)]
  rw [mul_sum]
  refine sum_congr rfl fun m hm => ?_
  rw [intervalIntegral.integral_finsetSum fun n _ => (Continuous.intervalIntegrable (by fun_prop) _ _)]
  rw [sum_eq_single m]
  · have : ∀ x' : ℝ, (2 - if m = 0 then (1 : ℝ) else 0) * phaseMoment F g m x y * Real.cos (m * (ph - x')) * (U m * Real.cos (m * (p0 - x')))
        = (2 - if m = 0 then (1 : ℝ) else 0) * phaseMoment F g m x y * U m * (Real.cos (m * (ph - x')) * Real.cos (m * (p0 - x'))) := fun _ => by ring
    simp only [this]
    rw [intervalIntegral.integral_const_mul, integral_cos_cos, if_pos rfl]
    split_ifs <;> ring
  · intro n _ hn
    have : ∀ x' : ℝ, (2 - if m = 0 then (1 : ℝ) else 0) * phaseMoment F g m x y * Real.cos (m * (ph - x')) * (U n * Real.cos (n * (p0 - x')))
        = (2 - if m = 0 then (1 : ℝ) else 0) * phaseMoment F g m x y * U n * (Real.cos (m * (ph - x')) * Real.cos (n * (p0 - x'))) := fun _ => by ring
    simp only [this]
    rw [intervalIntegral.integral_const_mul, integral_cos_cos, if_neg (Ne.symm hn), mul_zero]
  · intro h; exact absurd hm h


variable {E : Ext} {a : Args}

theorem weak_zero (hn : NothingNeglected a) {l : ℕ} (hl : l < a.tauArr.n) {m : ℕ}
    (hs : ¬ Significant (omegaStar a l) (nLeg a) (legStar a l) m) : ∀ k ∈ Ico m (nLeg a), omegaStar a l * legStar a l k = 0 := by
  intro k hk
  rw [mem_Ico] at hk
  refine hn l hl k hk.2 fun k' h1 h2 => ?_
  by_contra h
  exact hs ⟨k', by omega, h2, not_le.1 h⟩

theorem kernel_eq_scatD (hn : NothingNeglected a) {l : ℕ} (hl : l < a.tauArr.n) (m : ℕ) (x y : ℝ) :
    kernel a m l x y = scatD (omegaStar a l) (nLeg a) (legStar a l) m x y := by
  unfold kernel
  split_ifs with hs
  · rfl
  · unfold scatD phaseMoment
    rw [mul_sum]
    refine (sum_eq_zero fun k hk => ?_).symm
    have := weak_zero hn hl hs k hk
    linear_combination (1 / 2 * (2 * (k : ℝ) + 1) * (((k - m).factorial : ℝ) / ((k + m).factorial : ℝ)) * assocLegendre m k x
      * assocLegendre m k y) * this

theorem beamSource_eq_beamX (hn : NothingNeglected a) {l : ℕ} (hl : l < a.tauArr.n) (m : ℕ) (x : ℝ) :
    beamSource a m l x = beamX (omegaStar a l) (nLeg a) (legStar a l) a.I0 a.mu0 m x := by
  unfold beamSource
  split_ifs with hs
  · rfl
  · have : omegaStar a l * phaseMoment (nLeg a) (legStar a l) m x (-a.mu0) = 0 := by
      unfold phaseMoment
      rw [mul_sum]
      refine sum_eq_zero fun k hk => ?_
      have := weak_zero hn hl hs k hk
      linear_combination ((2 * (k : ℝ) + 1) * (((k - m).factorial : ℝ) / ((k + m).factorial : ℝ)) * assocLegendre m k x
        * assocLegendre m k (-a.mu0)) * this
    unfold beamX
    linear_combination (-(a.I0 * (2 - if m = 0 then 1 else 0) / (4 * Real.pi))) * this

theorem stream_sq_le (hg : GaussContract E (nHalf a)) {i : ℕ} (hi : i < 2 * nHalf a) :
    stream (nHalf a) (node E a) i ^ 2 ≤ 1 := by
  have := stream_range hg hi
  nlinarith [this.1, this.2]

/-- The light scattered out of a cosine series. -/
theorem scattered_series (hg : GaussContract E (nHalf a)) (hF : nFourier a = nLeg a) (hn : NothingNeglected a)
    {l : ℕ} (hl : l < a.tauArr.n) (U : ℕ → ℕ → ℝ) {i : ℕ} (hi : i < 2 * nHalf a) (ph : ℝ) :
    omegaStar a l / (4 * Real.pi) * ∑ j ∈ range (2 * nHalf a), streamW (nHalf a) (weight E a) j *
        ∫ ph' in (0 : ℝ)..(2 * Real.pi), phase a l (cosAngle (stream (nHalf a) (node E a) i) ph (stream (nHalf a) (node E a) j) ph')
          * ∑ m ∈ range (nFourier a), U m j * Real.cos (m * (a.phi0 - ph'))
      = ∑ m ∈ range (nFourier a), (∑ j ∈ range (2 * nHalf a), streamW (nHalf a) (weight E a) j
          * kernel a m l (stream (nHalf a) (node E a) i) (stream (nHalf a) (node E a) j) * U m j) * Real.cos (m * (a.phi0 - ph)) := by
  simp only [sum_mul]
  rw [sum_comm, mul_sum]
  refine sum_congr rfl fun j hj => ?_
  unfold phase
  rw [scatter_series hF _ (stream_sq_le hg hi) (stream_sq_le hg (mem_range.1 hj)), mul_sum, mul_sum, mul_sum]
  refine sum_congr rfl fun m _ => ?_
  rw [kernel_eq_scatD hn hl]
  unfold scatD
  have := Real.pi_ne_zero
  field_simp
  ring

/-- The right-hand side of the full equation for a cosine series. -/
theorem fullRHS_series (hacc : Accepted a) (hg : GaussContract E (nHalf a)) (hF : nFourier a = nLeg a) (hn : NothingNeglected a)
    {l : ℕ} (hl : l < a.tauArr.n) (t : ℝ) (U : ℕ → ℕ → ℝ) {i : ℕ} (hi : i < 2 * nHalf a) (ph : ℝ) :
    fullRHS a (node E a) (weight E a) l t (fun j φ => ∑ m ∈ range (nFourier a), U m j * Real.cos (m * (a.phi0 - φ))) i ph
      = ∑ m ∈ range (nFourier a), rteUser a (node E a) (weight E a) m l t (U m) i * Real.cos (m * (a.phi0 - ph)) := by
  have hpos : 0 < nFourier a := by
    rw [hF]; have := hacc.nLeg.1; unfold nLeg; omega
  have hx := stream_sq_le hg hi
  have h1 := scattered_series (a := a) hg hF hn hl U hi ph
  -- the beam
  have h2 : omegaStar a l * a.I0 / (4 * Real.pi) * phase a l (cosAngle (stream (nHalf a) (node E a) i) ph (-a.mu0) a.phi0)
      = ∑ m ∈ range (nFourier a), beamSource a m l (stream (nHalf a) (node E a) i) * Real.cos (m * (a.phi0 - ph)) := by
    rcases hacc.beam.lt_or_eq with hI | hI
    · have hm := (hacc.beamDir hI).1
      unfold phase
      rw [phase_series _ hx (by rw [neg_sq]; nlinarith [hm.1, hm.2]), mul_sum, hF]
      refine sum_congr rfl fun m _ => ?_
      rw [beamSource_eq_beamX hn hl, show (m : ℝ) * (a.phi0 - ph) = -(m * (ph - a.phi0)) by ring, Real.cos_neg]
      unfold beamX
      ring
    · rw [← hI, mul_zero, zero_div, zero_mul]
      refine (sum_eq_zero fun m _ => ?_).symm
      rw [beamSource_eq_beamX hn hl]
      unfold beamX
      rw [← hI]; ring
  -- the source
  have h3 : (1 - a.omega.get l) * source a l t = ∑ m ∈ range (nFourier a), (if m = 0 then (1 - a.omega.get l) * source a l t else 0)
      * Real.cos (m * (a.phi0 - ph)) := by
    rw [sum_eq_single_of_mem 0 (mem_range.2 hpos) (fun m _ hm => by rw [if_neg hm, zero_mul])]
    simp
  unfold fullRHS rteUser rteRHS
  beta_reduce
  rw [h1, h2]
  conv_lhs => rw [h3]
  rw [sum_mul, ← sum_sub_distrib, ← sum_sub_distrib, mul_sum, ← sum_sub_distrib]
  exact sum_congr rfl fun m _ => by ring

/-- What the surface reflects of a cosine series. -/
theorem fullReflected_series (hB : a.bdrf.length ≤ nFourier a) (mu w : Vec) (rho : ℕ → ℝ → ℝ → ℝ) (x ph : ℝ) (U : ℕ → ℕ → ℝ) :
    fullReflected a mu w rho x ph (fun j φ => ∑ m ∈ range (nFourier a), U m j * Real.cos (m * (a.phi0 - φ)))
      = ∑ m ∈ range (nFourier a), (if m < a.bdrf.length then reflected a mu w (rho m) m x (U m) else 0) * Real.cos (m * (a.phi0 - ph)) := by
  have hsplit : ∀ f : ℕ → ℝ, ∑ m ∈ range (nFourier a), (if m < a.bdrf.length then f m else 0) * Real.cos (m * (a.phi0 - ph))
      = ∑ m ∈ range a.bdrf.length, f m * Real.cos (m * (a.phi0 - ph)) := by
    intro f
    rw [← sum_subset (range_subset_range.2 hB) (fun m _ hm => by rw [if_neg (by simpa using hm), zero_mul])]
    exact sum_congr rfl fun m hm => by rw [if_pos (mem_range.1 hm)]
  rw [hsplit]
  have hint : ∀ y : ℝ, ∀ j, ∫ ph' in (0 : ℝ)..(2 * Real.pi), bdrfOf a rho x y (ph - ph')
        * ∑ m ∈ range (nFourier a), U m j * Real.cos (m * (a.phi0 - ph'))
      = ∑ m ∈ range a.bdrf.length, (1 + if m = 0 then 1 else 0) * Real.pi * rho m x y * U m j * Real.cos (m * (a.phi0 - ph)) := by
    intro y j
    unfold bdrfOf
    simp only [sum_mul_sum]
    rw [intervalIntegral.integral_finsetSum fun m _ => (Continuous.intervalIntegrable (by fun_prop) _ _)]
    refine sum_congr rfl fun m hm => ?_
    have hm' : m ∈ range (nFourier a) := range_subset_range.2 hB hm
    rw [intervalIntegral.integral_finsetSum fun n _ => (Continuous.intervalIntegrable (by fun_prop) _ _)]
    rw [sum_eq_single_of_mem m hm']
    · have : ∀ x' : ℝ, rho m x y * Real.cos (m * (ph - x')) * (U m j * Real.cos (m * (a.phi0 - x')))
          = rho m x y * U m j * (Real.cos (m * (ph - x')) * Real.cos (m * (a.phi0 - x'))) := fun _ => by ring
      simp only [this]
      rw [intervalIntegral.integral_const_mul, integral_cos_cos, if_pos rfl]
      ring
    · intro n _ hn
      have : ∀ x' : ℝ, rho m x y * Real.cos (m * (ph - x')) * (U n j * Real.cos (n * (a.phi0 - x')))
          = rho m x y * U n j * (Real.cos (m * (ph - x')) * Real.cos (n * (a.phi0 - x'))) := fun _ => by ring
      simp only [this]
      rw [intervalIntegral.integral_const_mul, integral_cos_cos, if_neg (Ne.symm hn), mul_zero]
  unfold fullReflected
  simp only [hint]
  unfold reflected bdrfOf
  refine (congrArg₂ (· + ·) ?_ ?_).trans (sum_add_distrib.symm.trans (sum_congr rfl fun m _ => (add_mul _ _ _).symm))
  · simp only [mul_sum, sum_mul]
    rw [sum_comm]
    refine sum_congr rfl fun m _ => ?_
    refine sum_congr rfl fun j _ => ?_
    have := Real.pi_ne_zero
    field_simp
  · rw [mul_sum, sum_mul]
    refine sum_congr rfl fun m _ => ?_
    rw [show (m : ℝ) * (a.phi0 - ph) = -(m * (ph - a.phi0)) by ring, Real.cos_neg]
    ring

theorem cosAngle_range {x y : ℝ} (hx : x ^ 2 ≤ 1) (hy : y ^ 2 ≤ 1) (ph ph' : ℝ) : -1 ≤ cosAngle x ph y ph' ∧ cosAngle x ph y ph' ≤ 1 := by
  unfold cosAngle
  set s := Real.sqrt (1 - x ^ 2) * Real.sqrt (1 - y ^ 2) with hs
  have h0 : 0 ≤ s := mul_nonneg (Real.sqrt_nonneg _) (Real.sqrt_nonneg _)
  have h1 : s ^ 2 = (1 - x ^ 2) * (1 - y ^ 2) := by
    rw [hs, mul_pow, Real.sq_sqrt (by linarith), Real.sq_sqrt (by linarith)]
  have hc := Real.cos_le_one (ph - ph')
  have hc' := Real.neg_one_le_cos (ph - ph')
  have e1 : s ≤ 1 - x * y := abs_le_of_sq_le_sq' (by nlinarith [sq_nonneg (x - y)]) (by nlinarith [sq_nonneg (x - y), sq_nonneg (x + y)]) |>.2
  have e2 : s ≤ 1 + x * y := abs_le_of_sq_le_sq' (by nlinarith [sq_nonneg (x + y)]) (by nlinarith [sq_nonneg (x - y), sq_nonneg (x + y)]) |>.2
  constructor <;> nlinarith

theorem phase_continuous (a : Args) (l : ℕ) : Continuous (phase a l) := by
  unfold phase; fun_prop

theorem cosAngle_continuous (x ph y : ℝ) : Continuous (cosAngle x ph y) := by
  unfold cosAngle; fun_prop

/-- The azimuthal moments as integrals. -/
theorem phaseMoment_integral {l : ℕ} {x y : ℝ} (hx : x ^ 2 ≤ 1) (hy : y ^ 2 ≤ 1) {m : ℕ} (hm : m < nLeg a) (ph p0 : ℝ) :
    ∫ ph' in (0 : ℝ)..(2 * Real.pi), phase a l (cosAngle x ph y ph') * Real.cos (m * (p0 - ph'))
      = 2 * Real.pi * (phaseMoment (nLeg a) (legStar a l) m x y * Real.cos (m * (p0 - ph))) := by
  have h := scatter_series (F := nLeg a) rfl (legStar a l) hx hy ph p0 (fun n => if n = m then 1 else 0)
  have h1 : ∀ q : ℝ, ∑ n ∈ range (nLeg a), (if n = m then (1 : ℝ) else 0) * Real.cos (n * (p0 - q)) = Real.cos (m * (p0 - q)) := by
    intro q
    rw [sum_eq_single_of_mem m (mem_range.2 hm) (fun n _ hn => by rw [if_neg hn, zero_mul]), if_pos rfl, one_mul]
  simp only [h1] at h
  unfold phase
  rw [h, sum_eq_single_of_mem m (mem_range.2 hm) (fun n _ hn => by rw [if_neg hn]; ring), if_pos rfl, mul_one]

/-- Where the phase function is not negative, no azimuthal moment exceeds the mean. -/
theorem phaseMoment_abs_le {l : ℕ} (hp : ∀ nu, -1 ≤ nu → nu ≤ 1 → 0 ≤ phase a l nu) {x y : ℝ} (hx : x ^ 2 ≤ 1) (hy : y ^ 2 ≤ 1) (m : ℕ) :
    |phaseMoment (nLeg a) (legStar a l) m x y| ≤ phaseMoment (nLeg a) (legStar a l) 0 x y := by
  have hpi := Real.pi_pos
  by_cases hL : nLeg a ≤ m
  · have : ∀ m, phaseMoment (nLeg a) (legStar a l) m x y = ∑ l_1 ∈ Finset.Ico m (nLeg a), (2 * (l_1 : ℝ) + 1) * legStar a l l_1
      * (((l_1 - m).factorial : ℝ) / ((l_1 + m).factorial : ℝ)) * assocLegendre m l_1 x * assocLegendre m l_1 y := fun _ => rfl
    rw [this m, Ico_eq_empty (by omega), sum_empty, abs_zero]
    rcases Nat.eq_zero_or_pos (nLeg a) with h0 | h0
    · rw [this 0, Ico_eq_empty (by omega), sum_empty]
    · have h := phaseMoment_integral (a := a) (l := l) hx hy h0 0 0
      simp only [Nat.cast_zero, zero_mul, Real.cos_zero, mul_one] at h
      have h2 : 0 ≤ ∫ ph' in (0 : ℝ)..(2 * Real.pi), phase a l (cosAngle x 0 y ph') :=
        intervalIntegral.integral_nonneg (by positivity) fun q _ => hp _ (cosAngle_range hx hy _ _).1 (cosAngle_range hx hy _ _).2
      rw [h] at h2
      exact nonneg_of_mul_nonneg_right h2 (by positivity)
  · push Not at hL
    have h0 := phaseMoment_integral (a := a) (l := l) hx hy (show 0 < nLeg a by omega) 0 0
    have h1 := phaseMoment_integral (a := a) (l := l) hx hy hL 0 0
    simp only [Nat.cast_zero, zero_mul, Real.cos_zero, mul_one, sub_zero, mul_zero] at h0 h1
    have hc : Continuous fun ph' => phase a l (cosAngle x 0 y ph') := (phase_continuous a l).comp (cosAngle_continuous x 0 y)
    have h2 : |∫ ph' in (0 : ℝ)..(2 * Real.pi), phase a l (cosAngle x 0 y ph') * Real.cos (m * (0 - ph'))|
        ≤ ∫ ph' in (0 : ℝ)..(2 * Real.pi), phase a l (cosAngle x 0 y ph') := by
      refine (intervalIntegral.abs_integral_le_integral_abs (by positivity)).trans ?_
      refine intervalIntegral.integral_mono_on (by positivity) (Continuous.intervalIntegrable (by fun_prop) _ _) (hc.intervalIntegrable _ _) fun q _ => ?_
      have hq := hp _ (cosAngle_range hx hy 0 q).1 (cosAngle_range hx hy 0 q).2
      rw [abs_mul, abs_of_nonneg hq]
      have := Real.abs_cos_le_one (m * (0 - q))
      nlinarith
    rw [h0, h1, abs_mul, abs_of_pos (by positivity : 0 < 2 * Real.pi)] at h2
    exact le_of_mul_le_mul_left h2 (by positivity)

end Pydisort

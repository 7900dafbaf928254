import Verif.AzimuthLemmas
import Verif.Props.Bounds

/-!
# C75, C76: the transfer equation with all azimuths, and the sign of the intensity

Specification used: `Spec.fullRHS` (the transfer equation before the Fourier expansion), `Spec.fullReflected`, `Spec.NothingNeglected`,
`Spec.NonnegPhase`, `Spec.FairBDRF`, `Spec.NonnegEmission`.
-/

namespace Pydisort
open Finset Spec

variable {E : Ext} {J : Junk} {a : Args} {R : Solved}

/-- The boundary values of a cosine series. -/
theorem bcVal_series {b : BCv} (hb : Azimuthless b) (hpos : 0 < nFourier a) (i : ℕ) (ph : ℝ) :
    ∑ m ∈ range (nFourier a), bcVal b m i * Real.cos (m * (a.phi0 - ph)) = bcVal b 0 i := by
  rw [sum_eq_single_of_mem 0 (mem_range.2 hpos)]
  · simp
  · intro m _ hm
    rw [bcVal_mode hb hm, zero_mul]


/-- Without corrections, what `u` computes is the Fourier series of the modes. -/
theorem evaluates_series (h : pydisort E J a = .ok R) (hf : a.onlyFlux = false) (hnt : a.NTcor = false) {U : ℕ → ℝ → ℕ → ℝ}
    (hU : IsModes a R U) {F : Fields} (hF : Evaluates a R F) {t : ℝ} (h0 : 0 ≤ t) (h1 : t ≤ bottom a) {i : ℕ} (hi : i < 2 * nHalf a) (ph : ℝ) :
    F.u t ph i = ∑ m ∈ range (nFourier a), U m t i * Real.cos (m * (a.phi0 - ph)) := by
  have hin : InRange a ⟨1, fun _ => t⟩ := fun _ _ => ⟨h0, h1⟩
  obtain ⟨A, e, _, _, _, x⟩ := hF.u hf ⟨1, fun _ => t⟩ ⟨1, fun _ => ph⟩ hin (fun hh => by rw [hnt] at hh; cases hh)
  obtain ⟨B, e', _, _, _, x'⟩ := hU.u ⟨1, fun _ => t⟩ ⟨1, fun _ => ph⟩ hin
  rw [C02_returned_u h hf hnt, e'] at e
  cases e
  exact (x i hi 0 Nat.one_pos 0 Nat.one_pos).symm.trans (x' i hi 0 Nat.one_pos 0 Nat.one_pos)

theorem layer_in_range (hacc : Accepted a) {l : ℕ} (hl : l < a.tauArr.n) {t : ℝ} (h1 : bdry a.tauArr.get l < t)
    (h2 : t < bdry a.tauArr.get (l + 1)) : 0 ≤ t ∧ t ≤ bottom a := by
  have hle : ∀ j k, j ≤ k → k ≤ a.tauArr.n → bdry a.tauArr.get j ≤ bdry a.tauArr.get k := by
    intro j k hjk
    induction k, hjk using Nat.le_induction with
    | base => intro _; exact le_rfl
    | succ k _ ih => intro hk; exact (ih (by omega)).trans (bdry_lt hacc (by omega)).le
  have e1 := hle 0 l (Nat.zero_le _) hl.le
  have e2 := hle (l + 1) a.tauArr.n (by omega) le_rfl
  rw [bdry_zero] at e1
  rw [bdry_bottom hacc] at e2
  exact ⟨by linarith, by linarith⟩

/-- **C75.** The intensity solves the transfer equation with all azimuths: in every layer, stream and azimuth, `μ ∂u/∂τ` is the intensity minus what is
scattered in from all directions by the (delta-M scaled, truncated) phase function, minus the scattered beam, minus the emission. -/
theorem C75_full_transfer_equation (h : pydisort E J a = .ok R) (hS : Sound E a) (hres : Rescalable a) (hf : a.onlyFlux = false)
    (hnt : a.NTcor = false) (hN : nFourier a = nLeg a) (hn : NothingNeglected a) {F : Fields} (hF : Evaluates a R F) :
    ∀ l < a.tauArr.n, ∀ t, bdry a.tauArr.get l < t → t < bdry a.tauArr.get (l + 1) → ∀ i < 2 * nHalf a, ∀ ph,
      ∃ d, HasDerivAt (fun x => F.u x ph i) d t ∧ stream (nHalf a) (node E a) i * d
        = fullRHS a (node E a) (weight E a) l t (fun j ph' => F.u t ph' j) i ph := by
  obtain ⟨U, hU, hode⟩ := C02_modes_solve_transfer_equation h hS hres
  have hacc := (pydisort_ok h).1
  intro l hl t h1 h2 i hi ph
  have hr := layer_in_range hacc hl h1 h2
  have h3 : ∀ m ∈ range (nFourier a), ∃ d, HasDerivAt (fun x => U m x i) d t ∧
      stream (nHalf a) (node E a) i * d = rteUser a (node E a) (weight E a) m l t (U m t) i := fun m hm =>
    hode m (mem_range.1 hm) l hl t h1 h2 i hi
  choose! d hd he using h3
  refine ⟨∑ m ∈ range (nFourier a), d m * Real.cos (m * (a.phi0 - ph)), ?_, ?_⟩
  · have : HasDerivAt (fun x => ∑ m ∈ range (nFourier a), U m x i * Real.cos (m * (a.phi0 - ph)))
        (∑ m ∈ range (nFourier a), d m * Real.cos (m * (a.phi0 - ph))) t :=
      HasDerivAt.fun_sum fun m hm => (hd m hm).mul_const _
    refine this.congr_of_eventuallyEq ?_
    filter_upwards [Ioo_mem_nhds h1 h2] with x hx
    have hx' := layer_in_range hacc hl hx.1 hx.2
    exact evaluates_series h hf hnt hU hF hx'.1 hx'.2 hi ph
  · rw [mul_sum, show fullRHS a (node E a) (weight E a) l t (fun j ph' => F.u t ph' j) i ph
      = fullRHS a (node E a) (weight E a) l t (fun j φ => ∑ m ∈ range (nFourier a), U m t j * Real.cos (m * (a.phi0 - φ))) i ph from ?_,
      fullRHS_series hacc hS.gauss hN hn hl t (fun m => U m t) hi ph]
    · exact sum_congr rfl fun m hm => by rw [← he m hm]; ring
    · unfold fullRHS
      beta_reduce
      rw [evaluates_series h hf hnt hU hF hr.1 hr.2 hi ph]
      refine congrArg (fun z => scale a l * (_ - omegaStar a l / (4 * Real.pi) * z - _) - _) ?_
      refine sum_congr rfl fun j hj => ?_
      simp only [evaluates_series h hf hnt hU hF hr.1 hr.2 (mem_range.1 hj)]

/-- **C75, boundary conditions.** At the top the downward intensity is the prescribed one. At the bottom the upward intensity is the prescribed one plus
what the surface, whose BDRF has the supplied Fourier modes, reflects of the light arriving from all directions and of the beam. -/
theorem C75_full_boundary_conditions (h : pydisort E J a = .ok R) (hS : Sound E a) (hres : Rescalable a) (hf : a.onlyFlux = false)
    (hnt : a.NTcor = false) (hbp : Azimuthless a.bpos) (hbn : Azimuthless a.bneg) (hB : a.bdrf.length ≤ nFourier a) {rho : ℕ → ℝ → ℝ → ℝ}
    (hrho : SurfaceIs a rho) {F : Fields} (hF : Evaluates a R F) : ∀ i < nHalf a, ∀ ph,
      F.u 0 ph (nHalf a + i) = bcVal a.bneg 0 i ∧
      F.u (bottom a) ph i = bcVal a.bpos 0 i
        + fullReflected a (node E a) (weight E a) rho (node E a i) ph (fun j ph' => F.u (bottom a) ph' (nHalf a + j)) := by
  obtain ⟨U, hU, _⟩ := C02_modes_solve_transfer_equation h hS hres
  have hpos := nFourier_pos h hS
  have hb := (bottom_pos (pydisort_ok h).1).le
  intro i hi ph
  have hser : ∀ j < 2 * nHalf a, ∀ q, F.u (bottom a) q j = _ := fun j hj q => evaluates_series h hf hnt hU hF hb le_rfl hj q
  constructor
  · rw [evaluates_series h hf hnt hU hF le_rfl hb (by omega) ph, ← bcVal_series (a := a) hbn hpos i ph]
    exact sum_congr rfl fun m hm => by rw [C03_top_boundary_condition h hS hres hbn hU m (mem_range.1 hm) i hi]
  · rw [hser i (by omega) ph, show fullReflected a (node E a) (weight E a) rho (node E a i) ph (fun j ph' => F.u (bottom a) ph' (nHalf a + j))
      = fullReflected a (node E a) (weight E a) rho (node E a i) ph
        (fun j φ => ∑ m ∈ range (nFourier a), U m (bottom a) (nHalf a + j) * Real.cos (m * (a.phi0 - φ))) from ?_,
      fullReflected_series hB _ _ _ _ _ (fun m j => U m (bottom a) (nHalf a + j)), ← bcVal_series (a := a) hbp hpos i ph, ← sum_add_distrib]
    · refine sum_congr rfl fun m hm => ?_
      have := C04_bottom_boundary_condition h hS hres hbp hrho hU m (mem_range.1 hm) i hi
      rw [← add_mul]
      exact congrArg (· * _) this
    · unfold fullReflected
      congr 2
      refine sum_congr rfl fun j hj => ?_
      have := mem_range.1 hj
      simp only [hser (nHalf a + j) (by omega)]

/-! ### C76 -/

theorem omegaStar_nonneg (hacc : Accepted a) {l : ℕ} (hl : l < a.tauArr.n) (hp : peak a l < 1) : 0 ≤ omegaStar a l := by
  unfold omegaStar
  exact div_nonneg (mul_nonneg (by linarith) (hacc.omega l hl).1) (Args.scale_pos hacc hl).le

/-- The phase function is normalised. -/
theorem phase_row_sum (hacc : Accepted a) (hg : GaussContract E (nHalf a)) (hn : NothingNeglected a) {l : ℕ} (hl : l < a.tauArr.n)
    (hp : peak a l < 1) {i : ℕ} (hi : i < 2 * nHalf a) (ph : ℝ) :
    omegaStar a l / (4 * Real.pi) * ∑ j ∈ range (2 * nHalf a), streamW (nHalf a) (weight E a) j *
        ∫ ph' in (0 : ℝ)..(2 * Real.pi), phase a l (cosAngle (stream (nHalf a) (node E a) i) ph (stream (nHalf a) (node E a) j) ph')
      = effAlbedo a l := by
  have hL : 0 < nLeg a := by have := hacc.nLeg.1; unfold nLeg; omega
  rw [← row_sum_kernel hacc hg hp (stream (nHalf a) (node E a) i), mul_sum]
  refine sum_congr rfl fun j hj => ?_
  have := phaseMoment_integral (a := a) (l := l) (stream_sq_le hg hi) (stream_sq_le hg (mem_range.1 hj)) hL ph 0
  simp only [Nat.cast_zero, zero_mul, Real.cos_zero, mul_one] at this
  rw [this, kernel_eq_scatD hn hl]
  unfold scatD
  have := Real.pi_ne_zero
  field_simp
  ring

theorem bdrfOf_integral (rho : ℕ → ℝ → ℝ → ℝ) (x y ph : ℝ) :
    ∫ ph' in (0 : ℝ)..(2 * Real.pi), bdrfOf a rho x y (ph - ph') = if 0 < a.bdrf.length then 2 * Real.pi * rho 0 x y else 0 := by
  unfold bdrfOf
  rw [intervalIntegral.integral_finsetSum fun m _ => (Continuous.intervalIntegrable (by fun_prop) _ _)]
  simp only [intervalIntegral.integral_const_mul, integral_cos_mode]
  split_ifs with h
  · rw [sum_eq_single_of_mem 0 (mem_range.2 h) (fun m _ hm => by rw [if_neg hm, mul_zero])]
    simp; ring
  · rw [show a.bdrf.length = 0 by omega]; simp

/-- The Fourier series of solutions of all modes satisfies the boundary conditions with all azimuths. -/
theorem series_boundary (hpos : 0 < nFourier a) (hbp : Azimuthless a.bpos) (hbn : Azimuthless a.bneg) (hB : a.bdrf.length ≤ nFourier a)
    {rho : ℕ → ℝ → ℝ → ℝ} {U : ℕ → ℝ → ℕ → ℝ} (hU : ∀ m < nFourier a, IsSolution a (node E a) (weight E a) (rho m) m (U m))
    {i : ℕ} (hi : i < nHalf a) (ph : ℝ) :
    ∑ m ∈ range (nFourier a), U m 0 (nHalf a + i) * Real.cos (m * (a.phi0 - ph)) = bcVal a.bneg 0 i ∧
    ∑ m ∈ range (nFourier a), U m (bottom a) i * Real.cos (m * (a.phi0 - ph)) = bcVal a.bpos 0 i
      + fullReflected a (node E a) (weight E a) rho (node E a i) ph
        (fun j φ => ∑ m ∈ range (nFourier a), U m (bottom a) (nHalf a + j) * Real.cos (m * (a.phi0 - φ))) := by
  constructor
  · rw [← bcVal_series (a := a) hbn hpos i ph]
    exact sum_congr rfl fun m hm => by rw [(hU m (mem_range.1 hm)).top i hi]
  · rw [fullReflected_series hB _ _ _ _ _ (fun m j => U m (bottom a) (nHalf a + j)), ← bcVal_series (a := a) hbp hpos i ph, ← sum_add_distrib]
    refine sum_congr rfl fun m hm => ?_
    rw [← add_mul]
    exact congrArg (· * _) ((hU m (mem_range.1 hm)).bot i hi)

/-- The Fourier series of solutions of all modes solves the transfer equation with all azimuths. -/
theorem series_equation (hacc : Accepted a) (hg : GaussContract E (nHalf a)) (hN : nFourier a = nLeg a) (hn : NothingNeglected a)
    {rho : ℕ → ℝ → ℝ → ℝ} {U : ℕ → ℝ → ℕ → ℝ} (hU : ∀ m < nFourier a, IsSolution a (node E a) (weight E a) (rho m) m (U m))
    {l : ℕ} (hl : l < a.tauArr.n) {t : ℝ} (h1 : bdry a.tauArr.get l < t) (h2 : t < bdry a.tauArr.get (l + 1)) {i : ℕ} (hi : i < 2 * nHalf a)
    (ph : ℝ) :
    ∃ d, HasDerivAt (fun x => ∑ m ∈ range (nFourier a), U m x i * Real.cos (m * (a.phi0 - ph))) d t ∧ stream (nHalf a) (node E a) i * d
      = fullRHS a (node E a) (weight E a) l t (fun j φ => ∑ m ∈ range (nFourier a), U m t j * Real.cos (m * (a.phi0 - φ))) i ph := by
  have h3 : ∀ m ∈ range (nFourier a), ∃ d, HasDerivAt (fun x => U m x i) d t ∧
      stream (nHalf a) (node E a) i * d = rteUser a (node E a) (weight E a) m l t (U m t) i := fun m hm =>
    (hU m (mem_range.1 hm)).ode l hl t h1 h2 i hi
  choose! d hd he using h3
  refine ⟨∑ m ∈ range (nFourier a), d m * Real.cos (m * (a.phi0 - ph)), HasDerivAt.fun_sum fun m hm => (hd m hm).mul_const _, ?_⟩
  rw [mul_sum, fullRHS_series hacc hg hN hn hl t (fun m => U m t) hi ph]
  exact sum_congr rfl fun m hm => by rw [← he m hm]; ring

theorem reflectance_integral {mu w : Vec} (rho : ℕ → ℝ → ℝ → ℝ) (x q : ℝ) : reflectance a mu w (rho 0) x
    = 1 / Real.pi * ∑ k ∈ range (nHalf a), w k * mu k * ∫ ph' in (0 : ℝ)..(2 * Real.pi), bdrfOf a rho x (mu k) (q - ph') := by
  have := Real.pi_pos
  simp only [bdrfOf_integral]
  unfold reflectance
  split_ifs
  · rw [mul_sum, mul_sum]
    refine sum_congr rfl fun k _ => ?_
    field_simp
  · simp

/-- A finite Fourier series that is a supersolution of the transfer equation with all azimuths is non-negative. -/
theorem series_super (hacc : Accepted a) (hg : GaussContract E (nHalf a)) (hpk : ∀ l < a.tauArr.n, peak a l < 1)
    (hN : nFourier a = nLeg a) (hn : NothingNeglected a) {rho : ℕ → ℝ → ℝ → ℝ} (hp : NonnegPhase a)
    (hs : ∀ i < nHalf a, ∀ j < nHalf a, ∀ dph, 0 ≤ bdrfOf a rho (node E a i) (node E a j) dph)
    (hs1 : ∀ i < nHalf a, reflectance a (node E a) (weight E a) (rho 0) (node E a i) ≤ 1) {U : ℕ → ℝ → ℕ → ℝ}
    (hcU : ∀ m < nFourier a, ∀ j < 2 * nHalf a, ContinuousOn (fun t => U m t j) (Set.Icc 0 (bottom a))) {V : ℝ → ℝ → ℕ → ℝ}
    (hVd : V = fun t ph i => ∑ m ∈ range (nFourier a), U m t i * Real.cos (m * (a.phi0 - ph)))
    (hode : ∀ l < a.tauArr.n, ∀ t, bdry a.tauArr.get l < t → t < bdry a.tauArr.get (l + 1) → ∀ i < 2 * nHalf a, ∀ q,
      ∃ d, HasDerivAt (fun x => V x q i) d t ∧ stream (nHalf a) (node E a) i * d ≤ scale a l * (V t q i
        - omegaStar a l / (4 * Real.pi) * ∑ j ∈ range (2 * nHalf a), streamW (nHalf a) (weight E a) j *
        ∫ ph' in (0 : ℝ)..(2 * Real.pi), phase a l (cosAngle (stream (nHalf a) (node E a) i) q (stream (nHalf a) (node E a) j) ph') * V t ph' j))
    (htop : ∀ i < nHalf a, ∀ q, 0 ≤ V 0 q (nHalf a + i))
    (hbot : ∀ i < nHalf a, ∀ q, 1 / Real.pi * (∑ k ∈ range (nHalf a), weight E a k * node E a k *
      ∫ ph' in (0 : ℝ)..(2 * Real.pi), bdrfOf a rho (node E a i) (node E a k) (q - ph') * V (bottom a) ph' (nHalf a + k)) ≤ V (bottom a) q i) :
    ∀ t, 0 ≤ t → t ≤ bottom a → ∀ ph, ∀ i < 2 * nHalf a, 0 ≤ V t ph i := by
  intro t ht0 ht1 ph i hi
  have hpi := Real.pi_pos
  have hb := (bottom_pos hacc).le
  have hbb := bdry_bottom hacc
  have hVcont : ∀ t j, Continuous fun q => V t q j := fun t j => by simp only [hVd]; fun_prop
  set K : Set ℝ := Set.Icc (min 0 ph) (max (2 * Real.pi) ph) with hKd
  have hK0 : Set.Icc (0 : ℝ) (2 * Real.pi) ⊆ K := Set.Icc_subset_Icc (min_le_left _ _) (le_max_left _ _)
  have hphK : ph ∈ K := ⟨min_le_right _ _, le_max_right _ _⟩
  have hW : ∀ j < 2 * nHalf a, 0 < streamW (nHalf a) (weight E a) j := fun j hj => streamW_pos hg hj
  have key := min_principle_azimuth (N := nHalf a) (L := a.tauArr.n) (b := bdry a.tauArr.get) (bdry_zero _) (fun l hl => bdry_lt hacc hl)
    (K := K) isCompact_Icc (V := V) ?_ (σ := stream (nHalf a) (node E a))
    (fun i hi => by unfold stream; rw [if_pos hi]; exact (node_pos hg hi).1)
    (fun i h1 h2 => by
      unfold stream; rw [if_neg (by omega)]
      have := (node_pos hg (i := i - nHalf a) (by omega)).1; linarith)
    (c := scale a) (κ := effAlbedo a) (fun l hl => Args.scale_pos hacc hl) (fun l hl => (effAlbedo_range hacc hl (hpk l hl)).2.1)
    (G := fun l i q t => omegaStar a l / (4 * Real.pi) * ∑ j ∈ range (2 * nHalf a), streamW (nHalf a) (weight E a) j *
        ∫ ph' in (0 : ℝ)..(2 * Real.pi), phase a l (cosAngle (stream (nHalf a) (node E a) i) q (stream (nHalf a) (node E a) j) ph') * V t ph' j)
    ?_ ?_ ?_ ?_ ?_
  · exact key t ht0 (by rw [hbb]; exact ht1) ph hphK i hi
  · -- continuity of the field
    intro j hj
    rw [hbb, hVd]
    refine continuousOn_finset_sum _ fun m hm => ContinuousOn.mul ?_ (by fun_prop)
    exact (hcU m (mem_range.1 hm) j hj).comp continuousOn_fst fun p hp => hp.1
  · -- continuity of the scattered light
    intro l hl j hj q _
    rw [hbb, hVd]
    refine ContinuousOn.congr ?_ fun t _ => scattered_series (a := a) hg hN hn hl (fun m => U m t) hj q
    refine continuousOn_finset_sum _ fun m hm => ContinuousOn.mul (continuousOn_finset_sum _ fun k hk => ?_) continuousOn_const
    exact continuousOn_const.mul (hcU m (mem_range.1 hm) k (mem_range.1 hk))
  · -- scattered light
    intro l hl t' _ j hj q _ M hM hlow
    have hx := stream_sq_le hg hj
    rw [← phase_row_sum hacc hg hn hl (hpk l hl) hj q, mul_assoc]
    refine mul_le_mul_of_nonneg_left ?_ (div_nonneg (omegaStar_nonneg hacc hl (hpk l hl)) (by positivity))
    rw [sum_mul]
    refine sum_le_sum fun k hk => ?_
    have hk' := mem_range.1 hk
    have hy := stream_sq_le hg hk'
    rw [mul_assoc]
    refine mul_le_mul_of_nonneg_left ?_ (hW k hk').le
    rw [← intervalIntegral.integral_mul_const]
    have hc : Continuous fun ph' => phase a l (cosAngle (stream (nHalf a) (node E a) j) q (stream (nHalf a) (node E a) k) ph') :=
      (phase_continuous a l).comp (cosAngle_continuous _ q _)
    refine intervalIntegral.integral_mono_on (by positivity) (Continuous.intervalIntegrable (by fun_prop) _ _)
      ((hc.mul (hVcont t' k)).intervalIntegrable _ _) fun ph' hph' => ?_
    exact mul_le_mul_of_nonneg_left (hlow k hk' ph' (hK0 hph'))
      (hp l hl _ (cosAngle_range hx hy _ _).1 (cosAngle_range hx hy _ _).2)
  · -- the equation
    intro l hl t' h1 h2 j hj q _
    exact hode l hl t' h1 h2 j hj q
  · intro j hj q _
    exact htop j hj q
  · intro j hj q _ M hM hlow
    rw [hbb] at hlow ⊢
    have e1 : M ≤ reflectance a (node E a) (weight E a) (rho 0) (node E a j) * M := by
      have := hs1 j hj; nlinarith
    refine e1.trans (le_trans ?_ (hbot j hj q))
    rw [reflectance_integral rho _ q, mul_assoc, sum_mul]
    refine mul_le_mul_of_nonneg_left (sum_le_sum fun k hk => ?_) (by positivity)
    have hk' := mem_range.1 hk
    rw [mul_assoc]
    refine mul_le_mul_of_nonneg_left ?_ (mul_pos (weight_pos hg hk') (node_pos hg hk').1).le
    rw [← intervalIntegral.integral_mul_const]
    have hc : Continuous fun ph' => bdrfOf a rho (node E a j) (node E a k) (q - ph') := by unfold bdrfOf; fun_prop
    have hc2 : Continuous fun ph' => V (bottom a) ph' (nHalf a + k) := hVcont _ _
    refine intervalIntegral.integral_mono_on (by positivity) ((hc.mul continuous_const).intervalIntegrable _ _)
      ((hc.mul hc2).intervalIntegrable _ _) fun ph' hph' => ?_
    refine mul_le_mul_of_nonneg_left ?_ (hs j hj k hk' _)
    exact hlow k hk' ph' (hK0 hph')

/-- The Fourier series of solutions of all modes is non-negative. -/
theorem series_nonneg (hacc : Accepted a) (hg : GaussContract E (nHalf a)) (hpk : ∀ l < a.tauArr.n, peak a l < 1)
    (hN : nFourier a = nLeg a) (hn : NothingNeglected a) (hbp : Azimuthless a.bpos) (hbn : Azimuthless a.bneg)
    (hB : a.bdrf.length ≤ nFourier a) {rho : ℕ → ℝ → ℝ → ℝ} (hp : NonnegPhase a)
    (hs : FairBDRF a (node E a) (weight E a) rho) (hq : NonnegEmission a) {U : ℕ → ℝ → ℕ → ℝ}
    (hU : ∀ m < nFourier a, IsSolution a (node E a) (weight E a) (rho m) m (U m)) :
    ∀ t, 0 ≤ t → t ≤ bottom a → ∀ ph, ∀ i < 2 * nHalf a, 0 ≤ ∑ m ∈ range (nFourier a), U m t i * Real.cos (m * (a.phi0 - ph)) := by
  have hpos : 0 < nFourier a := by
    rw [hN]; have := hacc.nLeg.1; unfold nLeg; omega
  have hpi := Real.pi_pos
  have hbc := fun j (hj : j < nHalf a) q => series_boundary hpos hbp hbn hB hU hj q
  refine series_super hacc hg hpk hN hn hp hs.nonneg hs.bounded (fun m hm => (hU m hm).cont) rfl ?_ ?_ ?_
  · -- the equation
    intro l hl t' h1 h2 j hj q
    obtain ⟨d, hd, he⟩ := series_equation hacc hg hN hn hU hl h1 h2 hj q
    refine ⟨d, hd, ?_⟩
    · rw [he]
      unfold fullRHS
      beta_reduce
      have e1 := Args.scale_pos hacc hl
      have e2 : 0 ≤ (1 - a.omega.get l) * source a l t' :=
        mul_nonneg (by linarith [(hacc.omega l hl).2]) (hq.inner l hl t' ⟨h1.le, h2.le⟩)
      have e3 : 0 ≤ omegaStar a l * a.I0 / (4 * Real.pi) * phase a l (cosAngle (stream (nHalf a) (node E a) j) q (-a.mu0) a.phi0)
          * Real.exp (-tauStar a l t' / a.mu0) := by
        rcases hacc.beam.lt_or_eq with hI | hI
        · have hm := (hacc.beamDir hI).1
          have hr := cosAngle_range (stream_sq_le hg hj) (y := -a.mu0) (by rw [neg_sq]; nlinarith [hm.1, hm.2]) q a.phi0
          exact mul_nonneg (mul_nonneg (div_nonneg (mul_nonneg (omegaStar_nonneg hacc hl (hpk l hl)) hI.le) (by positivity))
            (hp l hl _ hr.1 hr.2)) (Real.exp_pos _).le
        · rw [← hI]; simp
      have e4 := mul_nonneg e1.le e3
      linarith
  · intro j hj q
    rw [(hbc j hj q).1]
    exact hq.top j hj
  · intro j hj q
    rw [(hbc j hj q).2]
    have e4 : 0 ≤ a.mu0 * a.I0 / Real.pi * bdrfOf a rho (node E a j) a.mu0 (q - a.phi0) * Real.exp (-bdryStar a a.tauArr.n / a.mu0) := by
      rcases hacc.beam.lt_or_eq with hI | hI
      · have hm := (hacc.beamDir hI).1.1
        have := hs.beam j hj (q - a.phi0)
        positivity
      · rw [← hI]; simp
    have e5 := hq.bottom j hj
    unfold fullReflected
    beta_reduce
    linarith

/-- **C76.** If the delta-M scaled and truncated phase function is nowhere negative, and neither the BDRF nor any source is, then no intensity returned by `u` is
negative, at any depth, in any stream and at any azimuth. -/
theorem C76_intensity_nonneg (h : pydisort E J a = .ok R) (hS : Sound E a) (hres : Rescalable a) (hf : a.onlyFlux = false)
    (hnt : a.NTcor = false) (hN : nFourier a = nLeg a) (hn : NothingNeglected a) (hbp : Azimuthless a.bpos) (hbn : Azimuthless a.bneg)
    (hB : a.bdrf.length ≤ nFourier a) {rho : ℕ → ℝ → ℝ → ℝ} (hrho : SurfaceIs a rho) (hp : NonnegPhase a)
    (hs : FairBDRF a (node E a) (weight E a) rho) (hq : NonnegEmission a) {F : Fields} (hF : Evaluates a R F) :
    ∀ t, 0 ≤ t → t ≤ bottom a → ∀ ph, ∀ i < 2 * nHalf a, 0 ≤ F.u t ph i := by
  intro t ht0 ht1 ph i hi
  obtain ⟨U, hU, _⟩ := C02_modes_solve_transfer_equation h hS hres
  rw [evaluates_series h hf hnt hU hF ht0 ht1 hi ph]
  exact series_nonneg (pydisort_ok h).1 hS.gauss hS.peak hN hn hbp hbn hB hp hs hq
    (fun m hm => modes_isSolution h hS hres hbp hbn hrho hU hm) t ht0 ht1 ph i hi

/-! ### Dissipation -/

/-- **C65, when it applies (2).** With a phase function that is nowhere negative (after delta-M scaling and truncation), scattering dissipates energy in every
Fourier mode, whatever the number of Legendre coefficients. -/
theorem C65_nonneg_phase_dissipates (hg : GaussContract E (nHalf a)) (hacc : Accepted a) (hpk : ∀ l < a.tauArr.n, peak a l < 1)
    (hp : NonnegPhase a) : Dissipates a (node E a) (weight E a) := by
  intro m _ l hl x hx
  have hW : ∀ i ∈ range (2 * nHalf a), 0 < streamW (nHalf a) (weight E a) i :=
    fun i hi => streamW_pos hg (mem_range.1 hi)
  have hom := omegaStar_nonneg hacc hl (hpk l hl)
  set W := streamW (nHalf a) (weight E a) with hWd
  set s := stream (nHalf a) (node E a) with hsd
  have hpos : 0 < ∑ i ∈ range (2 * nHalf a), W i * x i ^ 2 := by
    obtain ⟨i, hi, hxi⟩ := hx
    refine sum_pos' (fun i hi => mul_nonneg (hW i hi).le (sq_nonneg _)) ⟨i, mem_range.2 hi, ?_⟩
    have := hW i (mem_range.2 hi)
    positivity
  by_cases hsig : Significant (omegaStar a l) (nLeg a) (legStar a l) m
  · have hsig0 : Significant (omegaStar a l) (nLeg a) (legStar a l) 0 := by
      obtain ⟨k, _, h2, h3⟩ := hsig
      exact ⟨k, Nat.zero_le _, h2, h3⟩
    have hk0 : ∀ y z, kernel a 0 l y z = scatD (omegaStar a l) (nLeg a) (legStar a l) 0 y z := fun y z => by
      unfold kernel; rw [if_pos hsig0]
    have hkm : ∀ y z, kernel a m l y z = scatD (omegaStar a l) (nLeg a) (legStar a l) m y z := fun y z => by
      unfold kernel; rw [if_pos hsig]
    have hle : ∀ i ∈ range (2 * nHalf a), ∀ j ∈ range (2 * nHalf a), |kernel a m l (s i) (s j)| ≤ kernel a 0 l (s i) (s j) := by
      intro i hi j hj
      rw [hk0, hkm]
      unfold scatD
      rw [abs_mul, abs_of_nonneg (by positivity)]
      exact mul_le_mul_of_nonneg_left (phaseMoment_abs_le (hp l hl) (stream_sq_le hg (mem_range.1 hi)) (stream_sq_le hg (mem_range.1 hj)) m)
        (by positivity)
    have hrow : ∀ i, ∑ j ∈ range (2 * nHalf a), W j * kernel a 0 l (s i) (s j) = effAlbedo a l := fun i =>
      row_sum_kernel hacc hg (hpk l hl) (s i)
    have h1 : ∑ i ∈ range (2 * nHalf a), ∑ j ∈ range (2 * nHalf a), W i * W j * kernel a m l (s i) (s j) * x i * x j
        ≤ ∑ i ∈ range (2 * nHalf a), ∑ j ∈ range (2 * nHalf a),
          (1 / 2 * (W i * x i ^ 2 * (W j * kernel a 0 l (s i) (s j))) + 1 / 2 * (W j * x j ^ 2 * (W i * kernel a 0 l (s j) (s i)))) := by
      refine sum_le_sum fun i hi => sum_le_sum fun j hj => ?_
      have e1 := hle i hi j hj
      rw [kernel_symm a 0 l (s j) (s i)]
      have e2 : kernel a m l (s i) (s j) * (x i * x j) ≤ kernel a 0 l (s i) (s j) * (1 / 2 * (x i ^ 2 + x j ^ 2)) := by
        have e3 : kernel a m l (s i) (s j) * (x i * x j) ≤ |kernel a m l (s i) (s j)| * |x i * x j| := by
          rw [← abs_mul]; exact le_abs_self _
        have e4 : |x i * x j| ≤ 1 / 2 * (x i ^ 2 + x j ^ 2) := by
          rw [abs_le]; constructor <;> nlinarith [sq_nonneg (x i + x j), sq_nonneg (x i - x j)]
        exact e3.trans (mul_le_mul e1 e4 (abs_nonneg _) ((abs_nonneg _).trans e1))
      have e5 := mul_le_mul_of_nonneg_left e2 (mul_pos (hW i hi) (hW j hj)).le
      linarith
    have h2 : ∑ i ∈ range (2 * nHalf a), ∑ j ∈ range (2 * nHalf a),
          (1 / 2 * (W i * x i ^ 2 * (W j * kernel a 0 l (s i) (s j))) + 1 / 2 * (W j * x j ^ 2 * (W i * kernel a 0 l (s j) (s i))))
        = effAlbedo a l * ∑ i ∈ range (2 * nHalf a), W i * x i ^ 2 := by
      simp only [sum_add_distrib]
      rw [sum_comm (f := fun i j => 1 / 2 * (W j * x j ^ 2 * (W i * kernel a 0 l (s j) (s i))))]
      rw [← sum_add_distrib, mul_sum]
      refine sum_congr rfl fun i _ => ?_
      rw [← mul_sum, ← mul_sum, hrow i]
      ring
    have h3 := (effAlbedo_range hacc hl (hpk l hl)).2.1
    rw [h2] at h1
    nlinarith
  · simp only [kernel_zero hsig, mul_zero, zero_mul, sum_const_zero]
    exact hpos

theorem bdrfOf_moment {m : ℕ} (hm : m < a.bdrf.length) (rho : ℕ → ℝ → ℝ → ℝ) (x y : ℝ) :
    ∫ ph in (0 : ℝ)..(2 * Real.pi), bdrfOf a rho x y (0 - ph) * Real.cos (m * (0 - ph)) = (1 + if m = 0 then 1 else 0) * Real.pi * rho m x y := by
  unfold bdrfOf
  simp only [sum_mul]
  rw [intervalIntegral.integral_finsetSum fun n _ => (Continuous.intervalIntegrable (by fun_prop) _ _)]
  simp only [mul_assoc, intervalIntegral.integral_const_mul, integral_cos_cos]
  rw [sum_eq_single_of_mem m (mem_range.2 hm) (fun n _ hn => by rw [if_neg hn, mul_zero]), if_pos rfl]
  simp; ring

/-- **C65, surfaces.** A surface with a BDRF that is reciprocal, nowhere negative and reflects at most all of a uniform illumination into any stream is
passive. -/
theorem C65_fair_surface_is_passive (hg : GaussContract E (nHalf a)) {rho : ℕ → ℝ → ℝ → ℝ} (hrho : SurfaceIs a rho)
    (hs : FairBDRF a (node E a) (weight E a) rho)
    (hsym : ∀ i < nHalf a, ∀ j < nHalf a, rho 0 (node E a i) (node E a j) = rho 0 (node E a j) (node E a i)) :
    PassiveSurface a (node E a) (weight E a) := by
  intro m hm M hM
  refine ⟨rho m, hrho m hm M hM, fun d => ?_⟩
  have hpi := Real.pi_pos
  have hlen : m < a.bdrf.length := by
    by_contra h
    rw [List.getElem?_eq_none (by omega)] at hM
    cases hM
  set N := nHalf a with hNd
  set v : ℕ → ℝ := fun i => weight E a i * node E a i with hv
  have hvpos : ∀ i ∈ range N, 0 < v i := fun i hi => mul_pos (weight_pos hg (mem_range.1 hi)) (node_pos hg (mem_range.1 hi)).1
  set k : ℕ → ℕ → ℝ := fun i j => 2 * rho 0 (node E a i) (node E a j) with hk
  -- no mode exceeds twice the mean
  have habs : ∀ i ∈ range N, ∀ j ∈ range N, |(1 + if m = 0 then 1 else 0) * rho m (node E a i) (node E a j)| ≤ k i j := by
    intro i hi j hj
    have h0 := bdrfOf_moment (a := a) (show 0 < a.bdrf.length by omega) rho (node E a i) (node E a j)
    have h1 := bdrfOf_moment (a := a) hlen rho (node E a i) (node E a j)
    simp only [Nat.cast_zero, zero_mul, Real.cos_zero, mul_one, if_true] at h0
    have hc : Continuous fun ph => bdrfOf a rho (node E a i) (node E a j) (0 - ph) := by unfold bdrfOf; fun_prop
    have h2 : |∫ ph in (0 : ℝ)..(2 * Real.pi), bdrfOf a rho (node E a i) (node E a j) (0 - ph) * Real.cos (m * (0 - ph))|
        ≤ ∫ ph in (0 : ℝ)..(2 * Real.pi), bdrfOf a rho (node E a i) (node E a j) (0 - ph) := by
      refine (intervalIntegral.abs_integral_le_integral_abs (by positivity)).trans ?_
      refine intervalIntegral.integral_mono_on (by positivity) (Continuous.intervalIntegrable (by fun_prop) _ _) (hc.intervalIntegrable _ _) fun q _ => ?_
      have hq := hs.nonneg i (mem_range.1 hi) j (mem_range.1 hj) (0 - q)
      rw [abs_mul, abs_of_nonneg hq]
      have := Real.abs_cos_le_one (m * (0 - q))
      nlinarith
    rw [h0, h1] at h2
    have e : (1 + if m = 0 then (1 : ℝ) else 0) * Real.pi * rho m (node E a i) (node E a j)
        = Real.pi * ((1 + if m = 0 then (1 : ℝ) else 0) * rho m (node E a i) (node E a j)) := by ring
    rw [e, abs_mul, abs_of_pos hpi] at h2
    refine le_of_mul_le_mul_left (h2.trans (le_of_eq ?_)) hpi
    simp only [hk]; ring
  have hk0 : ∀ i ∈ range N, ∀ j ∈ range N, 0 ≤ k i j := fun i hi j hj => (abs_nonneg _).trans (habs i hi j hj)
  have hks : ∀ i ∈ range N, ∀ j ∈ range N, k i j = k j i := fun i hi j hj => by
    simp only [hk]; rw [hsym i (mem_range.1 hi) j (mem_range.1 hj)]
  have hrow : ∀ i ∈ range N, ∑ j ∈ range N, v j * k i j ≤ 1 := by
    intro i hi
    have := hs.bounded i (mem_range.1 hi)
    unfold reflectance at this
    rw [if_pos (by omega), mul_sum] at this
    refine le_trans (le_of_eq (sum_congr rfl fun j _ => ?_)) this
    simp only [hk, hv]; ring
  -- Cauchy-Schwarz with the kernel as weight
  have h1 : ∀ i ∈ range N, ((1 + if m = 0 then 1 else 0) * ∑ j ∈ range N, weight E a j * node E a j * rho m (node E a i) (node E a j) * d j) ^ 2
      ≤ ∑ j ∈ range N, v j * k i j * d j ^ 2 := by
    intro i hi
    have e1 : |(1 + if m = 0 then 1 else 0) * ∑ j ∈ range N, weight E a j * node E a j * rho m (node E a i) (node E a j) * d j|
        ≤ ∑ j ∈ range N, v j * k i j * |d j| := by
      rw [mul_sum]
      refine (abs_sum_le_sum_abs _ _).trans (sum_le_sum fun j hj => ?_)
      rw [show (1 + if m = 0 then (1 : ℝ) else 0) * (weight E a j * node E a j * rho m (node E a i) (node E a j) * d j)
        = v j * ((1 + if m = 0 then (1 : ℝ) else 0) * rho m (node E a i) (node E a j)) * d j by simp only [hv]; ring, abs_mul, abs_mul,
        abs_of_pos (hvpos j hj)]
      exact mul_le_mul_of_nonneg_right (mul_le_mul_of_nonneg_left (habs i hi j hj) (hvpos j hj).le) (abs_nonneg _)
    have e2 : (∑ j ∈ range N, v j * k i j * |d j|) ^ 2 ≤ (∑ j ∈ range N, v j * k i j) * ∑ j ∈ range N, v j * k i j * d j ^ 2 := by
      have hnn : ∀ j ∈ range N, 0 ≤ v j * k i j := fun j hj => mul_nonneg (hvpos j hj).le (hk0 i hi j hj)
      refine sum_sq_le_sum_mul_sum_of_sq_le_mul _ hnn (fun j hj => mul_nonneg (hnn j hj) (sq_nonneg _)) fun j _ => ?_
      rw [mul_pow, sq_abs]; exact le_of_eq (by ring)
    have e3 : 0 ≤ ∑ j ∈ range N, v j * k i j * d j ^ 2 := sum_nonneg fun j hj =>
      mul_nonneg (mul_nonneg (hvpos j hj).le (hk0 i hi j hj)) (sq_nonneg _)
    rw [← sq_abs]
    calc _ ≤ (∑ j ∈ range N, v j * k i j * |d j|) ^ 2 := pow_le_pow_left₀ (abs_nonneg _) e1 2
      _ ≤ _ := e2
      _ ≤ 1 * ∑ j ∈ range N, v j * k i j * d j ^ 2 := mul_le_mul_of_nonneg_right (hrow i hi) e3
      _ = _ := one_mul _
  calc ∑ i ∈ range N, weight E a i * node E a i *
        ((1 + if m = 0 then 1 else 0) * ∑ j ∈ range N, weight E a j * node E a j * rho m (node E a i) (node E a j) * d j) ^ 2
      ≤ ∑ i ∈ range N, v i * ∑ j ∈ range N, v j * k i j * d j ^ 2 :=
        sum_le_sum fun i hi => mul_le_mul_of_nonneg_left (h1 i hi) (hvpos i hi).le
    _ = ∑ j ∈ range N, v j * d j ^ 2 * ∑ i ∈ range N, v i * k j i := by
        simp only [mul_sum]
        rw [sum_comm]
        refine sum_congr rfl fun j hj => sum_congr rfl fun i hi => ?_
        rw [hks i hi j hj]; ring
    _ ≤ ∑ j ∈ range N, v j * d j ^ 2 * 1 := sum_le_sum fun j hj =>
        mul_le_mul_of_nonneg_left (hrow j hj) (mul_nonneg (hvpos j hj).le (sq_nonneg _))
    _ = ∑ j ∈ range N, weight E a j * node E a j * d j ^ 2 := sum_congr rfl fun j _ => by simp only [hv]; ring

/-- **C65, physical problems.** Accepted arguments with a phase function that is nowhere negative, a reciprocal, non-negative surface that does not amplify,
a beam direction that is not resonant, and supported shapes describe a well-posed problem (so `pydisort` returns). -/
theorem C65_physical_problems_are_well_posed (hacc : Accepted a) (hg : GaussContract E (nHalf a)) (heig : EigContract E)
    (hpk : ∀ l < a.tauArr.n, peak a l < 1) (hp : NonnegPhase a) (hbeam : BeamRegular a (node E a) (weight E a)) {rho : ℕ → ℝ → ℝ → ℝ}
    (hrho : SurfaceIs a rho) (hs : FairBDRF a (node E a) (weight E a) rho)
    (hsym : ∀ i < nHalf a, ∀ j < nHalf a, rho 0 (node E a i) (node E a j) = rho 0 (node E a j) (node E a i))
    (hbp : Azimuthless a.bpos) (hbn : Azimuthless a.bneg) (hr : a.s.r = 1 ∨ a.s.r = a.tauArr.n) (hdeg : NoSource a ∨ a.s.c ≤ 21)
    (hang : a.NTcor = true → ∀ i < nHalf a, 1 / 10 ^ 8 ≤ |node E a i - a.mu0|) :
    WellPosed E a ∧ ∀ J, ∃ R, pydisort E J a = .ok R := by
  have hw : WellPosed E a := ⟨hacc, hg, heig, hpk, C65_nonneg_phase_dissipates hg hacc hpk hp, hbeam, C65_fair_surface_is_passive hg hrho hs hsym, hbp, hbn, hr, hdeg, hang⟩
  exact ⟨hw, C65_well_posed_call_returns hw⟩

/-! ### The hypotheses are met -/

/-- `demoMild` with the default numbers of Legendre coefficients and Fourier modes, and a BDRF that depends on the azimuth. -/
noncomputable def demoFull (n : ℕ) (x : ℝ) : Args :=
  { demoMild n x with NLeg := none, NFourier := none, bdrf := [.scalar (1 / 3), .scalar (1 / 4)] }

/-- The modes of its surface. -/
noncomputable def fullRho (m : ℕ) (_ _ : ℝ) : ℝ := if m = 0 then 1 / 3 else 1 / 4

section
variable {n : ℕ}

theorem demoFull_accepted (hn : 0 < n) {x : ℝ} (h0 : 0 < x) (h1 : x ≤ 1) : Accepted (demoFull n x) :=
  { demoMild_accepted hn h0 h1 with
    legCols := by simp [demoFull, demoMild, demo]
    modes := fun _ => by simp only [demoFull, demoMild, demo, Option.getD_none]; omega
    nLeg := by simp only [demoFull, demoMild, demo, Option.getD_none]; omega }

theorem demoFull_nLeg (x : ℝ) : nLeg (demoFull n x) = 2 * n ∧ nFourier (demoFull n x) = 2 * n := by
  constructor
  · simp only [nLeg, demoFull, demoMild, demo, Option.getD_none]; omega
  · unfold nFourier
    rw [if_neg (by simp [demoFull, demoMild, demo])]
    simp only [demoFull, demoMild, demo, Option.getD_none]; omega

theorem demoFull_legStar (x : ℝ) {l : ℕ} (hl : l < (demoFull n x).tauArr.n) (k : ℕ) :
    legStar (demoFull n x) l k = if k = 0 then 1 else if k = 1 then 1 / 4 else 0 := demoMild_legStar (n := n) x hl k

theorem demoFull_phase (hn : 0 < n) (x : ℝ) {l : ℕ} (hl : l < (demoFull n x).tauArr.n) (nu : ℝ) : phase (demoFull n x) l nu = 1 + 3 / 4 * nu := by
  unfold phase
  rw [(demoFull_nLeg x).1]
  obtain ⟨k, rfl⟩ : ∃ k, n = k + 1 := ⟨n - 1, by omega⟩
  rw [show 2 * (k + 1) = 2 * k + 1 + 1 by ring, sum_range_succ', sum_range_succ', sum_eq_zero]
  · simp only [demoFull_legStar x hl, legendreP_one, legendreP_zero, zero_add]
    norm_num
    ring
  · intro j _
    rw [demoFull_legStar x hl, if_neg (by omega), if_neg (by omega)]
    ring

theorem demoFull_nonneg (hn : 0 < n) (x : ℝ) : NonnegPhase (demoFull n x) := by
  intro l hl nu h1 h2
  rw [demoFull_phase hn x hl]; linarith

theorem demoFull_neglect (x : ℝ) : NothingNeglected (demoFull n x) := by
  intro l hl k _ hsmall
  have h1 : 1 / 4 ≤ omegaStar (demoFull n x) l := by
    unfold omegaStar scale
    rw [show peak (demoFull n x) l = 1 / 8 from demo_peak (n := n) (x := x) hl]
    simp only [demoFull, demoMild, demo]
    split_ifs <;> norm_num
  by_contra hne
  have hk : k < 2 := by
    by_contra h
    exact hne (by rw [demoFull_legStar x hl, if_neg (by omega), if_neg (by omega), mul_zero])
  have h2 := hsmall k le_rfl (by rw [(demoFull_nLeg x).1] at *; omega)
  rw [demoFull_legStar x hl] at h2
  interval_cases k
  · rw [abs_of_nonneg (by norm_num; linarith)] at h2
    norm_num at h2
    linarith
  · rw [abs_of_nonneg (by norm_num; linarith)] at h2
    norm_num at h2
    linarith

theorem demoFull_rho (x : ℝ) : SurfaceIs (demoFull n x) fullRho := by
  intro m _ M hM
  rcases m with _ | _ | m
  · simp only [demoFull, List.getElem?_cons_zero, Option.some.injEq] at hM
    subst hM
    intro _ _; simp [fullRho]
  · simp only [demoFull, zero_add, List.getElem?_cons_succ, List.getElem?_cons_zero, Option.some.injEq] at hM
    subst hM
    intro _ _; simp [fullRho]
  · simp [demoFull] at hM

theorem demoFull_bdrf (x y z dph : ℝ) : 0 ≤ bdrfOf (demoFull n x) fullRho y z dph := by
  unfold bdrfOf
  rw [show (demoFull n x).bdrf.length = 2 from rfl, sum_range_succ, sum_range_succ]
  simp only [fullRho, range_zero, sum_empty]
  norm_num
  linarith [Real.neg_one_le_cos dph]

theorem demoFull_surface (hn : 0 < n) (x : ℝ) : FairBDRF (demoFull n x) (node refExt (demoFull n x)) (weight refExt (demoFull n x)) fullRho := by
  have hh : nHalf (demoFull n x) = n := demo_nHalf x
  have hg : GaussContract refExt (nHalf (demoFull n x)) := by rw [hh]; exact refExt_gauss hn
  refine ⟨fun _ _ _ _ _ => demoFull_bdrf _ _ _ _, fun _ _ _ => demoFull_bdrf _ _ _ _, fun i hi => ?_⟩
  unfold reflectance
  rw [if_pos (by simp [demoFull])]
  simp only [fullRho, if_true]
  rw [← sum_mul, sum_weight_node hg (by rw [hh]; exact hn)]
  norm_num

theorem demoFull_emission (hn : 0 < n) {x : ℝ} (h0 : 0 < x) (h1 : x ≤ 1) : NonnegEmission (demoFull n x) := by
  have := demoMild_sources hn h0 h1
  exact ⟨this.inner, this.top, this.bottom⟩

theorem demoFull_wellPosed (hn : 0 < n) : ∃ x, 0 < x ∧ x ≤ 1 ∧ WellPosed refExt (demoFull n x) := by
  obtain ⟨x, h0, h1, hb⟩ := exists_beamRegular (demoFull n 1) (node refExt (demoFull n 1)) (weight refExt (demoFull n 1))
  have hh : nHalf (demoFull n x) = n := demo_nHalf x
  refine ⟨x, h0, h1, (C65_physical_problems_are_well_posed (demoFull_accepted hn h0 h1) (by rw [hh]; exact refExt_gauss hn) refExt_eig ?_
    (demoFull_nonneg hn x) hb (demoFull_rho x) (demoFull_surface hn x) (fun _ _ _ _ => rfl) trivial trivial (Or.inr rfl) (Or.inr (Nat.le_of_ble_eq_true rfl)) (fun h => ?_)).1⟩
  · intro l hl
    rw [show peak (demoFull n x) l = 1 / 8 from demo_peak (n := n) (x := x) hl]; norm_num
  · simp [demoFull, demoMild, demo] at h

/-- The hypotheses of C75 and C76 are met, with a beam, internal sources and a surface whose BDRF depends on the azimuth, for every number of streams. -/
example (hn : 0 < n) (J : Junk) : ∃ (x : ℝ) (R : Solved) (F : Fields), pydisort refExt J (demoFull n x) = .ok R ∧ Sound refExt (demoFull n x)
    ∧ Rescalable (demoFull n x) ∧ (demoFull n x).onlyFlux = false ∧ (demoFull n x).NTcor = false ∧ nFourier (demoFull n x) = nLeg (demoFull n x)
    ∧ NothingNeglected (demoFull n x) ∧ Azimuthless (demoFull n x).bpos ∧ Azimuthless (demoFull n x).bneg
    ∧ (demoFull n x).bdrf.length ≤ nFourier (demoFull n x) ∧ SurfaceIs (demoFull n x) fullRho ∧ NonnegPhase (demoFull n x)
    ∧ FairBDRF (demoFull n x) (node refExt (demoFull n x)) (weight refExt (demoFull n x)) fullRho ∧ NonnegEmission (demoFull n x)
    ∧ Evaluates (demoFull n x) R F := by
  obtain ⟨x, h0, h1, hw⟩ := demoFull_wellPosed hn
  obtain ⟨R, hR⟩ := pydisort_isOk hw J
  have hres : Rescalable (demoFull n x) := Or.inl (Or.inl one_pos)
  obtain ⟨F, hF⟩ := evaluates_exists hR hw.sound hres
  refine ⟨x, R, F, hR, hw.sound, hres, rfl, rfl, by rw [(demoFull_nLeg x).1, (demoFull_nLeg x).2], demoFull_neglect x, trivial, trivial, ?_,
    demoFull_rho x, demoFull_nonneg hn x, demoFull_surface hn x, demoFull_emission hn h0 h1, hF⟩
  rw [(demoFull_nLeg x).2]
  change 2 ≤ 2 * n
  omega

end

end Pydisort

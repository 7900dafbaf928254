import Verif.Uniqueness
import Verif.Props.Corrections
import Verif.Witness

/-!
# C142: layers that do not scatter only attenuate
-/

namespace Pydisort
open Finset Spec

variable {E : Ext} {J : Junk} {a : Args} {R : Solved}

theorem not_significant_clear {l : ℕ} (hω : a.omega.get l = 0) (m : ℕ) : ¬ Significant (omegaStar a l) (nLeg a) (legStar a l) m := by
  rintro ⟨k, -, -, hp⟩
  rw [show omegaStar a l = 0 by unfold omegaStar; rw [hω]; ring] at hp
  norm_num at hp

theorem rteUser_clear {l : ℕ} (hω : a.omega.get l = 0) {t : ℝ} (hs : source a l t = 0) (mu w : Vec) (m : ℕ) (u : ℕ → ℝ) (i : ℕ) :
    rteUser a mu w m l t u i = u i := by
  have h1 : ∀ x y, kernel a m l x y = 0 := kernel_zero (not_significant_clear hω m)
  have h2 : ∀ x, beamSource a m l x = 0 := fun x => by
    unfold beamSource
    rw [if_neg (not_significant_clear hω m)]
  unfold rteUser rteRHS scale
  simp [h1, h2, hω, hs]

/-- Two depths of one layer. -/
theorem clear_mode (h : pydisort E J a = .ok R) (hS : Sound E a) (hr : Rescalable a) {U : ℕ → ℝ → ℕ → ℝ} (hU : IsModes a R U)
    (hode : ∀ m < nFourier a, ∀ l < a.tauArr.n, ∀ t, bdry a.tauArr.get l < t → t < bdry a.tauArr.get (l + 1) →
        ∀ i < 2 * nHalf a, ∃ d, HasDerivAt (fun x => U m x i) d t ∧ stream (nHalf a) (node E a) i * d = rteUser a (node E a) (weight E a) m l t (U m t) i)
    {l : ℕ} (hl : l < a.tauArr.n) (hω : a.omega.get l = 0) (hs : ∀ t, InLayer a l t → source a l t = 0) {m : ℕ} (hm : m < nFourier a) {i : ℕ} (hi : i < 2 * nHalf a)
    (hne : stream (nHalf a) (node E a) i ≠ 0) {s t : ℝ} (h1 : InLayer a l s) (h2 : InLayer a l t) (hst : s < t) :
    U m t i * Real.exp (-t / stream (nHalf a) (node E a) i) = U m s i * Real.exp (-s / stream (nHalf a) (node E a) i) := by
  have hacc := (pydisort_ok h).1
  set y := stream (nHalf a) (node E a) i with hy
  have hr0 : bdry a.tauArr.get 0 ≤ bdry a.tauArr.get l := bdry_le hacc (Nat.zero_le _) hl.le
  have hr1 := bdry_le hacc (show l + 1 ≤ a.tauArr.n by omega) le_rfl
  rw [bdry_zero] at hr0
  rw [bdry_bottom hacc] at hr1
  have hc : ContinuousOn (fun x => U m x i * Real.exp (-x / y)) (Set.Icc s t) := by
    refine ContinuousOn.mul ((C05_continuous_across_layers h hS hr hU m hm i hi).mono fun x hx => ⟨?_, ?_⟩) (by fun_prop)
    · linarith [h1.1, hx.1]
    · change x ≤ bottom a
      linarith [h2.2, hx.2]
  have hd : ∀ x ∈ Set.Ioo s t, HasDerivAt (fun x => U m x i * Real.exp (-x / y)) 0 x := by
    intro x hx
    have x1 : bdry a.tauArr.get l < x := lt_of_le_of_lt h1.1 hx.1
    have x2 : x < bdry a.tauArr.get (l + 1) := lt_of_lt_of_le hx.2 h2.2
    obtain ⟨d, hd, he⟩ := hode m hm l hl x x1 x2 i hi
    rw [rteUser_clear hω (hs x ⟨x1.le, x2.le⟩)] at he
    have he' : HasDerivAt (fun x => Real.exp (-x / y)) (Real.exp (-x / y) * (-1 / y)) x := ((hasDerivAt_id x).neg.div_const y).exp
    refine (hd.mul he').congr_deriv ?_
    rw [← he]
    field_simp
    ring
  obtain ⟨c, hc', e⟩ := exists_hasDerivAt_eq_slope _ _ hst hc hd
  exact sub_eq_zero.1 ((div_eq_zero_iff.1 e.symm).resolve_right (by linarith))

/-- **C142.** In a layer with single-scattering albedo zero and without an internal source, whatever the other layers are like, light is attenuated along its direction and nothing
else: from depth `s` to depth `t` of the layer every intensity, at every azimuth, and every mean intensity is multiplied by `e^{(t - s)/μ}`. The direct beam adds nothing. -/
theorem C142_clear_layers_attenuate (h : pydisort E J a = .ok R) (hS : Sound E a) (hr : Rescalable a) (ho : a.onlyFlux = false) (hc : ¬ Corrected a) {l : ℕ} (hl : l < a.tauArr.n)
    (hω : a.omega.get l = 0) (hs : ∀ t, InLayer a l t → source a l t = 0) :
    ∀ tau phi, InRange a tau → ∃ (A : A3 ℝ) (B : A2 ℝ), R.u tau phi false = .ok A ∧ R.u0 tau false = .ok B ∧
      A.d0 = 2 * nHalf a ∧ A.d1 = tau.n ∧ A.d2 = phi.n ∧ B.r = 2 * nHalf a ∧ B.c = tau.n ∧
      ∀ s < tau.n, ∀ t < tau.n, InLayer a l (tau.get s) → InLayer a l (tau.get t) → ∀ i < 2 * nHalf a,
        B.get i t = B.get i s * Real.exp ((tau.get t - tau.get s) / R.muArr.get i) ∧
        ∀ p < phi.n, A.get i t p = A.get i s p * Real.exp ((tau.get t - tau.get s) / R.muArr.get i) := by
  obtain ⟨U, hU, hode⟩ := C02_modes_solve_transfer_equation h hS hr
  intro tau phi ht
  obtain ⟨A, a1, a2, a3, a4, a5⟩ := hU.u tau phi ht
  obtain ⟨B, b1, b2, b3, b4⟩ := hU.u0 tau ht
  have hF := nFourier_pos h hS
  refine ⟨A, B, (C42_inactive h ho hc tau phi false).trans a1, b1, a2, a3, a4, b2, b3, fun s hs' t ht' ls lt i hi => ?_⟩
  rw [(mu_arr_returned h).2 i hi]
  have hne : stream (nHalf a) (node E a) i ≠ 0 := stream_ne hS.gauss hi
  have key : ∀ m < nFourier a, U m (tau.get t) i = U m (tau.get s) i * Real.exp ((tau.get t - tau.get s) / stream (nHalf a) (node E a) i) := by
    intro m hm
    have e : U m (tau.get t) i * Real.exp (-tau.get t / stream (nHalf a) (node E a) i) = U m (tau.get s) i * Real.exp (-tau.get s / stream (nHalf a) (node E a) i) := by
      rcases lt_trichotomy (tau.get s) (tau.get t) with hlt | heq | hlt
      · exact clear_mode h hS hr hU hode hl hω hs hm hi hne ls lt hlt
      · rw [heq]
      · exact (clear_mode h hS hr hU hode hl hω hs hm hi hne lt ls hlt).symm
    rw [show (tau.get t - tau.get s) / stream (nHalf a) (node E a) i = -tau.get s / stream (nHalf a) (node E a) i - -tau.get t / stream (nHalf a) (node E a) i by ring,
      Real.exp_sub, ← mul_div_assoc, ← e, mul_div_assoc, div_self (Real.exp_ne_zero _), mul_one]
  refine ⟨?_, fun p hp => ?_⟩
  · rw [b4 i hi t ht', b4 i hi s hs']
    exact key 0 hF
  · rw [a5 i hi t ht' p hp, a5 i hi s hs' p hp]
    beta_reduce
    rw [sum_mul]
    refine sum_congr rfl fun m hm => ?_
    rw [key m (mem_range.1 hm)]
    ring

theorem rteUser_clear_emits {l : ℕ} (hω : a.omega.get l = 0) (t : ℝ) (mu w : Vec) (m : ℕ) (u : ℕ → ℝ) (i : ℕ) :
    rteUser a mu w m l t u i = u i - if m = 0 then source a l t else 0 := by
  have h1 : ∀ x y, kernel a m l x y = 0 := kernel_zero (not_significant_clear hω m)
  have h2 : ∀ x, beamSource a m l x = 0 := fun x => by
    unfold beamSource
    rw [if_neg (not_significant_clear hω m)]
  unfold rteUser rteRHS scale
  simp [h1, h2, hω]

theorem source_cont_clear (a : Args) (l : ℕ) : Continuous (source a l) := by
  unfold source
  split_ifs <;> fun_prop

theorem emitting_mode (h : pydisort E J a = .ok R) (hS : Sound E a) (hr : Rescalable a) {U : ℕ → ℝ → ℕ → ℝ} (hU : IsModes a R U)
    (hode : ∀ m < nFourier a, ∀ l < a.tauArr.n, ∀ t, bdry a.tauArr.get l < t → t < bdry a.tauArr.get (l + 1) →
        ∀ i < 2 * nHalf a, ∃ d, HasDerivAt (fun x => U m x i) d t ∧ stream (nHalf a) (node E a) i * d = rteUser a (node E a) (weight E a) m l t (U m t) i)
    {l : ℕ} (hl : l < a.tauArr.n) (hω : a.omega.get l = 0) {m : ℕ} (hm : m < nFourier a) {i : ℕ} (hi : i < 2 * nHalf a)
    (hne : stream (nHalf a) (node E a) i ≠ 0) {s t : ℝ} (h1 : InLayer a l s) (h2 : InLayer a l t) :
    U m t i = U m s i * Real.exp ((t - s) / stream (nHalf a) (node E a) i)
      - if m = 0 then ∫ x in s..t, source a l x / stream (nHalf a) (node E a) i * Real.exp ((t - x) / stream (nHalf a) (node E a) i) else 0 := by
  have hacc := (pydisort_ok h).1
  set y := stream (nHalf a) (node E a) i with hy
  have hr0 : bdry a.tauArr.get 0 ≤ bdry a.tauArr.get l := bdry_le hacc (Nat.zero_le _) hl.le
  have hr1 := bdry_le hacc (show l + 1 ≤ a.tauArr.n by omega) le_rfl
  rw [bdry_zero] at hr0
  rw [bdry_bottom hacc] at hr1
  have hc : ContinuousOn (fun x => U m x i * Real.exp ((t - x) / y)) (Set.uIcc s t) := by
    refine ContinuousOn.mul ((C05_continuous_across_layers h hS hr hU m hm i hi).mono fun x hx => ?_) (by fun_prop)
    have := Set.uIcc_subset_Icc (show s ∈ Set.Icc (bdry a.tauArr.get l) (bdry a.tauArr.get (l + 1)) from h1) h2 hx
    refine ⟨by linarith [this.1], ?_⟩
    change x ≤ bottom a
    linarith [this.2]
  have hd : ∀ x ∈ Set.Ioo (min s t) (max s t), HasDerivAt (fun x => U m x i * Real.exp ((t - x) / y))
      (-(if m = 0 then source a l x / y * Real.exp ((t - x) / y) else 0)) x := by
    intro x hx
    have x1 : bdry a.tauArr.get l < x := lt_of_le_of_lt (le_min h1.1 h2.1) hx.1
    have x2 : x < bdry a.tauArr.get (l + 1) := lt_of_lt_of_le hx.2 (max_le h1.2 h2.2)
    obtain ⟨d, hd, he⟩ := hode m hm l hl x x1 x2 i hi
    rw [rteUser_clear_emits hω] at he
    have he' : HasDerivAt (fun x => Real.exp ((t - x) / y)) (Real.exp ((t - x) / y) * (-1 / y)) x := (((hasDerivAt_id x).const_sub t).div_const y).exp
    refine (hd.mul he').congr_deriv ?_
    have hU' : U m x i = y * d + if m = 0 then source a l x else 0 := by linarith
    rw [hU']
    split_ifs <;> field_simp <;> ring
  have key := intervalIntegral.integral_eq_sub_of_hasDeriv_right hc (fun x hx => (hd x hx).hasDerivWithinAt) (by
    refine Continuous.intervalIntegrable ?_ _ _
    have := source_cont_clear a l
    split_ifs <;> fun_prop)
  rw [sub_self, zero_div, Real.exp_zero, mul_one, intervalIntegral.integral_neg] at key
  split_ifs at key ⊢
  · linarith
  · simp at key
    linarith

/-- **C142, with emission.** In a layer with single-scattering albedo zero and an internal source `S` the intensities are given by Schwarzschild's formula: what arrives from depth `s` is attenuated,
and what the layer emits on the way is attenuated from where it is emitted. -/
theorem C142_clear_layers_emit (h : pydisort E J a = .ok R) (hS : Sound E a) (hr : Rescalable a) (ho : a.onlyFlux = false) (hc : ¬ Corrected a) {l : ℕ} (hl : l < a.tauArr.n)
    (hω : a.omega.get l = 0) :
    ∀ tau phi, InRange a tau → ∃ (A : A3 ℝ) (B : A2 ℝ), R.u tau phi false = .ok A ∧ R.u0 tau false = .ok B ∧
      A.d0 = 2 * nHalf a ∧ A.d1 = tau.n ∧ A.d2 = phi.n ∧ B.r = 2 * nHalf a ∧ B.c = tau.n ∧
      ∀ s < tau.n, ∀ t < tau.n, InLayer a l (tau.get s) → InLayer a l (tau.get t) → ∀ i < 2 * nHalf a,
        B.get i t = B.get i s * Real.exp ((tau.get t - tau.get s) / R.muArr.get i)
          - ∫ x in tau.get s..tau.get t, source a l x / R.muArr.get i * Real.exp ((tau.get t - x) / R.muArr.get i) ∧
        ∀ p < phi.n, A.get i t p = A.get i s p * Real.exp ((tau.get t - tau.get s) / R.muArr.get i)
          - ∫ x in tau.get s..tau.get t, source a l x / R.muArr.get i * Real.exp ((tau.get t - x) / R.muArr.get i) := by
  obtain ⟨U, hU, hode⟩ := C02_modes_solve_transfer_equation h hS hr
  intro tau phi ht
  obtain ⟨A, a1, a2, a3, a4, a5⟩ := hU.u tau phi ht
  obtain ⟨B, b1, b2, b3, b4⟩ := hU.u0 tau ht
  have hF := nFourier_pos h hS
  refine ⟨A, B, (C42_inactive h ho hc tau phi false).trans a1, b1, a2, a3, a4, b2, b3, fun s hs' t ht' ls lt i hi => ?_⟩
  rw [(mu_arr_returned h).2 i hi]
  have hne : stream (nHalf a) (node E a) i ≠ 0 := stream_ne hS.gauss hi
  have key := fun m hm => emitting_mode h hS hr hU hode hl hω (m := m) hm hi hne ls lt
  refine ⟨?_, fun p hp => ?_⟩
  · rw [b4 i hi t ht', b4 i hi s hs']
    have := key 0 hF
    rwa [if_pos rfl] at this
  · rw [a5 i hi t ht' p hp, a5 i hi s hs' p hp]
    beta_reduce
    rw [sum_congr rfl fun (m : ℕ) hm => congrArg (· * Real.cos ((m : ℝ) * (a.phi0 - phi.get p))) (key m (mem_range.1 hm))]
    simp only [sub_mul, sum_sub_distrib, ite_mul, zero_mul, sum_ite_eq', mem_range, hF, if_true, Nat.cast_zero, Real.cos_zero, mul_one]
    rw [sum_mul]
    exact congrArg (· - _) (sum_congr rfl fun m _ => by ring)

/-- A clear layer over one that scatters and emits, with a beam, light from above and a reflecting surface. The clear layer emits in proportion to `q`. -/
noncomputable def demoHalfClear (n : ℕ) (q x : ℝ) : Args :=
  { demo n x with omega := ⟨2, fun k => if k = 0 then 0 else 3 / 4⟩, s := ⟨2, 2, fun l _ => if l = 0 then q else 1⟩ }

/-- The hypotheses are met for every number of streams and every `q`. -/
theorem demoHalfClear_call {n : ℕ} (hn : 0 < n) (q : ℝ) (J : Junk) : ∃ x R, pydisort refExt J (demoHalfClear n q x) = .ok R ∧ Sound refExt (demoHalfClear n q x) ∧
    Rescalable (demoHalfClear n q x) ∧ (demoHalfClear n q x).onlyFlux = false ∧ ¬ Corrected (demoHalfClear n q x) ∧ (demoHalfClear n q x).omega.get 0 = 0 ∧
    (∀ t, source (demoHalfClear n q x) 0 t = q + q * t) ∧ (demoHalfClear n q x).omega.get 1 = 3 / 4 := by
  obtain ⟨x, h0, h1, hb⟩ := exists_beamRegular (demoHalfClear n q 1) (node refExt (demoHalfClear n q 1)) (weight refExt (demoHalfClear n q 1))
  have hN : nHalf (demoHalfClear n q x) = n := demo_nHalf x
  have hg : GaussContract refExt (nHalf (demoHalfClear n q x)) := by rw [hN]; exact refExt_gauss hn
  have hacc : Accepted (demoHalfClear n q x) := { demo_accepted hn h0 h1 with
    omegaLen := rfl
    omega := fun k _ => by
      simp only [demoHalfClear]
      split_ifs <;> norm_num
    sourceRows := Or.inr rfl }
  have hpk : ∀ l < (demoHalfClear n q x).tauArr.n, peak (demoHalfClear n q x) l = 1 / 8 := fun l hl => demo_peak (n := n) (x := x) hl
  have hw : WellPosed refExt (demoHalfClear n q x) := by
    refine ⟨hacc, hg, refExt_eig, ?_, ?_, hb, ?_, trivial, trivial, Or.inr rfl, Or.inr (by simp [demoHalfClear]), by simp [demoHalfClear, demo]⟩
    · intro l hl; rw [hpk l hl]; norm_num
    · refine dissipates_of_nLeg_le hg ?_ hacc.omega ?_ ?_
      · rw [hN]
        simp [nLeg, demoHalfClear, demo]
      · intro l hl; rw [hpk l hl]; norm_num
      · intro l _ k _
        unfold leg
        split_ifs with h
        · exact le_rfl
        · exact pow_le_one₀ (by norm_num) (by norm_num)
    · exact passive_lambertian hg (by rw [hN]; exact hn) (by norm_num) rfl
  obtain ⟨R, h⟩ := pydisort_isOk hw J
  exact ⟨x, R, h, hw.sound, Or.inl (Or.inl one_pos), rfl, fun h => absurd h.1 (by simp [demoHalfClear, demo]), by simp [demoHalfClear],
    fun t => by simp [source, demoHalfClear, sum_range_succ], by simp [demoHalfClear]⟩

/-- With `q = 0` the clear layer does not emit, as in the first theorem. -/
example {n : ℕ} (hn : 0 < n) (J : Junk) : ∃ x R, pydisort refExt J (demoHalfClear n 0 x) = .ok R ∧ (demoHalfClear n 0 x).omega.get 0 = 0 ∧ ∀ t, source (demoHalfClear n 0 x) 0 t = 0 := by
  obtain ⟨x, R, h, -, -, -, -, h1, h2, -⟩ := demoHalfClear_call hn 0 J
  exact ⟨x, R, h, h1, fun t => by rw [h2]; ring⟩

end Pydisort

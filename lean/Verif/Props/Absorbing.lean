import Verif.Spec.Absorbing
import Verif.SplitLemmas

/-!
# C64: the purely absorbing atmosphere

Specification used: `Spec.Absorbing`, `Spec.absorbed`, `Spec.Evaluates`.
-/

namespace Pydisort
open Finset Spec

section
variable {E : Ext} {a : Args}

theorem absorbing_scale (hb : Clear a) {l : ℕ} (hl : l < a.tauArr.n) : scale a l = 1 := by
  unfold scale; rw [hb.albedo l hl]; ring

theorem absorbing_not_significant (hb : Clear a) {l : ℕ} (hl : l < a.tauArr.n) (m : ℕ) :
    ¬ Significant (omegaStar a l) (nLeg a) (legStar a l) m := by
  rintro ⟨k, _, _, hk⟩
  have : omegaStar a l = 0 := by unfold omegaStar; rw [hb.albedo l hl]; simp
  rw [this] at hk
  norm_num at hk

theorem absorbing_tauStar (hb : Clear a) {l : ℕ} (hl : l < a.tauArr.n) (t : ℝ) : tauStar a l t = t := by
  have : ∀ j ≤ l, bdryStar a j = bdry a.tauArr.get j := by
    intro j hj
    induction j with
    | zero => simp [bdryStar, bdry]
    | succ j ih =>
      have e2 : bdryStar a (j + 1) = bdryStar a j + scale a j * (bdry a.tauArr.get (j + 1) - bdry a.tauArr.get j) := by
        unfold bdryStar; rw [sum_range_succ]
      rw [e2, ih (by omega), absorbing_scale hb (by omega)]; ring
  unfold tauStar
  rw [this l le_rfl, absorbing_scale hb hl]; ring

theorem clear_wellPosed (hb : Clear a) (hacc : Accepted a) (hg : GaussContract E (nHalf a)) (he : EigContract E)
    (hpk : ∀ l < a.tauArr.n, peak a l < 1) (hp : Azimuthless a.bpos) (hq : Azimuthless a.bneg)
    (hr : a.s.r = 1 ∨ a.s.r = a.tauArr.n) (hdeg : NoSource a ∨ a.s.c ≤ 21)
    (hang : a.NTcor = true → ∀ i < nHalf a, 1 / 10 ^ 8 ≤ |node E a i - a.mu0|) (hsf : PassiveSurface a (node E a) (weight E a)) : WellPosed E a where
  accepted := hacc
  gauss := hg
  eig := he
  peak := hpk
  dissipates := by
    intro m _ l hl x hx
    have hz : ∀ y z, kernel a m l y z = 0 := kernel_zero (absorbing_not_significant hb hl m)
    simp only [hz, mul_zero, zero_mul, sum_const_zero]
    have hw : ∀ i < 2 * nHalf a, 0 < streamW (nHalf a) (weight E a) i := by
      intro i hi; unfold streamW; split_ifs <;> exact weight_pos hg (by omega)
    obtain ⟨i, hi, hxi⟩ := hx
    exact sum_pos' (fun j hj => mul_nonneg (hw j (mem_range.1 hj)).le (sq_nonneg _))
      ⟨i, mem_range.2 hi, mul_pos (hw i hi) (by positivity)⟩
  beam := fun _ m _ l hl hs => absurd hs (absorbing_not_significant hb hl m)
  surface := hsf
  bottomBC := hp
  topBC := hq
  sourceShape := hr
  degree := hdeg
  angles := hang

theorem absorbing_wellPosed (hb : Absorbing a) (hacc : Accepted a) (hg : GaussContract E (nHalf a)) (he : EigContract E)
    (hpk : ∀ l < a.tauArr.n, peak a l < 1) (hp : Azimuthless a.bpos) (hq : Azimuthless a.bneg)
    (hr : a.s.r = 1 ∨ a.s.r = a.tauArr.n) (hang : a.NTcor = true → ∀ i < nHalf a, 1 / 10 ^ 8 ≤ |node E a i - a.mu0|) :
    WellPosed E a :=
  clear_wellPosed hb.toClear hacc hg he hpk hp hq hr (Or.inl hb.source) hang (passive_black hb.surface)

/-- The closed form in each Fourier mode. -/
noncomputable def absMode (a : Args) (mu : Vec) (m : ℕ) (t : ℝ) (i : ℕ) : ℝ :=
  if i < nHalf a then bcVal a.bpos m i * Real.exp (-(bottom a - t) / mu i)
    else bcVal a.bneg m (i - nHalf a) * Real.exp (-t / mu (i - nHalf a))

theorem source_zero {a : Args} (h : NoSource a) (l : ℕ) (t : ℝ) : source a l t = 0 := by
  unfold source
  split_ifs with hl
  · exact sum_eq_zero fun k hk => by rw [h l hl k (mem_range.1 hk), zero_mul]
  · rfl

/-- The closed form solves the boundary value problem, whatever the surface. -/
theorem clearMode_isSolution (hb : Clear a) (hg : GaussContract E (nHalf a)) (rho : ℝ → ℝ → ℝ) (m : ℕ) :
    IsSolution a (node E a) (weight E a) rho m (clearMode a (node E a) (weight E a) rho m) where
  cont := by
    intro i _
    unfold clearMode
    split_ifs <;> fun_prop
  ode := by
    intro l hl t _ _ i hi
    have hR : rteUser a (node E a) (weight E a) m l t (clearMode a (node E a) (weight E a) rho m t) i = clearMode a (node E a) (weight E a) rho m t i := by
      unfold rteUser rteRHS
      have hz : ∀ y z, kernel a m l y z = 0 := kernel_zero (absorbing_not_significant hb hl m)
      have hX : ∀ y, beamSource a m l y = 0 := fun y => by
        unfold beamSource; rw [if_neg (absorbing_not_significant hb hl m)]
      simp only [hz, hX, source_zero hb.source, absorbing_scale hb hl, mul_zero, zero_mul, sum_const_zero, ite_self]
      ring
    rw [hR]
    unfold clearMode stream
    by_cases h : i < nHalf a
    · simp only [if_pos h]
      have hn := (node_pos hg h).1.ne'
      set c := bcVal a.bpos m i + if m < a.bdrf.length then reflected a (node E a) (weight E a) rho m (node E a i)
        (fun j => bcVal a.bneg m j * Real.exp (-bottom a / node E a j)) else 0
      refine ⟨c * (Real.exp (-(bottom a - t) / node E a i) * (1 / node E a i)), ?_, ?_⟩
      · refine HasDerivAt.const_mul _ (HasDerivAt.exp ?_)
        have := (((hasDerivAt_id t).const_sub (bottom a)).neg).div_const (node E a i)
        simpa using this
      · field_simp
    · simp only [if_neg h]
      have hn := (node_pos (E := E) (a := a) hg (i := i - nHalf a) (by omega)).1.ne'
      refine ⟨bcVal a.bneg m (i - nHalf a) * (Real.exp (-t / node E a (i - nHalf a)) * (-1 / node E a (i - nHalf a))), ?_, ?_⟩
      · refine HasDerivAt.const_mul _ (HasDerivAt.exp ?_)
        exact ((hasDerivAt_id t).neg).div_const (node E a (i - nHalf a))
      · field_simp
  top := by
    intro i _
    unfold clearMode
    rw [if_neg (by omega), Nat.add_sub_cancel_left]; simp
  bot := by
    intro i hi
    unfold clearMode
    rw [if_pos hi]
    have e : ∀ j, (if nHalf a + j < nHalf a then (bcVal a.bpos m (nHalf a + j) + if m < a.bdrf.length then
        reflected a (node E a) (weight E a) rho m (node E a (nHalf a + j))
          (fun j => bcVal a.bneg m j * Real.exp (-bottom a / node E a j)) else 0)
          * Real.exp (-(bottom a - bottom a) / node E a (nHalf a + j))
        else bcVal a.bneg m (nHalf a + j - nHalf a) * Real.exp (-bottom a / node E a (nHalf a + j - nHalf a)))
        = bcVal a.bneg m j * Real.exp (-bottom a / node E a j) := fun j => by
      rw [if_neg (by omega), Nat.add_sub_cancel_left]
    simp only [e]
    simp

theorem absMode_isSolution (hb : Absorbing a) (hg : GaussContract E (nHalf a)) (rho : ℝ → ℝ → ℝ) (m : ℕ) :
    IsSolution a (node E a) (weight E a) rho m (absMode a (node E a) m) := by
  have e : absMode a (node E a) m = clearMode a (node E a) (weight E a) rho m := by
    funext t i
    unfold absMode clearMode
    rw [if_neg (c := m < a.bdrf.length) (by rw [hb.surface]; simp), add_zero]
  rw [e]
  exact clearMode_isSolution hb.toClear hg rho m

theorem bcVal_mode {b : BCv} (h : Azimuthless b) {m : ℕ} (hm : m ≠ 0) (i : ℕ) : bcVal b m i = 0 := by
  cases b with
  | scalar x => simp [bcVal, hm]
  | vec v => simp [bcVal, hm]
  | mat v =>
    by_cases hh : i < v.r ∧ m < v.c
    · simpa [bcVal, hh] using h _ hh.1 _ hh.2
    · simp [bcVal, hh]

/-- **C64.** In a purely absorbing atmosphere the call returns, and `u0`, the fluxes and `u` are the closed-form fields: upward
and downward boundary values attenuated along each stream, a direct beam, and no diffuse light from the beam. -/
theorem C64_absorbing_closed_form (hb : Absorbing a) (hacc : Accepted a) (hg : GaussContract E (nHalf a)) (he : EigContract E)
    (hpk : ∀ l < a.tauArr.n, peak a l < 1) (hp : Azimuthless a.bpos) (hq : Azimuthless a.bneg)
    (hr : a.s.r = 1 ∨ a.s.r = a.tauArr.n) (hang : a.NTcor = true → ∀ i < nHalf a, 1 / 10 ^ 8 ≤ |node E a i - a.mu0|)
    (hres : Rescalable a) (J : Junk) :
    ∃ R, pydisort E J a = .ok R ∧ Evaluates a R (absorbed a (node E a) (weight E a)) := by
  have hw := absorbing_wellPosed hb hacc hg he hpk hp hq hr hang
  obtain ⟨R, h⟩ := pydisort_isOk hw J
  have hU : IsModes a R (absMode a (node E a)) := C66_code_returns_the_solution h hw hres (rho := fun _ _ _ => 0)
    (fun m _ M hM => by rw [hb.surface] at hM; simp at hM) (fun m _ => absMode_isSolution hb hg _ m)
  have hnt : R.nt = none := by
    obtain ⟨_, O, r, _, _, _, _, _, _, hn⟩ := pydisort_ok h
    refine hn fun hgate => ?_
    obtain ⟨k, hk, hpos⟩ := hgate.2.2.2.2.2
    rw [hb.albedo k (by rw [← hacc.omegaLen]; exact hk)] at hpos
    exact lt_irrefl _ hpos
  have hF : 0 < nFourier a := by
    unfold nFourier
    split_ifs with hf
    · exact one_pos
    · have := hacc.modes (by simpa using hf)
      omega
  refine ⟨R, h, ?_⟩
  have key : fieldsOf E a R (absMode a (node E a)) = absorbed a (node E a) (weight E a) := by
    unfold fieldsOf absorbed
    simp only [Fields.mk.injEq]
    refine ⟨rfl, ?_, ?_, trivial, ?_⟩
    · funext t
      unfold hemiFlux
      refine congrArg _ (sum_congr rfl fun i hi => ?_)
      unfold absMode
      beta_reduce
      rw [if_pos (mem_range.1 hi)]
    · funext t
      have hl : layOf a t < a.tauArr.n := by
        unfold layOf
        split_ifs with hh
        · exact hh.choose_spec.1
        · exact hacc.layers
      rw [absorbing_tauStar hb.toClear hl, sub_self, add_zero]
      unfold hemiFlux
      refine congrArg _ (sum_congr rfl fun i hi => ?_)
      unfold absMode
      beta_reduce
      rw [if_neg (by omega), Nat.add_sub_cancel_left]
    · funext t ph i
      unfold ntVal
      rw [hnt]
      rw [sum_eq_single_of_mem 0 (mem_range.2 hF)]
      · unfold absMode; simp
      · intro m _ hm
        unfold absMode
        simp only [bcVal_mode hp hm, bcVal_mode hq hm, zero_mul, ite_self]
  rw [← key]
  exact evaluates h hres hU

/-- **C64, reflecting surface.** In a non-scattering, non-emitting atmosphere over any passive surface the computed intensity is, mode by mode,
the attenuated boundary value going down and, going up, the attenuated sum of the boundary value and the light reflected once. -/
theorem C64_over_surface {J : Junk} {R : Solved} (h : pydisort E J a = .ok R) (hb : Clear a) (hw : WellPosed E a) (hres : Rescalable a)
    {rho : ℕ → ℝ → ℝ → ℝ} (hrho : ∀ m < nFourier a, ∀ M, a.bdrf[m]? = some M → Represents M (rho m)) :
    IsModes a R (fun m => clearMode a (node E a) (weight E a) (rho m) m) :=
  C66_code_returns_the_solution h hw hres hrho (fun m _ => clearMode_isSolution hb hw.gauss _ m)

/-- **C64, beam.** If a beam is the only source, there is no diffuse light at all. -/
theorem C64_beam_stays_direct (hb : Absorbing a) (hp : ∀ i, bcVal a.bpos 0 i = 0) (hq : ∀ i, bcVal a.bneg 0 i = 0) (mu w : Vec)
    (t : ℝ) : (absorbed a mu w).u0 t = 0 ∧ (absorbed a mu w).up t = 0 ∧ (absorbed a mu w).diffuse t = 0
      ∧ (∀ ph, (absorbed a mu w).u t ph = 0) ∧ (absorbed a mu w).direct t = a.I0 * a.mu0 * Real.exp (-t / a.mu0) := by
  have := hb
  simp [absorbed, hp, hq, funext_iff]

/-- An absorbing atmosphere of two layers with a beam and boundary intensities, with `2 n` streams. -/
noncomputable def demoBlack (n : ℕ) : Args :=
  { demo n 1 with
    omega := ⟨2, fun _ => 0⟩
    s := ⟨1, 0, fun _ _ => 0⟩
    bdrf := [] }

/-- The hypotheses are met, for every number of streams. -/
example {n : ℕ} (hn : 0 < n) : Absorbing (demoBlack n) ∧ Accepted (demoBlack n) ∧ GaussContract refExt (nHalf (demoBlack n))
    ∧ EigContract refExt ∧ (∀ l < (demoBlack n).tauArr.n, peak (demoBlack n) l < 1) ∧ Azimuthless (demoBlack n).bpos
    ∧ Azimuthless (demoBlack n).bneg ∧ ((demoBlack n).s.r = 1 ∨ (demoBlack n).s.r = (demoBlack n).tauArr.n)
    ∧ (demoBlack n).NTcor = false ∧ Rescalable (demoBlack n) := by
  have h := demo_accepted (n := n) hn one_pos le_rfl
  refine ⟨⟨⟨fun _ _ => rfl, fun _ _ j hj => absurd hj (by simp [demoBlack])⟩, rfl⟩,
    { h with omega := ?_, sourceRows := ?_ }, ?_, refExt_eig, ?_, trivial, trivial, Or.inl rfl, rfl, Or.inl (Or.inl one_pos)⟩
  · intro k hk; simp [demoBlack]
  · exact Or.inl fun _ _ j hj => absurd hj (by simp [demoBlack])
  · rw [show nHalf (demoBlack n) = n from demo_nHalf 1]; exact refExt_gauss hn
  · intro l hl
    rw [show peak (demoBlack n) l = 1 / 8 from demo_peak (n := n) (x := 1) hl]; norm_num

/-- The same atmosphere over a Lambertian surface of albedo `1/3`, given as a number. -/
noncomputable def demoClear (n : ℕ) : Args := { demoBlack n with bdrf := [.scalar (1 / 3)] }

theorem demoClear_wellPosed {n : ℕ} (hn : 0 < n) : WellPosed refExt (demoClear n) := by
  have h := demo_accepted (n := n) hn one_pos le_rfl
  have hh : nHalf (demoClear n) = n := demo_nHalf 1
  have hg : GaussContract refExt (nHalf (demoClear n)) := by rw [hh]; exact refExt_gauss hn
  have hb : Clear (demoClear n) := ⟨fun _ _ => rfl, fun _ _ j hj => absurd hj (by simp [demoClear, demoBlack])⟩
  have hacc : Accepted (demoClear n) := { h with
    omega := by intro k hk; simp [demoClear, demoBlack]
    sourceRows := Or.inl fun _ _ j hj => absurd hj (by simp [demoClear, demoBlack]) }
  exact clear_wellPosed hb hacc hg refExt_eig
    (fun l hl => by rw [show peak (demoClear n) l = 1 / 8 from demo_peak (n := n) (x := 1) hl]; norm_num) trivial trivial (Or.inl rfl) (Or.inr (Nat.le_of_ble_eq_true rfl))
    (fun hc => by simp [demoClear, demoBlack, demo] at hc) (passive_lambertian hg (by rw [hh]; exact hn) (c := 1 / 3) (by norm_num) rfl)

theorem demoClear_call {n : ℕ} (hn : 0 < n) (J : Junk) : ∃ R, pydisort refExt J (demoClear n) = .ok R ∧ WellPosed refExt (demoClear n) := by
  obtain ⟨R, hR⟩ := pydisort_isOk (demoClear_wellPosed hn) J
  exact ⟨R, hR, demoClear_wellPosed hn⟩

/-- The hypotheses of `C64_over_surface` are met, for every number of streams. -/
example {n : ℕ} (hn : 0 < n) (J : Junk) : ∃ R, pydisort refExt J (demoClear n) = .ok R ∧ Clear (demoClear n) ∧ WellPosed refExt (demoClear n)
    ∧ Rescalable (demoClear n) ∧ ∀ m < nFourier (demoClear n), ∀ M, (demoClear n).bdrf[m]? = some M → Represents M (fun _ _ => 1 / 3) := by
  obtain ⟨R, hR, hw⟩ := demoClear_call hn J
  refine ⟨R, hR, ⟨fun _ _ => rfl, fun _ _ j hj => absurd hj (by simp [demoClear, demoBlack])⟩, hw, Or.inl (Or.inl one_pos), fun m _ M hM => ?_⟩
  rcases m with _ | m
  · simp [demoClear] at hM; subst hM; exact fun _ _ => by norm_num
  · simp [demoClear] at hM

end
end Pydisort

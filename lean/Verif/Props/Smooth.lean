import Verif.Spec.Smooth
import Verif.Props.FewerModes
import Verif.Props.Absorbing
import Verif.Props.Linear
import Verif.Props.Corrections
import Verif.WitnessIso

/-!
# C141: how finely the light depends on azimuth
-/

namespace Pydisort
open Finset Spec

variable {E : Ext} {J : Junk} {a : Args} {R : Solved} {M : ℕ}

theorem beamSource_smooth (h : SmoothTo a M) {m l : ℕ} (hm : M ≤ m) (hl : l < a.tauArr.n) (x : ℝ) : beamSource a m l x = 0 := by
  classical
  unfold Spec.beamSource
  split_ifs with hs
  · rcases h with h | ⟨-, h⟩
    · unfold beamX
      rw [h]
      ring
    · obtain ⟨k, hk, hk', hp⟩ := hs
      have : omegaStar a l * legStar a l k = 0 := by
        rcases h l hl k (hm.trans hk) hk' with e | e
        · unfold omegaStar
          rw [e]
          ring
        · unfold legStar
          rw [e, sub_self, zero_div, mul_zero]
      rw [show omegaStar a l / 2 * ((2 * (k : ℝ) + 1) * legStar a l k) = omegaStar a l * legStar a l k * ((2 * (k : ℝ) + 1) / 2) by ring, this, zero_mul, abs_zero] at hp
      norm_num at hp
  · rfl

theorem zero_solves_smooth (h : SmoothTo a M) (hM : 0 < M) {m : ℕ} (hm : M ≤ m) (hbp : Azimuthless a.bpos) (hbn : Azimuthless a.bneg) (mu w : Vec)
    (rho : ℝ → ℝ → ℝ) : IsSolution a mu w rho m (fun _ _ => 0) := by
  have hm0 : m ≠ 0 := by omega
  refine ⟨fun i _ => continuousOn_const, fun l hl t _ _ i _ => ⟨0, hasDerivAt_const _ _, ?_⟩, fun i _ => (bcVal_mode hbn hm0 i).symm, fun i _ => ?_⟩
  · unfold rteUser rteRHS
    rw [beamSource_smooth h hm hl, if_neg hm0]
    simp
  · rw [bcVal_mode hbp hm0]
    split_ifs with hb
    · unfold reflected
      rcases h with h | ⟨h, -⟩
      · rw [h]; simp
      · omega
    · simp

/-- **C141.** The Fourier modes from `M` on vanish. -/
theorem C141_modes_vanish (hw : WellPosed E a) (hr : Rescalable a) (hM : 0 < M) (hs : SmoothTo a M) (h : pydisort E J a = .ok R) {U : ℕ → ℝ → ℕ → ℝ} (hU : IsModes a R U) :
    ∀ m, M ≤ m → m < nFourier a → ∀ t, 0 ≤ t → t ≤ bottom a → ∀ i < 2 * nHalf a, U m t i = 0 := by
  intro m hm hmF t h0 h1 i hi
  obtain ⟨rho, hrho⟩ := surface_exists hw.surface
  exact solution_unique hw.accepted hw.gauss hw.dissipates hw.surface hmF (hrho m hmF)
    (modes_isSolution h hw.sound hr hw.bottomBC hw.topBC hrho hU hmF) (zero_solves_smooth hs hM hm hw.bottomBC hw.topBC _ _ _) t h0 h1 i hi

/-- **C141.** Without a beam, or if all scattering is isotropic and the surface Lambertian, the intensity is the same at all azimuths: `u` returns the values of `u0`. -/
theorem C141_no_azimuth (hw : WellPosed E a) (hr : Rescalable a) (hs : SmoothTo a 1) (ho : a.onlyFlux = false) (hc : ¬ Corrected a) (J : Junk) :
    ∃ R, pydisort E J a = .ok R ∧ ∀ tau phi, InRange a tau → ∃ (A : A3 ℝ) (B : A2 ℝ), R.u tau phi false = .ok A ∧ R.u0 tau false = .ok B ∧
      A.d0 = B.r ∧ A.d1 = B.c ∧ A.d2 = phi.n ∧ ∀ i < A.d0, ∀ t < A.d1, ∀ p < A.d2, A.get i t p = B.get i t := by
  obtain ⟨R, h⟩ := pydisort_isOk hw J
  obtain ⟨U, hU, -⟩ := C02_modes_solve_transfer_equation h hw.sound hr
  have hF := nFourier_pos h hw.sound
  refine ⟨R, h, fun tau phi ht => ?_⟩
  obtain ⟨A, a1, a2, a3, a4, a5⟩ := hU.u tau phi ht
  obtain ⟨B, b1, b2, b3, b4⟩ := hU.u0 tau ht
  refine ⟨A, B, (C42_inactive h ho hc tau phi false).trans a1, b1, a2.trans b2.symm, a3.trans b3.symm, a4, fun i hi t htt p hp => ?_⟩
  rw [a2] at hi; rw [a3] at htt; rw [a4] at hp
  rw [a5 i hi t htt p hp, b4 i hi t htt]
  beta_reduce
  rw [sum_eq_single 0]
  · simp
  · intro m hm hm0
    rw [C141_modes_vanish hw hr one_pos hs h hU m (by omega) (mem_range.1 hm) _ (ht t htt).1 (ht t htt).2 i hi, zero_mul]
  · exact fun hn => absurd (mem_range.2 hF) hn

/-- **C141.** More than `M` Fourier modes are of no use: the call with `M` modes returns the same intensities, also with the corrections. -/
theorem C141_enough_modes (hw : WellPosed E a) (hr : Rescalable a) (hM : 0 < M) (hs : SmoothTo a M) (ho : a.onlyFlux = false) (hMF : M ≤ nFourier a) (J J' : Junk) :
    ∃ R R', pydisort E J a = .ok R ∧ pydisort E J' { a with NFourier := some M } = .ok R' ∧
      ∀ tau phi, InRange a tau → SameOutcome A3.Same (R.u tau phi false) (R'.u tau phi false) := by
  obtain ⟨R, h⟩ := pydisort_isOk hw J
  obtain ⟨R', U, h', hU, -, key⟩ := C139_fewer_modes h ho hM hMF J'
  refine ⟨R, R', h, h', fun tau phi ht => ?_⟩
  have k := key tau phi ht
  revert k
  rcases R.u tau phi false with e | x <;> rcases R'.u tau phi false with e' | x' <;> intro k
  · exact k
  · exact k
  · exact k
  obtain ⟨e0, e1, e2, d0, d1, -, hd⟩ := k
  refine ⟨e0, e1, e2, fun i hi t htt p hp => sub_eq_zero.1 ((hd i hi t htt p hp).trans (sum_eq_zero fun m hm => ?_))⟩
  rw [mem_Ico] at hm
  rw [d0] at hi; rw [d1] at htt
  rw [C141_modes_vanish hw hr hM hs h hU m hm.1 hm.2 _ (ht t htt).1 (ht t htt).2 i hi, zero_mul]

/-- The hypotheses are met with a beam, any number of streams, layers and modes, and forward peaks that differ from layer to layer. -/
example {n L F : ℕ} (hn : 0 < n) (hL : 0 < L) (hF : 0 < F) (hFn : F ≤ n) : ∃ x, WellPosed refExt (demoIso n L F x) ∧ Rescalable (demoIso n L F x) ∧ SmoothTo (demoIso n L F x) 1 ∧
    (demoIso n L F x).onlyFlux = false ∧ ¬ Corrected (demoIso n L F x) ∧ nFourier (demoIso n L F x) = F := by
  obtain ⟨x, hx, -⟩ := demoIso_wellPosed hn hL hF hFn
  refine ⟨x, hx, Or.inl (Or.inl one_pos), Or.inr ⟨by simp [demoIso], fun l hl k hk _ => Or.inr ?_⟩, rfl, fun h => ?_, by simp [nFourier, demoIso]⟩
  · change l < L at hl
    unfold leg peak
    rw [if_neg (by omega)]
    simp [demoIso, hl, show k ≠ 0 by omega]
  · exact absurd h.1 (by simp [demoIso])

/-- They are also met without a beam and with any phase function. -/
example {n : ℕ} (hn : 0 < n) : WellPosed refExt (demoDark n) ∧ Rescalable (demoDark n) ∧ SmoothTo (demoDark n) 1 ∧ (demoDark n).onlyFlux = false ∧ ¬ Corrected (demoDark n) :=
  ⟨demoDark_wellPosed hn, Or.inl (Or.inr (Or.inl one_pos)), Or.inl rfl, rfl, fun h => absurd h.2.2.1 (lt_irrefl _)⟩

end Pydisort

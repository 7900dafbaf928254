import Verif.AgreeLemmas
import Verif.Props.Linear

/-!
# C80: arguments that cannot matter do not matter

Specification used: `Spec.SamePhysics`, `Spec.Evaluates`, `Spec.Fields`, `Spec.WellPosed`.
-/

namespace Pydisort
open Finset Spec

variable {E : Ext} {a b : Args} {M : ℕ}

theorem fieldsOf_same (hacc : Accepted a) (hacc' : Accepted b) (hs : SamePhysics M a b) {R R' : Solved} (V : ℕ → ℝ → ℕ → ℝ) {t : ℝ}
    (h0 : 0 ≤ t) (h1 : t ≤ bottom a) : (fieldsOf E b R' V).u0 t = (fieldsOf E a R V).u0 t ∧ (fieldsOf E b R' V).up t = (fieldsOf E a R V).up t ∧
      (fieldsOf E b R' V).diffuse t = (fieldsOf E a R V).diffuse t ∧ (fieldsOf E b R' V).direct t = (fieldsOf E a R V).direct t := by
  have hn : node E b = node E a := by funext i; unfold node; rw [hs.streams]
  have hwt : weight E b = weight E a := by funext i; unfold weight; rw [hs.streams]
  have hh : ∀ v, hemiFlux b (node E b) (weight E b) v = hemiFlux a (node E a) (weight E a) v := by
    intro v; unfold hemiFlux; rw [hn, hwt, hs.streams]
  have hl := layOf_spec hacc h0 h1
  have hl' := layOf_spec hacc' h0 (by rw [hs.bottom' hacc.layers]; exact h1)
  rw [hs.layers] at hl'
  have ht : tauStar b (layOf b t) t = tauStar a (layOf a t) t := by
    rw [hs.tauStar' hl'.1]
    exact tauStar_layers hacc hl'.1 hl.1 ((hs.inLayer' hl'.1 t).1 hl'.2) hl.2
  refine ⟨rfl, hh _, ?_, ?_⟩
  · change hemiFlux b _ _ _ + (b.I0 * b.mu0 * Real.exp (-tauStar b _ t / b.mu0) - b.I0 * b.mu0 * Real.exp (-t / b.mu0)) = _
    rw [hh, ht, hs.beam, hs.streams]
    by_cases hI : a.I0 = 0
    · change _ = hemiFlux a _ _ _ + (a.I0 * a.mu0 * _ - a.I0 * a.mu0 * _)
      rw [hI]; simp
    · rw [(hs.beamDir hI).1]; rfl
  · change b.I0 * b.mu0 * Real.exp (-t / b.mu0) = a.I0 * a.mu0 * Real.exp (-t / a.mu0)
    rw [hs.beam]
    by_cases hI : a.I0 = 0
    · rw [hI]; simp
    · rw [(hs.beamDir hI).1]

/-- **C80.** Two well-posed calls that describe the same physical problem (see `SamePhysics` for what may differ) return the same mean
intensity and the same fluxes at every depth and, without corrections and with equally many Fourier modes, the same intensity. -/
theorem C80_same_physics_same_results (hw : WellPosed E a) (hw' : WellPosed E b) (hr : Rescalable a) (hr' : Rescalable b) (hM : 0 < M)
    (hs : SamePhysics M a b) (J J' : Junk) :
    ∃ R R' F F', pydisort E J a = .ok R ∧ pydisort E J' b = .ok R' ∧ Evaluates a R F ∧ Evaluates b R' F' ∧
      ∀ t, 0 ≤ t → t ≤ bottom a → F'.u0 t = F.u0 t ∧ F'.up t = F.up t ∧ F'.diffuse t = F.diffuse t ∧ F'.direct t = F.direct t
        ∧ (a.NTcor = false → b.NTcor = false → nFourier a ≤ M → nFourier b = nFourier a → F'.u t = F.u t) := by
  have hacc := hw.accepted
  obtain ⟨R, h⟩ := pydisort_isOk hw J
  obtain ⟨R', h'⟩ := pydisort_isOk hw' J'
  obtain ⟨U, hU, _⟩ := C02_modes_solve_transfer_equation h hw.sound hr
  obtain ⟨U', hU', _⟩ := C02_modes_solve_transfer_equation h' hw'.sound hr'
  obtain ⟨rho, hrho⟩ := surface_exists hw.surface
  obtain ⟨rho', hrho'⟩ := surface_exists hw'.surface
  have hF := nFourier_pos h hw.sound
  have hn : node E b = node E a := by funext i; unfold node; rw [hs.streams]
  have hwt : weight E b = weight E a := by funext i; unfold weight; rw [hs.streams]
  have hsol := fun m (hm : m < nFourier a) => modes_isSolution h hw.sound hr hw.bottomBC hw.topBC hrho hU hm
  have hsol' := fun m (hm : m < nFourier b) => modes_isSolution h' hw'.sound hr' hw'.bottomBC hw'.topBC hrho' hU' hm
  have hnt : ∀ {J : Junk} {c : Args} {Q : Solved}, pydisort E J c = .ok Q → c.NTcor = false → Q.nt = none := by
    intro J c Q hc hnt
    obtain ⟨_, O, r, _, _, _, _, _, _, hn⟩ := pydisort_ok hc
    exact hn fun hg => absurd (hg.1.symm.trans hnt) (by simp)
  let rr : ℕ → ℝ → ℝ → ℝ := fun m => if m < M ∧ m < nFourier a then rho m else rho' m
  have hrr : ∀ m < nFourier b, ∀ B, b.bdrf[m]? = some B → Represents B (rr m) := by
    intro m hm B hB
    by_cases hc : m < M ∧ m < nFourier a
    · have : rr m = rho m := if_pos hc
      rw [this]
      rw [hs.surface m hc.1] at hB
      exact hrho m hc.2 B hB
    · have : rr m = rho' m := if_neg hc
      rw [this]
      exact hrho' m hm B hB
  by_cases hI : a.I0 = 0
  · have hI' : b.I0 = 0 := by rw [hs.beam, hI]
    let W : ℕ → ℝ → ℕ → ℝ := fun m => if m = 0 then U 0 else fun _ _ => 0
    have hWa : IsModes a R W := by
      refine C66_code_returns_the_solution h hw hr hrho fun m hm => ?_
      by_cases h0 : m = 0
      · subst h0; exact hsol 0 hm
      · have : W m = fun _ _ => 0 := if_neg h0
        rw [this]
        exact dark_isSolution hw.bottomBC hw.topBC hI h0
    have hWb : IsModes b R' W := by
      refine C66_code_returns_the_solution h' hw' hr' hrr fun m hm => ?_
      by_cases h0 : m = 0
      · subst h0
        have : rr 0 = rho 0 := if_pos ⟨hM, hF⟩
        rw [this, hn, hwt]
        exact hs.isSolution hacc.layers hM (hsol 0 hF)
      · have : W m = fun _ _ => 0 := if_neg h0
        rw [this]
        exact dark_isSolution hw'.bottomBC hw'.topBC hI' h0
    refine ⟨R, R', _, _, h, h', evaluates h hr hWa, evaluates h' hr' hWb, fun t h0 h1 => ?_⟩
    obtain ⟨e1, e2, e3, e4⟩ := fieldsOf_same (E := E) (R := R) (R' := R') hacc hw'.accepted hs W h0 h1
    refine ⟨e1, e2, e3, e4, fun g1 g2 g3 g4 => ?_⟩
    funext ph i
    change (∑ m ∈ range (nFourier b), W m t i * Real.cos (m * (b.phi0 - ph))) + ntVal R' t ph i
      = (∑ m ∈ range (nFourier a), W m t i * Real.cos (m * (a.phi0 - ph))) + ntVal R t ph i
    unfold ntVal
    rw [hnt h g1, hnt h' g2, g4]
    congr 1
    refine sum_congr rfl fun m _ => ?_
    by_cases h0 : m = 0
    · subst h0; simp
    · have : W m = fun _ _ => 0 := if_neg h0
      rw [this]; simp
  · let W : ℕ → ℝ → ℕ → ℝ := fun m => if m < M ∧ m < nFourier a then U m else U' m
    have hWb : IsModes b R' W := by
      refine C66_code_returns_the_solution h' hw' hr' hrr fun m hm => ?_
      by_cases hc : m < M ∧ m < nFourier a
      · have e1 : rr m = rho m := if_pos hc
        have e2 : W m = U m := if_pos hc
        rw [e1, e2, hn, hwt]
        exact hs.isSolution hacc.layers hc.1 (hsol m hc.2)
      · have e1 : rr m = rho' m := if_neg hc
        have e2 : W m = U' m := if_neg hc
        rw [e1, e2]
        exact hsol' m hm
    have e0 : W 0 = U 0 := if_pos ⟨hM, hF⟩
    refine ⟨R, R', _, _, h, h', evaluates h hr hU, evaluates h' hr' hWb, fun t h0 h1 => ?_⟩
    obtain ⟨e1, e2, e3, e4⟩ := fieldsOf_same (E := E) (R := R) (R' := R') hacc hw'.accepted hs W h0 h1
    have key : (fieldsOf E a R W).u0 = (fieldsOf E a R U).u0 ∧ (fieldsOf E a R W).up = (fieldsOf E a R U).up ∧
        (fieldsOf E a R W).diffuse = (fieldsOf E a R U).diffuse := by
      unfold fieldsOf
      simp only [e0, and_self]
    rw [← key.1, ← key.2.1, ← key.2.2]
    refine ⟨e1, e2, e3, e4, fun g1 g2 g3 g4 => ?_⟩
    funext ph i
    change (∑ m ∈ range (nFourier b), W m t i * Real.cos (m * (b.phi0 - ph))) + ntVal R' t ph i
      = (∑ m ∈ range (nFourier a), U m t i * Real.cos (m * (a.phi0 - ph))) + ntVal R t ph i
    unfold ntVal
    rw [hnt h g1, hnt h' g2, g4, (hs.beamDir hI).2]
    congr 1
    refine sum_congr rfl fun m hm => ?_
    have : W m = U m := if_pos ⟨lt_of_lt_of_le (mem_range.1 hm) g3, mem_range.1 hm⟩
    rw [this]

/-- A problem without beam whose first layer does not scatter; the parameters are data that cannot matter. -/
noncomputable def demoLoose (n : ℕ) (mu0 phi0 f g : ℝ) (bp : BCv) : Args :=
  { demoDark n with
    omega := ⟨2, fun k => if k = 0 then 0 else 3 / 4⟩
    mu0 := mu0
    phi0 := phi0
    fArr := ⟨2, fun k => if k = 0 then f else 1 / 8⟩
    leg := ⟨2, 2 * n, fun l k => if l = 0 ∨ n ≤ k then g else (1 / 2) ^ k⟩
    bpos := bp }

theorem demoLoose_wellPosed {n : ℕ} (hn : 0 < n) (mu0 phi0 : ℝ) {f g : ℝ} (hf : 0 ≤ f ∧ f < 1) (hg' : -1 < g ∧ g < 1) {bp : BCv}
    (hb : Azimuthless bp) (hb' : BCShape n bp) : WellPosed refExt (demoLoose n mu0 phi0 f g bp) := by
  have hh : nHalf (demoLoose n mu0 phi0 f g bp) = n := demo_nHalf 1
  have hg : GaussContract refExt (nHalf (demoLoose n mu0 phi0 f g bp)) := by rw [hh]; exact refExt_gauss hn
  have hp1 : ∀ k : ℕ, 1 ≤ k → ((1 / 2 : ℝ)) ^ k < 1 := fun k hk => pow_lt_one₀ (by norm_num) (by norm_num) (by omega)
  have hp0 : ∀ k : ℕ, (0 : ℝ) < (1 / 2) ^ k := fun k => by positivity
  have hacc : Accepted (demoLoose n mu0 phi0 f g bp) :=
    { demoDark_accepted hn with
      omega := by intro k _; simp only [demoLoose]; split_ifs <;> norm_num
      legVal := by
        intro l _ k _ hk
        simp only [demoLoose]
        split_ifs
        · exact hg'
        · exact ⟨by linarith [hp0 k], hp1 k hk⟩
      peakLen := Or.inr rfl
      peak := by intro k _; simp only [demoLoose]; split_ifs
                 · exact ⟨hf.1, hf.2.le⟩
                 · norm_num
      beamDir := fun h => absurd h (lt_irrefl _)
      bottom := by rw [hh]; exact hb' }
  have hpk : ∀ l < (demoLoose n mu0 phi0 f g bp).tauArr.n, peak (demoLoose n mu0 phi0 f g bp) l < 1 := by
    intro l hl
    have hl' : l < 2 := hl
    unfold peak
    rw [if_pos (show l < (demoLoose n mu0 phi0 f g bp).fArr.n from hl')]
    simp only [demoLoose]
    split_ifs
    · exact hf.2
    · norm_num
  refine ⟨hacc, hg, refExt_eig, hpk, ?_, fun h => absurd h (lt_irrefl _), ?_, hb, trivial, Or.inr rfl, Or.inr (Nat.le_of_ble_eq_true rfl), by simp [demoLoose, demoDark, demo]⟩
  · refine dissipates_of_nLeg_le hg ?_ hacc.omega (fun l hl => ⟨(Args.peak_range hacc l).1, hpk l hl⟩) ?_
    · rw [hh]; simp [nLeg, demoLoose, demoDark, demo]
    · intro l _ k _
      unfold leg
      split_ifs with h
      · exact le_rfl
      · simp only [demoLoose]
        split_ifs
        · exact hg'.2.le
        · exact (hp1 k (by omega)).le
  · exact passive_lambertian hg (by rw [hh]; exact hn) (by norm_num) rfl

/-- The hypotheses are met, for every number of streams, by two calls with different phase functions and forward peaks in the layer that does
not scatter, different Legendre coefficients beyond `NLeg`, different `mu0` and `phi0`, and the bottom boundary values given as a number or
as a vector. -/
example {n : ℕ} (hn : 0 < n) : ∃ a b, nHalf a = n ∧ WellPosed refExt a ∧ WellPosed refExt b ∧ Rescalable a ∧ Rescalable b ∧
    SamePhysics (nFourier a) a b ∧ 0 < nFourier a ∧ nFourier b = nFourier a ∧ a.NTcor = false ∧ b.NTcor = false
    ∧ a.mu0 ≠ b.mu0 ∧ a.phi0 ≠ b.phi0 ∧ a.fArr.get 0 ≠ b.fArr.get 0 ∧ a.leg.get 0 1 ≠ b.leg.get 0 1 ∧ a.bpos ≠ b.bpos := by
  have hp : (0 : ℝ) < 1 := one_pos
  refine ⟨demoLoose n 1 1 0 0 (.scalar 1), demoLoose n (1 / 2) 2 (1 / 4) (1 / 3) (.vec ⟨n, fun _ => 1⟩), demo_nHalf 1,
    demoLoose_wellPosed hn _ _ (by norm_num) (by norm_num) trivial trivial,
    demoLoose_wellPosed hn _ _ (by norm_num) (by norm_num) trivial (Or.inr (Or.inr rfl)),
    Or.inl (Or.inr (Or.inl hp)), Or.inl (Or.inr (Or.inl ⟨0, hn, hp⟩)), ?_, ?_, rfl, rfl, rfl, ?_, ?_, ?_, ?_, ?_⟩
  · have hsc : ∀ l < 2, (demoLoose n 1 1 0 0 (.scalar 1)).omega.get l ≠ 0 → l = 1 := by
      intro l hl h
      interval_cases l
      · simp [demoLoose] at h
      · rfl
    refine ⟨rfl, rfl, fun _ _ => rfl, fun _ _ => rfl, fun l hl h0 => ?_, fun l hl h0 k => ?_, rfl, fun h => absurd rfl h, fun m _ i hi => ?_,
      fun _ _ _ _ => rfl, fun _ _ _ _ => rfl, fun _ _ => rfl⟩
    · obtain rfl := hsc l hl h0
      simp [peak, demoLoose]
    · obtain rfl := hsc l hl h0
      have e : ∀ mu0 phi0 f g bp, nLeg (demoLoose n mu0 phi0 f g bp) = n := fun _ _ _ _ _ => by simp [nLeg, demoLoose, demoDark, demo]
      unfold usedLeg
      rw [e, e]
      split_ifs with hk
      · unfold leg
        simp only [demoLoose]
        rw [if_neg (by omega : ¬ ((1 : ℕ) = 0 ∨ n ≤ k)), if_neg (by omega : ¬ ((1 : ℕ) = 0 ∨ n ≤ k))]
      · simp [peak, demoLoose]
    · have hi' : i < n := by rw [← demo_nHalf (n := n) 1]; exact hi
      simp only [demoLoose, bcVal, hi', if_true]
      split_ifs <;> rfl
  · simp [nFourier, demoLoose, demoDark, demo]; exact hn
  · norm_num [demoLoose]
  · norm_num [demoLoose]
  · norm_num [demoLoose]
  · norm_num [demoLoose]
  · simp [demoLoose]

end Pydisort

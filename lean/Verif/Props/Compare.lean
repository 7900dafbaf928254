import Verif.DiffLemmas
import Verif.Props.Azimuth

/-!
# C82, C83: comparing two sets of sources

Specification used: `Spec.under`, `Spec.Dimmer`, `Spec.WithinBlackbody`, `Spec.NonnegPhase`, `Spec.FairBDRF`, `Spec.FairSurface`,
`Spec.NonnegScattering`, `Spec.Evaluates`.
-/

namespace Pydisort
open Finset Spec

variable {E : Ext} {a : Args} {S₁ S₂ : Sources}

/-- **C82.** With a phase function and a BDRF that are nowhere negative, brighter sources give at least as much light at every depth, in every
stream and at every azimuth. -/
theorem C82_intensity_monotone {J₁ J₂ : Junk} {R₁ R₂ : Solved} (h₁ : pydisort E J₁ (under a S₁) = .ok R₁)
    (h₂ : pydisort E J₂ (under a S₂) = .ok R₂) (hS₁ : Sound E (under a S₁)) (hS₂ : Sound E (under a S₂)) (hr₁ : Rescalable (under a S₁))
    (hr₂ : Rescalable (under a S₂)) (hf : a.onlyFlux = false) (hnt : a.NTcor = false) (hN : nFourier a = nLeg a) (hn : NothingNeglected a)
    (hp₁ : Azimuthless S₁.bpos) (hn₁ : Azimuthless S₁.bneg) (hp₂ : Azimuthless S₂.bpos) (hn₂ : Azimuthless S₂.bneg)
    (hB : a.bdrf.length ≤ nFourier a) {rho : ℕ → ℝ → ℝ → ℝ} (hrho : SurfaceIs a rho) (hp : NonnegPhase a)
    (hs : FairBDRF a (node E a) (weight E a) rho) (hd : Dimmer a S₁ S₂) {F₁ F₂ : Fields} (hF₁ : Evaluates (under a S₁) R₁ F₁)
    (hF₂ : Evaluates (under a S₂) R₂ F₂) :
    ∀ t, 0 ≤ t → t ≤ bottom a → ∀ ph, ∀ i < 2 * nHalf a, F₁.u t ph i ≤ F₂.u t ph i := by
  intro t h0 h1 ph i hi
  obtain ⟨U₁, hU₁, _⟩ := C02_modes_solve_transfer_equation h₁ hS₁ hr₁
  obtain ⟨U₂, hU₂, _⟩ := C02_modes_solve_transfer_equation h₂ hS₂ hr₂
  have hacc₁ := (pydisort_ok h₁).1
  have hacc₂ := (pydisort_ok h₂).1
  have e₁ := evaluates_series h₁ hf hnt hU₁ hF₁ h0 h1 hi ph
  have e₂ := evaluates_series h₂ hf hnt hU₂ hF₂ h0 h1 hi ph
  have hsol : ∀ m < nFourier a, IsSolution (under a (lessSources a S₁ S₂)) (node E a) (weight E a) (rho m) m
      (fun t i => U₂ m t i - U₁ m t i) := fun m hm => isSolution_less hp₁ hn₁ hp₂ hn₂
    (modes_isSolution h₁ hS₁ hr₁ hp₁ hn₁ hrho hU₁ hm) (modes_isSolution h₂ hS₂ hr₂ hp₂ hn₂ hrho hU₂ hm)
  have key := series_nonneg (E := E) (a := under a (lessSources a S₁ S₂)) (accepted_less hacc₂ hacc₁.beam hd.beam) hS₂.gauss hS₂.peak hN hn
    trivial trivial hB (rho := rho) hp ⟨hs.nonneg, hs.beam, hs.bounded⟩ ?_ hsol t h0 h1 ph i hi
  · rw [e₁, e₂]
    change 0 ≤ ∑ m ∈ range (nFourier a), (U₂ m t i - U₁ m t i) * Real.cos (m * (a.phi0 - ph)) at key
    simp only [sub_mul, sum_sub_distrib] at key
    exact sub_nonneg.1 key
  · refine ⟨fun l hl t ht => ?_, fun j hj => ?_, fun j hj => ?_⟩
    · rw [source_less (a := a) hl]
      exact sub_nonneg.2 (hd.inner l hl t ht)
    · change 0 ≤ bcVal (.vec ⟨nHalf a, fun i => bcVal S₂.bneg 0 i - bcVal S₁.bneg 0 i⟩) 0 j
      rw [bcVal_vec (n := nHalf a) hj]
      exact sub_nonneg.2 (hd.top j hj)
    · change 0 ≤ bcVal (.vec ⟨nHalf a, fun i => bcVal S₂.bpos 0 i - bcVal S₁.bpos 0 i⟩) 0 j
      rw [bcVal_vec (n := nHalf a) hj]
      exact sub_nonneg.2 (hd.bottom j hj)

/-- The sources `S₂` minus `S₁` are below those of a black body. -/
theorem below_less {mu w : Vec} {rho : ℝ → ℝ → ℝ} {ε : ℝ} (h : WithinBlackbody a mu w rho S₁ S₂ ε) :
    BelowBlackbody (under a (lessSources a S₁ S₂)) mu w rho ε ∧ BelowBlackbody (under a (lessSources a S₂ S₁)) mu w rho ε := by
  refine ⟨⟨sub_eq_zero.2 h.beam.symm, fun l hl t ht => ?_, fun j hj => ?_, fun j hj => ?_⟩,
    ⟨sub_eq_zero.2 h.beam, fun l hl t ht => ?_, fun j hj => ?_, fun j hj => ?_⟩⟩
  · rw [source_less (a := a) hl]
    linarith [(abs_le.1 (h.inner l hl t ht)).1]
  · change bcVal (.vec ⟨nHalf a, fun i => bcVal S₂.bneg 0 i - bcVal S₁.bneg 0 i⟩) 0 j ≤ ε
    rw [bcVal_vec (n := nHalf a) hj]
    linarith [(abs_le.1 (h.top j hj)).1]
  · change bcVal (.vec ⟨nHalf a, fun i => bcVal S₂.bpos 0 i - bcVal S₁.bpos 0 i⟩) 0 j ≤ (1 - reflectance a mu w rho (mu j)) * ε
    rw [bcVal_vec (n := nHalf a) hj]
    linarith [(abs_le.1 (h.bottom j hj)).1]
  · rw [source_less (a := a) hl]
    linarith [(abs_le.1 (h.inner l hl t ht)).2]
  · change bcVal (.vec ⟨nHalf a, fun i => bcVal S₁.bneg 0 i - bcVal S₂.bneg 0 i⟩) 0 j ≤ ε
    rw [bcVal_vec (n := nHalf a) hj]
    linarith [(abs_le.1 (h.top j hj)).2]
  · change bcVal (.vec ⟨nHalf a, fun i => bcVal S₁.bpos 0 i - bcVal S₂.bpos 0 i⟩) 0 j ≤ (1 - reflectance a mu w rho (mu j)) * ε
    rw [bcVal_vec (n := nHalf a) hj]
    linarith [(abs_le.1 (h.bottom j hj)).2]

/-- **C83.** The solution does not amplify changes of the thermal sources. If internal source, illumination from above and emission of the
surface change by at most what a black body of intensity `ε` provides, every intensity (with or without corrections) changes by at most `ε`,
every flux by at most `π ε`. -/
theorem C83_stability (hw₁ : WellPosed E (under a S₁)) (hw₂ : WellPosed E (under a S₂)) (hr₁ : Rescalable (under a S₁))
    (hr₂ : Rescalable (under a S₂)) {rho : ℕ → ℝ → ℝ → ℝ} (hrho : SurfaceIs a rho) (hsf : FairSurface a (node E a) (weight E a) (rho 0))
    (hk : NonnegScattering a (node E a)) {ε : ℝ} (hε : 0 ≤ ε) (hc : WithinBlackbody a (node E a) (weight E a) (rho 0) S₁ S₂ ε)
    (J₁ J₂ : Junk) :
    ∃ R₁ R₂ F₁ F₂, pydisort E J₁ (under a S₁) = .ok R₁ ∧ pydisort E J₂ (under a S₂) = .ok R₂ ∧
      Evaluates (under a S₁) R₁ F₁ ∧ Evaluates (under a S₂) R₂ F₂ ∧
      ∀ t, 0 ≤ t → t ≤ bottom a →
        (∀ i < 2 * nHalf a, |F₁.u0 t i - F₂.u0 t i| ≤ ε ∧ ∀ ph, |F₁.u t ph i - F₂.u t ph i| ≤ ε) ∧
        |F₁.up t - F₂.up t| ≤ Real.pi * ε ∧ |F₁.diffuse t - F₂.diffuse t| ≤ Real.pi * ε ∧ F₁.direct t = F₂.direct t := by
  obtain ⟨R₁, h₁⟩ := pydisort_isOk hw₁ J₁
  obtain ⟨R₂, h₂⟩ := pydisort_isOk hw₂ J₂
  obtain ⟨U₁, hU₁, _⟩ := C02_modes_solve_transfer_equation h₁ hw₁.sound hr₁
  obtain ⟨U₂, hU₂, _⟩ := C02_modes_solve_transfer_equation h₂ hw₂.sound hr₂
  have hF : 0 < nFourier (under a S₁) := nFourier_pos h₁ hw₁.sound
  change 0 < nFourier a at hF
  have hg := hw₁.gauss
  have hsol₁ := fun m (hm : m < nFourier a) => modes_isSolution h₁ hw₁.sound hr₁ hw₁.bottomBC hw₁.topBC hrho hU₁ hm
  have hsol₂ := fun m (hm : m < nFourier a) => modes_isSolution h₂ hw₂.sound hr₂ hw₂.bottomBC hw₂.topBC hrho hU₂ hm
  have hd₁ : ∀ m < nFourier a, IsSolution (under a (lessSources a S₁ S₂)) (node E a) (weight E a) (rho m) m (fun t i => U₂ m t i - U₁ m t i) :=
    fun m hm => isSolution_less hw₁.bottomBC hw₁.topBC hw₂.bottomBC hw₂.topBC (hsol₁ m hm) (hsol₂ m hm)
  have hd₂ : ∀ m < nFourier a, IsSolution (under a (lessSources a S₂ S₁)) (node E a) (weight E a) (rho m) m (fun t i => U₁ m t i - U₂ m t i) :=
    fun m hm => isSolution_less hw₂.bottomBC hw₂.topBC hw₁.bottomBC hw₁.topBC (hsol₂ m hm) (hsol₁ m hm)
  have hb := below_less hc
  have ha₁ := accepted_less hw₂.accepted hw₁.accepted.beam hc.beam.le
  have ha₂ := accepted_less hw₁.accepted hw₂.accepted.beam hc.beam.ge
  have hle₁ := solution_le (E := E) (a := under a (lessSources a S₁ S₂)) ha₁ hg hw₁.peak hk ⟨hsf.nonneg, hsf.beam, hsf.bounded⟩ hε hb.1 (hd₁ 0 hF)
  have hle₂ := solution_le (E := E) (a := under a (lessSources a S₂ S₁)) ha₂ hg hw₁.peak hk ⟨hsf.nonneg, hsf.beam, hsf.bounded⟩ hε hb.2 (hd₂ 0 hF)
  have hmode : ∀ m < nFourier a, m ≠ 0 → ∀ t, 0 ≤ t → t ≤ bottom a → ∀ i < 2 * nHalf a, U₂ m t i - U₁ m t i = 0 := fun m hm h0 =>
    solution_unique (E := E) (a := under a (lessSources a S₁ S₂)) ha₁ hg hw₁.dissipates hw₁.surface hm (hrho m hm) (hd₁ m hm)
      (dark_isSolution (a := under a (lessSources a S₁ S₂)) trivial trivial hb.1.noBeam h0)
  have habs : ∀ t, 0 ≤ t → t ≤ bottom a → ∀ i < 2 * nHalf a, |U₁ 0 t i - U₂ 0 t i| ≤ ε := fun t h0 h1 i hi => by
    rw [abs_le]
    exact ⟨by linarith [hle₁ t h0 h1 i hi], hle₂ t h0 h1 i hi⟩
  have hflux : ∀ v v' : Vec, (∀ i < nHalf a, |v i - v' i| ≤ ε) →
      |hemiFlux a (node E a) (weight E a) v - hemiFlux a (node E a) (weight E a) v'| ≤ Real.pi * ε := by
    intro v v' hv
    have hcst := hemiFlux_const hg (streams_pos hw₁.accepted) ε
    have x1 := hemiFlux_mono (E := E) (a := a) hg (v := v) (v' := fun i => v' i + ε) fun i hi => by linarith [(abs_le.1 (hv i hi)).2]
    have x2 := hemiFlux_mono (E := E) (a := a) hg (v := v') (v' := fun i => v i + ε) fun i hi => by linarith [(abs_le.1 (hv i hi)).1]
    have y1 := hemiFlux_add a (node E a) (weight E a) v' (fun _ => ε)
    have y2 := hemiFlux_add a (node E a) (weight E a) v (fun _ => ε)
    change hemiFlux a (node E a) (weight E a) (fun _ => ε) = Real.pi * ε at hcst
    rw [hcst] at y1 y2
    rw [abs_le]
    exact ⟨by linarith, by linarith⟩
  refine ⟨R₁, R₂, _, _, h₁, h₂, evaluates h₁ hr₁ hU₁, evaluates h₂ hr₂ hU₂, fun t h0 h1 => ⟨fun i hi => ⟨habs t h0 h1 i hi, fun ph => ?_⟩, ?_, ?_, ?_⟩⟩
  · obtain ⟨_, O₁, _, hO₁, _⟩ := pydisort_ok h₁
    obtain ⟨_, O₂, _, hO₂, _⟩ := pydisort_ok h₂
    change |((∑ m ∈ range (nFourier a), U₁ m t i * Real.cos (m * (a.phi0 - ph))) + ntVal R₁ t ph i)
      - ((∑ m ∈ range (nFourier a), U₂ m t i * Real.cos (m * (a.phi0 - ph))) + ntVal R₂ t ph i)| ≤ ε
    rw [ntVal_under h₁ hr₁ hO₁, ntVal_under h₂ hr₂ hO₂, ntUnit_congr (optics_under hO₁ hO₂), hc.beam, add_sub_add_right_eq_sub,
      ← sum_sub_distrib, sum_eq_single_of_mem 0 (mem_range.2 hF)]
    · simpa using habs t h0 h1 i hi
    · intro m hm hm0
      have := hmode m (mem_range.1 hm) hm0 t h0 h1 i hi
      rw [← sub_mul, show U₁ m t i - U₂ m t i = 0 by linarith, zero_mul]
  · exact hflux _ _ fun i hi => habs t h0 h1 i (by omega)
  · change |hemiFlux a (node E a) (weight E a) _ + (S₁.I0 * a.mu0 * Real.exp (-tauStar a (layOf a t) t / a.mu0) - S₁.I0 * a.mu0 * Real.exp (-t / a.mu0))
      - (hemiFlux a (node E a) (weight E a) _ + (S₂.I0 * a.mu0 * Real.exp (-tauStar a (layOf a t) t / a.mu0) - S₂.I0 * a.mu0 * Real.exp (-t / a.mu0)))|
      ≤ Real.pi * ε
    rw [hc.beam, add_sub_add_right_eq_sub]
    exact hflux _ _ fun i hi => habs t h0 h1 (nHalf a + i) (by omega)
  · change S₁.I0 * a.mu0 * Real.exp (-t / a.mu0) = S₂.I0 * a.mu0 * Real.exp (-t / a.mu0)
    rw [hc.beam]

section
variable {n : ℕ}

/-- The hypotheses of C82 are met: with and without the beam, over a surface whose BDRF depends on the azimuth, for every number of streams. -/
example (hn : 0 < n) (J : Junk) : ∃ (x : ℝ) (S₁ S₂ : Sources) (R₁ R₂ : Solved) (F₁ F₂ : Fields),
    pydisort refExt J (under (demoFull n x) S₁) = .ok R₁ ∧ pydisort refExt J (under (demoFull n x) S₂) = .ok R₂
    ∧ (∀ S, S = S₁ ∨ S = S₂ → Sound refExt (under (demoFull n x) S) ∧ Rescalable (under (demoFull n x) S) ∧ Azimuthless S.bpos ∧ Azimuthless S.bneg)
    ∧ (demoFull n x).onlyFlux = false ∧ (demoFull n x).NTcor = false ∧ nFourier (demoFull n x) = nLeg (demoFull n x)
    ∧ NothingNeglected (demoFull n x) ∧ (demoFull n x).bdrf.length ≤ nFourier (demoFull n x) ∧ SurfaceIs (demoFull n x) fullRho
    ∧ NonnegPhase (demoFull n x) ∧ FairBDRF (demoFull n x) (node refExt (demoFull n x)) (weight refExt (demoFull n x)) fullRho
    ∧ Dimmer (demoFull n x) S₁ S₂ ∧ S₁.I0 < S₂.I0 ∧ Evaluates (under (demoFull n x) S₁) R₁ F₁ ∧ Evaluates (under (demoFull n x) S₂) R₂ F₂ := by
  obtain ⟨x, h0, h1, hw⟩ := demoFull_wellPosed hn
  have hh : nHalf (demoFull n x) = n := demo_nHalf x
  set S₁ : Sources := ⟨0, .scalar 1, .vec ⟨n, fun _ => 1⟩, ⟨2, 2, fun _ _ => 1⟩⟩ with hS₁
  set S₂ : Sources := ⟨1, .scalar 1, .vec ⟨n, fun _ => 1⟩, ⟨2, 2, fun _ _ => 1⟩⟩ with hS₂
  have w₁ : WellPosed refExt (under (demoFull n x) S₁) :=
    wellPosed_under hw le_rfl (fun h => absurd h (lt_irrefl _)) trivial (Or.inr (Or.inr hh.symm)) trivial trivial rfl
  have w₂ : WellPosed refExt (under (demoFull n x) S₂) :=
    wellPosed_under hw zero_le_one (fun _ => one_pos) trivial (Or.inr (Or.inr hh.symm)) trivial trivial rfl
  have r₁ : Rescalable (under (demoFull n x) S₁) := Or.inl (Or.inr (Or.inl one_pos))
  have r₂ : Rescalable (under (demoFull n x) S₂) := Or.inl (Or.inl one_pos)
  obtain ⟨R₁, e₁⟩ := pydisort_isOk w₁ J
  obtain ⟨R₂, e₂⟩ := pydisort_isOk w₂ J
  obtain ⟨F₁, f₁⟩ := evaluates_exists e₁ w₁.sound r₁
  obtain ⟨F₂, f₂⟩ := evaluates_exists e₂ w₂.sound r₂
  refine ⟨x, S₁, S₂, R₁, R₂, F₁, F₂, e₁, e₂, ?_, rfl, rfl, by rw [(demoFull_nLeg x).1, (demoFull_nLeg x).2], demoFull_neglect x, ?_,
    demoFull_rho x, demoFull_nonneg hn x, demoFull_surface hn x,
    ⟨zero_le_one, fun _ _ _ _ => le_rfl, fun _ _ => le_rfl, fun _ _ => le_rfl⟩, one_pos, f₁, f₂⟩
  · rintro S (rfl | rfl)
    · exact ⟨w₁.sound, r₁, trivial, trivial⟩
    · exact ⟨w₂.sound, r₂, trivial, trivial⟩
  · rw [(demoFull_nLeg x).2]
    change 2 ≤ 2 * n
    omega

/-- The hypotheses of C83 are met: with a beam, another emission of the surface and another illumination from above. -/
example (hn : 0 < n) : ∃ (x : ℝ) (S₁ S₂ : Sources),
    (∀ S, S = S₁ ∨ S = S₂ → WellPosed refExt (under (demoMild n x) S) ∧ Rescalable (under (demoMild n x) S))
    ∧ SurfaceIs (demoMild n x) (fun _ _ _ => 1 / 3)
    ∧ FairSurface (demoMild n x) (node refExt (demoMild n x)) (weight refExt (demoMild n x)) (fun _ _ => 1 / 3)
    ∧ NonnegScattering (demoMild n x) (node refExt (demoMild n x))
    ∧ WithinBlackbody (demoMild n x) (node refExt (demoMild n x)) (weight refExt (demoMild n x)) (fun _ _ => 1 / 3) S₁ S₂ 1 := by
  obtain ⟨x, h0, h1, hw⟩ := demoMild_wellPosed hn
  have hh : nHalf (demoMild n x) = n := demo_nHalf x
  have hg : GaussContract refExt (nHalf (demoMild n x)) := by rw [hh]; exact refExt_gauss hn
  refine ⟨x, ⟨1, .scalar 1, .scalar 1, ⟨2, 2, fun _ _ => 1⟩⟩, ⟨1, .scalar (3 / 2), .scalar 2, ⟨2, 2, fun _ _ => 1⟩⟩, ?_, fun m _ => demo_rho (n := n) x m,
    demoMild_surface hn, demoMild_scattering hn x, ⟨rfl, fun l _ t _ => ?_, fun i _ => ?_, fun i _ => ?_⟩⟩
  · rintro S (rfl | rfl)
    · exact ⟨wellPosed_under hw zero_le_one (fun _ => one_pos) trivial trivial trivial trivial rfl, Or.inl (Or.inl one_pos)⟩
    · exact ⟨wellPosed_under hw zero_le_one (fun _ => one_pos) trivial trivial trivial trivial rfl, Or.inl (Or.inl one_pos)⟩
  · change |source (under (demoMild n x) _) l t - _| ≤ 1
    rw [show ∀ b c : BCv, source (under (demoMild n x) ⟨1, .scalar 1, .scalar 1, ⟨2, 2, fun _ _ => 1⟩⟩) l t
      - source (under (demoMild n x) ⟨1, b, c, ⟨2, 2, fun _ _ => 1⟩⟩) l t = 0 from fun b c => sub_self _]
    simp
  · simp only [bcVal, if_true]; norm_num
  · unfold reflectance
    rw [if_pos (by simp [demoMild, demo]), ← sum_mul, sum_weight_node hg (by rw [hh]; exact hn)]
    simp only [bcVal, if_true]
    norm_num [abs_le]

end

end Pydisort

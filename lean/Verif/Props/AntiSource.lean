import Verif.WitnessIso
import Verif.Props.Anti
import Verif.Props.Eigen
import Verif.Props.Flux

/-!
# C34, C36, C37: what the antiderivatives return with an internal source in several layers

Where the shapes happen to match (`BadShape` fails) the functions return, but not the antiderivative.
-/

namespace Pydisort
open Finset Spec

variable {E : Ext} {J : Junk} {a : Args} {R : Solved}

/-- A single depth, and at most two coefficients: the contribution of the source has one column per *layer*. -/
theorem mathscrVAnti_single {n Nc rows : ℕ} {tau scale_tau : A1 ℝ} {l : A1 ℕ} (s : Mat) (G : ℕ → Mat) (K g : ℕ → Vec)
    (hl : l.n = tau.n) (ht : tau.n = 1) (hN : 0 < Nc) (hN2 : Nc ≤ 2) :
    ∃ A, mathscrVAnti n Nc rows tau scale_tau l s G K g = .ok A ∧ A.r = rows ∧ A.c = scale_tau.n := by
  unfold mathscrVAnti
  by_cases h1 : Nc = 1
  · rw [if_pos h1]
    simp only [A1.bin, A2.bin, A1.row, ht, hl, bdim_one_left, bdim_one_right, bind, Except.bind, pure, Except.pure]
    exact ⟨_, rfl, rfl, rfl⟩
  · have h2 : Nc = 2 := by omega
    rw [if_neg h1, if_pos h2]
    simp only [A2.bin, A1.row, ht, hl, bdim_one_left, bdim_one_right, bind, Except.bind, pure, Except.pure]
    exact ⟨_, rfl, rfl, rfl⟩

/-- **C34, wrong shape.** With an internal source of degree at most one in several layers, `flux_up(tau, True)` at a *single* depth returns one number per
layer instead of one number. -/
theorem C34_single_depth_wrong_shape (h : pydisort E J a = .ok R) (hn : ¬ NoSource a) (hL : 2 ≤ a.tauArr.n) (hc : a.s.c ≤ 2) {tau : A1 ℝ}
    (ht : InRange a tau) (h1 : tau.n = 1) : ∃ A, R.fluxUp tau true = .ok A ∧ A.n = a.tauArr.n ∧ A.n ≠ tau.n := by
  obtain ⟨i1, i2, i3⟩ := iso_of h hn
  obtain ⟨_, _, e2⟩ := depthOK_of h
  obtain ⟨V, hV, hr, hcol⟩ := mathscrVAnti_single (n := 2 * R.I.N) (Nc := R.I.Nscoeffs) (rows := R.I.N) (tau := tau.map R.I.scaledTau)
    (scale_tau := ⟨R.I.NLayers, R.I.scale⟩) (l := tau.map R.I.layer) R.I.s (fun l q => R.S.G 0 l (0 + q)) (R.S.K 0) R.S.Gim rfl h1
    (by rw [i2]; exact i3) (by rw [i2]; exact hc)
  unfold Solved.fluxUp AsmIn.fluxUp AsmIn.addIso AsmIn.isoPart
  rw [checkTau_of_inRange h ht, if_pos i1, if_pos rfl, hV]
  simp only [A2.bin, hr, hcol, h1, bdim_self, bdim_one_left, bind, Except.bind, pure, Except.pure]
  refine ⟨_, rfl, e2, ?_⟩
  show R.I.NLayers ≠ 1
  omega

theorem addIso_single (h : pydisort E J a = .ok R) (hn : ¬ NoSource a) (hc : a.s.c ≤ 2) {tau : A1 ℝ} (h1 : tau.n = 1) (row0 rows : ℕ)
    {x : A2 ℝ} (hx : x.r = rows) (hx1 : x.c = 1) : ∃ A, R.I.addIso R.S tau true row0 rows x = .ok A ∧ A.r = rows ∧ A.c = a.tauArr.n := by
  obtain ⟨i1, i2, i3⟩ := iso_of h hn
  obtain ⟨_, _, e2⟩ := depthOK_of h
  obtain ⟨V, hV, hr, hcol⟩ := mathscrVAnti_single (n := 2 * R.I.N) (Nc := R.I.Nscoeffs) (rows := rows) (tau := tau.map R.I.scaledTau)
    (scale_tau := ⟨R.I.NLayers, R.I.scale⟩) (l := tau.map R.I.layer) R.I.s (fun l q => R.S.G 0 l (row0 + q)) (R.S.K 0) R.S.Gim rfl h1
    (by rw [i2]; exact i3) (by rw [i2]; exact hc)
  unfold AsmIn.addIso AsmIn.isoPart
  rw [if_pos i1, if_pos rfl, hV]
  simp only [A2.bin, hr, hcol, hx, hx1, bdim_self, bdim_one_left, bind, Except.bind, pure, Except.pure]
  exact ⟨_, rfl, rfl, e2⟩

/-- **C36, wrong shape.** The same for `u0(tau, True)`: one column per layer instead of one column. -/
theorem C36_single_depth_wrong_shape (h : pydisort E J a = .ok R) (hn : ¬ NoSource a) (hL : 2 ≤ a.tauArr.n) (hc : a.s.c ≤ 2) {tau : A1 ℝ}
    (ht : InRange a tau) (h1 : tau.n = 1) : ∃ A, R.u0 tau true = .ok A ∧ A.c = a.tauArr.n ∧ A.c ≠ tau.n := by
  obtain ⟨A, hA, hr, hcol⟩ := addIso_single h hn hc h1 0 (2 * R.I.N) (x := R.I.u0Raw R.S tau true) (by unfold AsmIn.u0Raw; split_ifs <;> rfl)
    (by unfold AsmIn.u0Raw; split_ifs <;> exact h1)
  unfold Solved.u0 AsmIn.u0
  rw [checkTau_of_inRange h ht]
  simp only [bind, Except.bind, pure, Except.pure]
  rw [hA]
  refine ⟨_, rfl, hcol, ?_⟩
  show A.c ≠ tau.n
  omega

/-- **C37, single depths.** With several Fourier modes `u(tau, phi, True)` raises at every single depth: the contribution of the source does not fit
into the array it is added to. -/
theorem C37_single_depth_raises (h : pydisort E J a = .ok R) (hn : ¬ NoSource a) (hL : 2 ≤ a.tauArr.n) (hc : a.s.c ≤ 2) (hF : 2 ≤ nFourier a)
    {tau : A1 ℝ} (ht : InRange a tau) (h1 : tau.n = 1) (phi : A1 ℝ) (hf : a.onlyFlux = false) : R.u tau phi true = .error .shapeError := by
  have hFF : R.I.NFourier = nFourier a := by
    obtain ⟨_, _, _, _, _, hI, _⟩ := pydisort_ok h
    rw [hI, ← nFourier_eq (a := a)]; rfl
  have key : R.uUncorrected tau phi true = .error .shapeError := by
    obtain ⟨A, hA, hr, hcol⟩ := addIso_single h hn hc h1 0 (2 * R.I.N) (x := ⟨2 * R.I.N, tau.n, fun i t => R.I.umAnti R.S 0 i (tau.get t)⟩) rfl h1
    unfold Solved.uUncorrected AsmIn.u AsmIn.uRaw AsmIn.um0
    rw [checkTau_of_inRange h ht, if_pos (iso_of h hn).1]
    simp only [bind, Except.bind, if_true]
    rw [hA]
    simp only
    rw [if_neg (by omega)]
  obtain ⟨_, O, r, _, _, _, _, hof, _⟩ := pydisort_ok h
  unfold Solved.u
  rw [hof, hf, if_neg (by simp)]
  cases R.nt with
  | none => exact key
  | some n => unfold Solved.uCorrected; rw [key]; rfl

/-- The hypotheses of the three theorems can be met. -/
example {n : ℕ} (hn : 1 < n) (J : Junk) : ∃ a R, pydisort refExt J a = .ok R ∧ ¬ NoSource a ∧ 2 ≤ a.tauArr.n ∧ a.s.c ≤ 2 ∧ 2 ≤ nFourier a ∧
    a.onlyFlux = false ∧ ∃ tau, InRange a tau ∧ tau.n = 1 := by
  obtain ⟨x, R, h, _⟩ := demo_call (n := n) (by omega) J
  exact ⟨_, R, h, demo_source x, by simp [demo], by simp [demo], by simp [nFourier, demo]; omega, rfl, ⟨1, fun _ => 1⟩, fun t _ => by simp [demo], rfl⟩

/-- Two layers with the same constant internal source, scattering equally in all directions, with different delta-M factors; no other sources. -/
noncomputable def demoHeat (n : ℕ) : Args := { demoIso n 2 1 1 with I0 := 0, bneg := .scalar 0, s := ⟨2, 1, fun _ _ => 1⟩ }

theorem demoHeat_nHalf {n : ℕ} : nHalf (demoHeat n) = n := demoIso_nHalf (L := 2) (F := 1) (x := 1)

theorem demoHeat_wellPosed {n : ℕ} (hn : 0 < n) : WellPosed refExt (demoHeat n) := by
  refine wellPosed_of { demoIso_accepted (x := 1) hn two_pos one_pos hn one_pos le_rfl with
      sourceRows := Or.inr rfl
      beam := le_rfl
      beamDir := fun h => absurd h (lt_irrefl _)
      topBC := trivial } (by rw [demoHeat_nHalf]; exact hn) ?_ ?_ (fun h => absurd h (lt_irrefl _)) (Or.inl rfl) trivial trivial (Or.inr rfl) rfl
  · intro l hl
    have : peak (demoHeat n) l = isoPeak l := demoIso_peak (n := n) (F := 1) (x := 1) (L := 2) hl
    rw [this]
    linarith [(isoPeak_bounds l).2]
  · rw [demoHeat_nHalf]
    exact hn

theorem demoHeat_source {n : ℕ} : ¬ NoSource (demoHeat n) := fun h => one_ne_zero (h 0 two_pos 0 one_pos)

theorem demoHeat_lit {n : ℕ} : Lit (demoHeat n) := by
  refine Or.inr (Or.inr (Or.inr (Or.inl ?_)))
  simp [source, demoHeat]

/-- Every stream of the particular solution for the source is positive. -/
theorem demoHeat_particular {n : ℕ} (hn : 0 < n) (h : pydisort refExt J (demoHeat n) = .ok R) {l : ℕ} (hl : l < 2) {i : ℕ} (hi : i < 2 * n) :
    0 < ∑ k ∈ range (2 * n), R.S.G 0 l i k * (R.I.s l 0 * (1 / R.S.K 0 l k) * R.S.Gim l k) := by
  set a := demoHeat n with ha
  have hw := demoHeat_wellPosed hn
  have hN : nHalf a = n := demoHeat_nHalf
  obtain ⟨hacc, O, r, hO, hr, hI, _⟩ := pydisort_ok h
  have hs := Args.optics_spec hacc hO
  obtain ⟨i1, i2, _⟩ := iso_of h demoHeat_source
  have hc : R.I.Nscoeffs = 1 := i2
  have hIso : a.Iso := by
    rw [hI] at i1
    simpa [Args.asmIn] using i1
  have hr0 : 0 < R.I.rescale := by rw [hI]; exact (rescale_spec hacc hs hr).2.2 demoHeat_lit
  have hk : ∀ y z, kernel a 0 l y z = omegaStar a l / 2 := fun y z => demoIso_kernel (n := n) (x := 1) (L := 2) (F := 1) hl one_pos y z
  have hsc : 0 < scale a l := Args.scale_pos hacc hl
  have hsl : 0 < R.I.s l 0 := by
    have e := hs.src hIso l hl 0
    have e1 : a.s.c = 1 := rfl
    have e2 : source a l 0 = 1 := by
      have hl' : l ≤ 1 := by omega
      simp [source, ha, demoHeat, hl']
    have e3 : a.omega.get l = 1 / 2 := rfl
    rw [e1, e2, e3] at e
    simp only [range_one, sum_singleton, pow_zero, mul_one] at e
    have : 0 < O.s.get l 0 := by
      by_contra hle
      nlinarith [mul_nonneg hsc.le (neg_nonneg.2 (not_lt.1 hle))]
    rw [hI] at hr0 ⊢
    have hr' : 0 < r := hr0
    simp only [Args.asmIn, if_pos hIso]
    exact div_pos this hr'
  set v : ℕ → ℝ := fun q => ∑ k ∈ range (2 * n), R.S.G 0 l q k * (R.I.s l 0 * (1 / R.S.K 0 l k) * R.S.Gim l k) with hv
  have hmv : ∀ x q, mathscrV (2 * nHalf a) R.I.Nscoeffs (R.I.s l) (R.S.G 0 l) (R.S.K 0 l) (R.S.Gim l) x q = v q := fun x q => by
    unfold mathscrV
    rw [if_pos hc, mul_one, hN]
  have key : ∀ q < 2 * n, v q = omegaStar a l / 2 * (∑ j ∈ range (2 * n), streamW n (weight refExt a) j * v j) + R.I.s l 0 := by
    intro q hq
    have hq' : q < 2 * nHalf a := by rw [hN]; exact hq
    have e := C07_particular_solution_in_call_partial h hw.sound demoHeat_source hl 0 hq'
    simp only [hmv] at e
    have e0 := e.unique (hasDerivAt_const _ _)
    rw [hc, hN] at e0
    simp only [range_one, sum_singleton, pow_zero, mul_one] at e0
    have hst : stream n (node refExt a) q ≠ 0 := by
      have := stream_ne hw.gauss hq'
      rwa [demoHeat_nHalf] at this
    have e1 : ∑ j ∈ range (2 * n), coefMatrix a (node refExt a) (weight refExt a) 0 l q j * v j
        = (v q - omegaStar a l / 2 * ∑ j ∈ range (2 * n), streamW n (weight refExt a) j * v j) / stream n (node refExt a) q := by
      have e2 : v q = ∑ j ∈ range (2 * n), (if q = j then 1 else 0) * v j := by simp [hq]
      rw [e2, mul_sum, ← sum_sub_distrib, sum_div]
      refine sum_congr rfl fun j _ => ?_
      unfold coefMatrix
      rw [hk, hN]
      ring
    rw [e1, ← sub_div, div_eq_zero_iff] at e0
    linarith [e0.resolve_right hst]
  set M := ∑ j ∈ range (2 * n), streamW n (weight refExt a) j * v j with hM
  have hw2 : ∑ j ∈ range (2 * n), streamW n (weight refExt a) j = 2 := by
    have := sum_streamW hw.gauss (by rw [demoHeat_nHalf]; exact hn)
    rwa [demoHeat_nHalf] at this
  have eM : M = 2 * (omegaStar a l / 2 * M + R.I.s l 0) := by
    have : 2 * (omegaStar a l / 2 * M + R.I.s l 0) = ∑ j ∈ range (2 * n), streamW n (weight refExt a) j * (omegaStar a l / 2 * M + R.I.s l 0) := by
      rw [← sum_mul, hw2]
    rw [this]
    exact sum_congr rfl fun j hj => by rw [← key j (mem_range.1 hj)]
  have ho0 : 1 / 4 ≤ omegaStar a l := demoIso_omegaStar (n := n) (F := 1) (x := 1) (L := 2) hl
  have ho1 : omegaStar a l < 1 := by
    have e1 : scale a l = 1 - 1 / 2 * isoPeak l := demoIso_scale (n := n) (F := 1) (x := 1) (L := 2) hl
    have e2 : peak a l = isoPeak l := demoIso_peak (n := n) (F := 1) (x := 1) (L := 2) hl
    unfold omegaStar
    rw [div_lt_one hsc, e1, e2, show a.omega.get l = 1 / 2 from rfl]
    linarith [(isoPeak_bounds l).1]
  have hM0 : 0 < M := by
    by_contra hle
    nlinarith
  show 0 < v i
  rw [key i hi]
  have : 0 < omegaStar a l / 2 * M := mul_pos (by linarith) hM0
  linarith

/-- **C34, wrong values.** For every number of streams there is a well-posed problem (two layers, constant source) in which `flux_up(tau, True)` gives
two different values for the same depth, asked for twice. -/
theorem C34_wrong_value {n : ℕ} (hn : 0 < n) (J : Junk) : ∃ a R tau A, pydisort refExt J a = .ok R ∧ WellPosed refExt a ∧ Rescalable a ∧ nHalf a = n ∧
    tau.n = 2 ∧ InRange a tau ∧ tau.get 0 = tau.get 1 ∧ R.fluxUp tau true = .ok A ∧ A.n = 2 ∧ A.get 0 ≠ A.get 1 := by
  have hw := demoHeat_wellPosed hn
  obtain ⟨R, h⟩ := pydisort_isOk hw J
  set a := demoHeat n with ha
  obtain ⟨hd, e1, e2⟩ := depthOK_of h
  obtain ⟨hacc, O, r, hO, hr, hI, _⟩ := pydisort_ok h
  have hs := Args.optics_spec hacc hO
  obtain ⟨i1, i2, _⟩ := iso_of h demoHeat_source
  have hN : R.I.N = n := by rw [hI]; exact demoHeat_nHalf
  have hL : R.I.NLayers = 2 := e2
  have hc : R.I.Nscoeffs = 1 := i2
  set tau : A1 ℝ := ⟨2, fun _ => 1⟩ with htau
  have ht : InRange a tau := fun t _ => by simp [htau, ha, demoHeat, demoIso]
  have l0 : R.I.layer 1 = 0 := AsmIn.layer_eq hd (by rw [hL]; exact two_pos) (Or.inr rfl) (by rw [e1]; simp [bdry, ha, demoHeat, demoIso])
  have hsc : ∀ l < 2, R.I.scale l = 1 - 1 / 2 * isoPeak l := fun l hl => by
    rw [hI]
    exact (hs.scale l hl).trans (demoIso_scale (n := n) (F := 1) (x := 1) (L := 2) hl)
  obtain ⟨A, hA, hAn, hAv⟩ : ∃ A, R.fluxUp tau true = .ok A ∧ A.n = 2 ∧ ∀ t < 2, A.get t = R.I.rescale * ∑ i ∈ range n, (2 * Real.pi * (R.I.mu i * R.I.W i)) *
      (R.I.umAnti R.S 0 i 1 + (∑ k ∈ range (2 * n), R.S.G 0 0 i k * (R.I.s 0 0 * (1 / R.S.K 0 0 k) * R.S.Gim 0 k)) * (R.I.scaledTau 1 / R.I.scale t)) := by
    unfold Solved.fluxUp AsmIn.fluxUp AsmIn.addIso AsmIn.isoPart
    rw [checkTau_of_inRange h ht, if_pos i1, if_pos rfl]
    unfold mathscrVAnti
    rw [if_pos hc]
    simp only [A1.bin, A2.bin, A1.row, A1.map, hL, htau, bdim_self, bdim_one_right, bind, Except.bind, pure, Except.pure]
    refine ⟨_, rfl, rfl, fun t ht => ?_⟩
    simp only [AsmIn.fluxQuad, hN]
    congr 1
    refine sum_congr rfl fun i hi => ?_
    have hi' := mem_range.1 hi
    simp only [if_true, bix_of_lt ht, bix_of_lt hi', l0, zero_add]
  refine ⟨a, R, tau, A, h, hw, Or.inl demoHeat_lit, demoHeat_nHalf, rfl, ht, rfl, hA, hAn, ?_⟩
  rw [hAv 0 two_pos, hAv 1 one_lt_two, hsc 0 two_pos, hsc 1 one_lt_two]
  have hr0 : 0 < R.I.rescale := by rw [hI]; exact (rescale_spec hacc hs hr).2.2 demoHeat_lit
  have hst : 0 < R.I.scaledTau 1 := by
    unfold AsmIn.scaledTau
    split_ifs
    · rw [l0, e1, show a.tauArr.get 0 = 1 by simp [ha, demoHeat, demoIso], sub_self, zero_mul, sub_zero, hI]
      refine lt_of_lt_of_eq ?_ (hs.tau0 1 (by show 1 ≤ 2; norm_num)).symm
      unfold bdryStar
      have := Args.scale_pos hacc (l := 0) (show 0 < 2 by norm_num)
      simpa [bdry, ha, demoHeat, demoIso] using this
    · exact one_pos
  have hW : ∀ i < n, 0 < R.I.mu i * R.I.W i := fun i hi => by
    have h1 := (node_pos hw.gauss (i := i) (by rw [demoHeat_nHalf]; exact hi)).1
    have h2 := weight_pos hw.gauss (i := i) (by rw [demoHeat_nHalf]; exact hi)
    rw [hI]; exact mul_pos h1 h2
  rw [show isoPeak 0 = 1 / 8 from if_pos rfl, show isoPeak 1 = 1 / 4 from if_neg one_ne_zero]
  intro he
  have he' := mul_left_cancel₀ hr0.ne' he
  revert he'
  refine ne_of_lt (sum_lt_sum_of_nonempty ⟨0, mem_range.2 hn⟩ fun i hi => ?_)
  have hi' := mem_range.1 hi
  have hv := demoHeat_particular hn h two_pos (i := i) (by omega)
  have hp := Real.pi_pos
  refine mul_lt_mul_of_pos_left ?_ (mul_pos (by positivity) (hW i hi'))
  refine add_lt_add_of_le_of_lt le_rfl (mul_lt_mul_of_pos_left ?_ hv)
  exact div_lt_div_of_pos_left hst (by norm_num) (by norm_num)

end Pydisort

import Verif.Spec.Estimate
import Verif.Props.Anti

/-!
# C38: the Fourier error estimate

Specification used: `Spec.IsFourierError`. The claim is false: with a beam the estimate adds `B_collect.T[-1, :, l]` (line 293 of
`_assemble_intensity_and_fluxes.py`), which mixes up the axes; with a single Fourier mode it leaves out the internal source.
-/

namespace Pydisort
open Finset Spec

noncomputable section

variable {E : Ext} {J : Junk} {a : Args} {R : Solved}

theorem npMax3_ok {x : A3 ℝ} {p q r : ℕ} (h0 : x.d0 = p) (h1 : x.d1 = q) (h2 : x.d2 = r) (hp : 0 < p) (hq : 0 < q) (hr : 0 < r) :
    ∃ e, npMax3 x = .ok e ∧ IsGreatest {y | ∃ i < p, ∃ j < q, ∃ k < r, y = x.get i j k} e := by
  unfold npMax3
  have hne : (range x.d0 ×ˢ range x.d1 ×ˢ range x.d2).Nonempty :=
    ⟨(0, 0, 0), by simp [h0, h1, h2, hp, hq, hr]⟩
  rw [dif_pos hne]
  refine ⟨_, rfl, ?_, ?_⟩
  · obtain ⟨z, hz, hz'⟩ := exists_mem_eq_sup' hne (fun y : ℕ × ℕ × ℕ => x.get y.1 y.2.1 y.2.2)
    simp only [mem_product, mem_range] at hz
    exact ⟨z.1, by omega, z.2.1, by omega, z.2.2, by omega, hz'⟩
  · rintro y ⟨i, hi, j, hj, k, hk, rfl⟩
    exact le_sup' (fun y : ℕ × ℕ × ℕ => x.get y.1 y.2.1 y.2.2) (b := (i, j, k)) (by simp [h0, h1, h2, hi, hj, hk])

theorem modes_val (h : pydisort E J a = .ok R) : IsModes a R (fun m t i => R.I.rescale * R.I.val R.S m t i) := by
  obtain ⟨hacc, O, r, hO, hr, hI, _⟩ := pydisort_ok h
  have hN : R.I.N = nHalf a := by rw [hI]; rfl
  have hp : R.I.phi0 = a.phi0 := by rw [hI]; rfl
  have hF : R.I.NFourier = nFourier a := by rw [hI, ← nFourier_eq (a := a)]; rfl
  refine ⟨fun tau ht => ?_, fun tau phi ht => ?_⟩
  · rw [← hN]; exact R.I.u0_plain R.S (checkTau_of_inRange h ht)
  · rw [← hN, ← hp, ← hF]; exact R.I.u_plain R.S phi (checkTau_of_inRange h ht)

theorem rescale_pos_of_lit (h : pydisort E J a = .ok R) (hl : Lit a) : 0 < R.I.rescale := by
  obtain ⟨hacc, O, r, hO, hr, hI, _⟩ := pydisort_ok h
  rw [hI]
  exact (rescale_spec hacc (Args.optics_spec hacc hO) hr).2.2 hl

theorem nFourier_pos (h : pydisort E J a = .ok R) (hS : Sound E a) : 0 < nFourier a := (anti_facts h hS).2.2.2.2.2

/-- Both estimates without a beam, given what the intensity function evaluates and that the last mode is the homogeneous solution. -/
theorem estimate_of (h : pydisort E J a = .ok R) (hl : Lit a) (hb : ¬ 0 < a.I0) (hf : a.onlyFlux = false) {anti : Bool}
    {V : ℕ → ℝ → ℕ → ℝ} {tau phi : A1 ℝ} (htn : 0 < tau.n) (hpn : 0 < phi.n)
    (hu : Returns3 (R.I.u R.S tau phi anti) (2 * R.I.N) tau.n phi.n (fun i t p =>
      ∑ m ∈ range R.I.NFourier, (R.I.rescale * V m (tau.get t) i) * Real.cos ((m : ℝ) * (R.I.phi0 - phi.get p))))
    (hV : ∀ t i, V (R.I.NFourier - 1) t i = ∑ j ∈ range (2 * R.I.N), R.S.GC (R.I.NFourier - 1) (R.I.layer t) i j * (if anti = true then
        Real.exp (R.I.exponent R.S (R.I.NFourier - 1) t j) / (R.I.scale (R.I.layer t) * R.S.K (R.I.NFourier - 1) (R.I.layer t) j)
      else Real.exp (R.I.exponent R.S (R.I.NFourier - 1) t j))) :
    ∃ e, R.fourierError tau phi anti = .ok e ∧
      IsFourierError a (fun m t i => R.I.rescale * V m t i) (R.I.rescale / 10 ^ 8) tau phi e := by
  obtain ⟨hacc, O, r, hO, hr, hI, _, hof, hg1, hg2⟩ := pydisort_ok h
  have hN : R.I.N = nHalf a := by rw [hI]; rfl
  have hp : R.I.phi0 = a.phi0 := by rw [hI]; rfl
  have hF : R.I.NFourier = nFourier a := by rw [hI, ← nFourier_eq (a := a)]; rfl
  have hr0 := rescale_pos_of_lit h hl
  have hbf : R.I.beam = false := by have := (beam_iff h).not.2 hb; simpa using this
  have hn : R.nt = none := hg2 fun hg => hb hg.2.2.1
  have hN0 : 0 < nHalf a := by
    have := hacc.streams; unfold nHalf; omega
  obtain ⟨A, y1, y2, y3, y4, y5⟩ := hu
  obtain ⟨x, x1, rfl⟩ : ∃ x, R.I.uRaw R.S tau phi anti = .ok x ∧ A = ⟨x.d0, x.d1, x.d2, fun i t p => R.I.rescale * x.get i t p⟩ := by
    unfold AsmIn.u at y1
    cases hx : R.I.uRaw R.S tau phi anti with
    | error e => rw [hx] at y1; cases y1
    | ok x => rw [hx] at y1; cases y1; exact ⟨x, rfl, rfl⟩
  simp only at y2 y3 y4 y5
  set g : A3 ℝ := ⟨x.d0, x.d1, x.d2, fun i t p =>
      if |x.get i t p| > 1 / 10 ^ 8 then
        |V (R.I.NFourier - 1) (tau.get (bix tau.n t)) (bix (2 * R.I.N) i)
          * Real.cos (((R.I.NFourier - 1 : ℕ) : ℝ) * (R.I.phi0 - phi.get p))| / |x.get i t p|
      else 0⟩ with hg
  have hE : R.fourierError tau phi anti = npMax3 g := by
    unfold Solved.fourierError Solved.u
    rw [hof, hf, if_neg (by simp), hn]
    simp only [Solved.uUncorrected, y1, bind, Except.bind]
    unfold AsmIn.fourierError
    simp only [x1, bind, Except.bind, AsmIn.ulast, hbf, Bool.false_eq_true, if_false]
    rw [y2, y3, bdim_self, bdim_self]
    simp only [and_self, if_true]
    rw [hg]
    simp only [y2, y3, hV]
  obtain ⟨e, e1, e2⟩ := npMax3_ok (x := g) (p := 2 * nHalf a) (q := tau.n) (r := phi.n) (by rw [← hN]; exact y2) y3 y4
    (by omega) htn hpn
  refine ⟨e, by rw [hE]; exact e1, ?_⟩
  have key : ∀ i < 2 * nHalf a, ∀ t < tau.n, ∀ p < phi.n,
      g.get i t p = lastRatio a (fun m t i => R.I.rescale * V m t i) (R.I.rescale / 10 ^ 8) i (tau.get t) (phi.get p) := by
    intro i hi t htt p hpp
    have hser : series a (fun m t i => R.I.rescale * V m t i) i (tau.get t) (phi.get p) = R.I.rescale * x.get i t p := by
      unfold series
      rw [y5 i (by rw [hN]; exact hi) t htt p hpp, hF, hp]
    have hlast : lastTerm a (fun m t i => R.I.rescale * V m t i) i (tau.get t) (phi.get p)
        = R.I.rescale * (V (R.I.NFourier - 1) (tau.get t) i * Real.cos (((R.I.NFourier - 1 : ℕ) : ℝ) * (R.I.phi0 - phi.get p))) := by
      unfold lastTerm
      rw [hF, hp, mul_assoc]
    unfold lastRatio
    rw [hser, hlast, abs_mul, abs_mul, abs_of_pos hr0]
    simp only [hg]
    rw [bix_of_lt htt, bix_of_lt (by rw [hN]; exact hi)]
    have : (R.I.rescale / 10 ^ 8 < R.I.rescale * |x.get i t p|) ↔ |x.get i t p| > 1 / 10 ^ 8 := by
      rw [gt_iff_lt, div_eq_mul_one_div, mul_lt_mul_iff_right₀ hr0]
    by_cases hh : |x.get i t p| > 1 / 10 ^ 8
    · rw [if_pos hh, if_pos (this.2 hh), mul_div_mul_left _ _ hr0.ne']
    · rw [if_neg hh, if_neg fun h' => hh (this.1 h')]
  unfold IsFourierError
  have hset : {y | ∃ i < 2 * nHalf a, ∃ t < tau.n, ∃ p < phi.n, y = g.get i t p}
      = {y | ∃ i < 2 * nHalf a, ∃ t < tau.n, ∃ p < phi.n, y = lastRatio a (fun m t i => R.I.rescale * V m t i)
        (R.I.rescale / 10 ^ 8) i (tau.get t) (phi.get p)} := by
    ext y
    constructor
    · rintro ⟨i, hi, t, htt, p, hpp, rfl⟩
      exact ⟨i, hi, t, htt, p, hpp, key i hi t htt p hpp⟩
    · rintro ⟨i, hi, t, htt, p, hpp, rfl⟩
      exact ⟨i, hi, t, htt, p, hpp, (key i hi t htt p hpp).symm⟩
  rw [← hset]; exact e2

/-- The estimate depends on the modes at the given depths only. -/
theorem IsFourierError.congr {U V : ℕ → ℝ → ℕ → ℝ} {eps : ℝ} {tau phi : A1 ℝ} {e : ℝ} (hF : 0 < nFourier a)
    (hUV : ∀ m < nFourier a, ∀ t < tau.n, ∀ i < 2 * nHalf a, U m (tau.get t) i = V m (tau.get t) i)
    (h : IsFourierError a U eps tau phi e) : IsFourierError a V eps tau phi e := by
  unfold IsFourierError at *
  have key : ∀ i < 2 * nHalf a, ∀ t < tau.n, ∀ p < phi.n,
      lastRatio a U eps i (tau.get t) (phi.get p) = lastRatio a V eps i (tau.get t) (phi.get p) := by
    intro i hi t ht p _
    have h1 : series a U i (tau.get t) (phi.get p) = series a V i (tau.get t) (phi.get p) :=
      sum_congr rfl fun m hm => by rw [hUV m (mem_range.1 hm) t ht i hi]
    have h2 : lastTerm a U i (tau.get t) (phi.get p) = lastTerm a V i (tau.get t) (phi.get p) := by
      unfold lastTerm; rw [hUV _ (by omega) t ht i hi]
    unfold lastRatio; rw [h1, h2]
  convert h using 1
  ext y
  constructor
  · rintro ⟨i, hi, t, ht, p, hp, rfl⟩; exact ⟨i, hi, t, ht, p, hp, (key i hi t ht p hp).symm⟩
  · rintro ⟨i, hi, t, ht, p, hp, rfl⟩; exact ⟨i, hi, t, ht, p, hp, key i hi t ht p hp⟩

/-- **C38, the part that is true.** Without a beam, and if there is more than one Fourier mode or no internal source, the number
returned is the maximum over streams, depths and azimuths of `|last Fourier term| / |u|`, zero where `|u|` is at most `1e-8` times
the rescale factor. Missing: beams, and internal sources with a single mode; see `C38_false`. -/
theorem C38_fourier_error_partial (h : pydisort E J a = .ok R) (hS : Sound E a) (hl : Lit a) (hb : ¬ 0 < a.I0)
    (hs : NoSource a ∨ 1 < nFourier a) (hf : a.onlyFlux = false) {U : ℕ → ℝ → ℕ → ℝ} (hU : IsModes a R U) {tau phi : A1 ℝ}
    (ht : InRange a tau) (htn : 0 < tau.n) (hpn : 0 < phi.n) :
    ∃ e, R.fourierError tau phi false = .ok e ∧ IsFourierError a U (R.I.rescale / 10 ^ 8) tau phi e := by
  have hF : R.I.NFourier = nFourier a := by
    obtain ⟨_, O, r, _, _, hI, _⟩ := pydisort_ok h; rw [hI, ← nFourier_eq (a := a)]; rfl
  have hbf : R.I.beam = false := by have := (beam_iff h).not.2 hb; simpa using this
  obtain ⟨e, he, he'⟩ := estimate_of (V := fun m t i => R.I.val R.S m t i) h hl hb hf (anti := false) htn hpn
    (R.I.u_plain R.S phi (checkTau_of_inRange h ht)) (fun t i => by
      unfold AsmIn.val AsmIn.umPlain
      rw [hbf, if_neg (by simp), add_zero, if_neg]
      · simp
      · rintro ⟨h1, h2⟩
        rcases hs with hs | hs
        · rw [iso_false_of h hs] at h2; simp at h2
        · omega)
  exact ⟨e, he, IsFourierError.congr (nFourier_pos h hS) (fun m hm t htt i hi =>
    (C02_modes_unique hU (modes_val h) m hm _ (ht t htt).1 (ht t htt).2 i hi).symm) he'⟩

/-- **C86, the part that is true.** Without a beam, and if there is no internal source, or a single layer and more than one Fourier mode,
the estimate returned with the antiderivative is that of the Fourier series of the antiderivative. Missing: beams, and internal sources with
several layers or a single mode; see `C86_false`. -/
theorem C86_fourier_error_of_antiderivative_partial (h : pydisort E J a = .ok R) (hS : Sound E a) (hl : Lit a) (hb : ¬ 0 < a.I0)
    (hs : NoSource a ∨ (a.tauArr.n = 1 ∧ 1 < nFourier a)) (hf : a.onlyFlux = false) :
    ∃ V, IsAntiModes a R V ∧ ∀ tau phi, InRange a tau → 0 < tau.n → 0 < phi.n →
      ∃ e, R.fourierError tau phi true = .ok e ∧ IsFourierError a V (R.I.rescale / 10 ^ 8) tau phi e := by
  obtain ⟨hd, e1, e2⟩ := depthOK_of h
  obtain ⟨_, O, r, _, _, hI, _, hof, hg1, hg2⟩ := pydisort_ok h
  have hF : R.I.NFourier = nFourier a := by rw [hI, ← nFourier_eq (a := a)]; rfl
  have hN : R.I.N = nHalf a := by rw [hI]; rfl
  have hp : R.I.phi0 = a.phi0 := by rw [hI]; rfl
  have hn : R.nt = none := hg2 fun hg => hb hg.2.2.1
  have hbf : R.I.beam = false := by have := (beam_iff h).not.2 hb; simpa using this
  have hc' : R.I.iso = false ∨ R.I.NLayers = 1 := hs.imp (iso_false_of h) (fun x => by rw [e2]; exact x.1)
  refine ⟨fun m t i => R.I.rescale * R.I.valAnti R.S m t i, fun tau phi ht => ?_, fun tau phi ht htn hpn => ?_⟩
  · have := AsmIn.u_anti (S := R.S) hd hc' phi (checkTau_of_inRange h ht)
    unfold Solved.u
    rw [hof, hf, if_neg (by simp), hn]
    rw [hN, hF, hp] at this
    exact this
  · refine estimate_of (V := fun m t i => R.I.valAnti R.S m t i) h hl hb hf htn hpn
      (AsmIn.u_anti (S := R.S) hd hc' phi (checkTau_of_inRange h ht)) (fun t i => ?_)
    unfold AsmIn.valAnti AsmIn.umAnti
    rw [hbf, if_neg (by simp), add_zero, if_neg]
    · simp
    · rintro ⟨h1, h2⟩
      rcases hs with hs | hs
      · rw [iso_false_of h hs] at h2; simp at h2
      · omega

/-- The modes of the antiderivative are determined by what `u(tau, phi, True)` returns. -/
theorem C86_modes_unique {U V : ℕ → ℝ → ℕ → ℝ} (hU : IsAntiModes a R U) (hV : IsAntiModes a R V) :
    ∀ m < nFourier a, ∀ t, 0 ≤ t → t ≤ a.tauArr.get (a.tauArr.n - 1) → ∀ i < 2 * nHalf a, U m t i = V m t i := by
  intro m hm t h0 h1 i hi
  have key := cos_series_zero (F := nFourier a) (c := fun m => U m t i - V m t i) (fun x => by
    obtain ⟨A, hA, _, _, _, hA4⟩ := hU ⟨1, fun _ => t⟩ ⟨1, fun _ => a.phi0 - x⟩ (fun _ _ => ⟨h0, h1⟩)
    obtain ⟨B, hB, _, _, _, hB4⟩ := hV ⟨1, fun _ => t⟩ ⟨1, fun _ => a.phi0 - x⟩ (fun _ _ => ⟨h0, h1⟩)
    rw [hA] at hB; cases hB
    have e1 := hA4 i hi 0 Nat.one_pos 0 Nat.one_pos
    have e2 := hB4 i hi 0 Nat.one_pos 0 Nat.one_pos
    rw [e1] at e2
    simp only [series, sub_sub_cancel] at e2
    simp only [sub_mul, sum_sub_distrib]
    exact sub_eq_zero.mpr e2)
  have := key m hm
  linarith [this]

/-- **C86 fails with a beam:** unless the number of layers is one or the number of streams, asking for the estimate with the antiderivative
raises. -/
theorem C86_beam_in_layers_raises (h : pydisort E J a = .ok R) (hI : 0 < a.I0) (hL : a.tauArr.n ≠ 1) (hL' : a.tauArr.n ≠ 2 * nHalf a)
    (tau phi : A1 ℝ) : ∃ e, R.fourierError tau phi true = .error e := by
  obtain ⟨_, _, e2⟩ := depthOK_of h
  have hN : R.I.N = nHalf a := by
    obtain ⟨_, O, r, _, _, hI, _⟩ := pydisort_ok h; rw [hI]; rfl
  unfold Solved.fourierError
  cases hu : R.u tau phi true with
  | error e => exact ⟨e, rfl⟩
  | ok A =>
    simp only [bind, Except.bind]
    unfold AsmIn.fourierError
    cases hx : R.I.uRaw R.S tau phi true with
    | error e => exact ⟨e, rfl⟩
    | ok x =>
      simp only [bind, Except.bind]
      unfold AsmIn.ulast
      rw [if_pos ((beam_iff h).2 hI)]
      unfold AsmIn.ulastBeam
      rw [if_pos rfl]
      simp only [A2.bin, A1.row, A1.map, bind, Except.bind, pure, Except.pure, bdim_one_right]
      cases hq : bdim R.I.NFourier R.I.NLayers with
      | error e => exact ⟨e, rfl⟩
      | ok d =>
        simp only
        by_cases hh : ∃ t < tau.n, d ≤ R.I.layer (tau.get t)
        · rw [if_pos hh]; exact ⟨_, rfl⟩
        · rw [if_neg hh]
          simp only [bdim_self]
          rw [bdim_error (by rw [e2, hN]; exact Ne.symm hL') (by omega) (by rw [e2]; exact hL)]
          exact ⟨_, rfl⟩

/-- **C86 is false**: for every number of streams above two there is a well-posed problem for which `u(tau, phi, True)` returns and asking for
the Fourier error as well raises. -/
theorem C86_false {n : ℕ} (hn : 1 < n) (J : Junk) (phi : A1 ℝ) : ∃ a R tau A e, pydisort refExt J a = .ok R ∧ WellPosed refExt a
    ∧ Lit a ∧ InRange a tau ∧ 0 < tau.n ∧ R.u tau phi true = .ok A ∧ R.fourierError tau phi true = .error e := by
  obtain ⟨R, h1, hw⟩ := demoClear_call (n := n) (by omega) J
  have ht : InRange (demoClear n) threeTops := threeTops_inRange hw.accepted
  obtain ⟨F, P, _, hP, _⟩ := C37_u_antiderivative_partial h1 hw.sound
    (Or.inl fun _ _ j hj => absurd hj (by simp [demoClear, demoBlack])) rfl rfl
  obtain ⟨B, hB, _⟩ := hP threeTops phi ht
  obtain ⟨e, he⟩ := C86_beam_in_layers_raises h1 (show (0 : ℝ) < (demoClear n).I0 from one_pos) (by simp [demoClear, demoBlack, demo])
    (by rw [show nHalf (demoClear n) = n from demo_nHalf 1]; simp [demoClear, demoBlack, demo]; omega) threeTops phi
  exact ⟨_, R, threeTops, B, e, h1, hw, Or.inl one_pos, ht, by simp [threeTops], hB, he⟩

/-- The hypotheses of the partial theorem are met. -/
example {n : ℕ} (hn : 0 < n) (J : Junk) : ∃ R, pydisort refExt J (demoBlackDark n) = .ok R ∧ Sound refExt (demoBlackDark n)
    ∧ Lit (demoBlackDark n) ∧ ¬ 0 < (demoBlackDark n).I0 ∧ NoSource (demoBlackDark n) ∧ (demoBlackDark n).onlyFlux = false := by
  obtain ⟨R, h1, hw⟩ := demoBlackDark_call hn J
  exact ⟨R, h1, hw.sound, Or.inr (Or.inl one_pos), lt_irrefl _, fun _ _ j hj => absurd hj (by simp [demoBlackDark, demoBlack]), rfl⟩


/-- **C38 fails with a beam:** in several layers, for most numbers of depths, asking for the estimate raises although the intensity
itself is returned. -/
theorem C38_beam_in_layers_raises (h : pydisort E J a = .ok R) (hI : 0 < a.I0) (hL : 2 ≤ a.tauArr.n) {tau : A1 ℝ}
    (h1 : tau.n ≠ 1) (h2 : tau.n ≠ a.tauArr.n) (phi : A1 ℝ) : ∃ e, R.fourierError tau phi false = .error e := by
  obtain ⟨_, _, e2⟩ := depthOK_of h
  unfold Solved.fourierError
  cases hu : R.u tau phi false with
  | error e => exact ⟨e, rfl⟩
  | ok A =>
    simp only [bind, Except.bind]
    unfold AsmIn.fourierError
    cases hx : R.I.uRaw R.S tau phi false with
    | error e => exact ⟨e, rfl⟩
    | ok x =>
      simp only [bind, Except.bind]
      unfold AsmIn.ulast
      rw [if_pos ((beam_iff h).2 hI)]
      unfold AsmIn.ulastBeam
      rw [if_neg (by simp)]
      by_cases hh : ∃ t < tau.n, R.I.NFourier ≤ R.I.layer (tau.get t)
      · rw [if_pos hh]; exact ⟨_, rfl⟩
      · rw [if_neg hh]
        simp only [A2.bin, A1.row, A1.map, bind, Except.bind]
        rw [bdim_one_right]
        simp only
        rw [bdim_error (by rw [e2]; exact Ne.symm h2) (by omega) h1]
        exact ⟨_, rfl⟩

/-- **C38 is false**: for every number of streams there is a well-posed problem for which `u(tau, phi)` returns and asking
for the Fourier error raises. -/
theorem C38_false {n : ℕ} (hn : 0 < n) (J : Junk) (phi : A1 ℝ) : ∃ a R tau A e, pydisort refExt J a = .ok R ∧ WellPosed refExt a
    ∧ Lit a ∧ InRange a tau ∧ 0 < tau.n ∧ R.u tau phi false = .ok A ∧ R.fourierError tau phi false = .error e := by
  obtain ⟨x, R, h1, hw, h2, h3⟩ := demo_call hn J
  have ht := threeTops_inRange hw.accepted
  obtain ⟨B, hB, _⟩ := u_returns h1 (rfl : (demo n x).onlyFlux = false) (phi := phi) ht (fun h => by simp [demo] at h)
  obtain ⟨e, he⟩ := C38_beam_in_layers_raises h1 (show (0 : ℝ) < (demo n x).I0 from one_pos) (by simp [demo])
    (tau := threeTops) (by simp [threeTops]) (by simp [demo, threeTops]) phi
  exact ⟨_, R, threeTops, B, e, h1, hw, Or.inl one_pos, ht, by simp [threeTops], hB, he⟩

/-- The hypotheses of the partial theorem are met, also with an internal source. -/
example {n : ℕ} (hn : 1 < n) (J : Junk) : ∃ R U, pydisort refExt J (demoDark n) = .ok R ∧ Sound refExt (demoDark n)
    ∧ Lit (demoDark n) ∧ ¬ 0 < (demoDark n).I0 ∧ 1 < nFourier (demoDark n) ∧ ¬ NoSource (demoDark n) ∧
    (demoDark n).onlyFlux = false ∧ IsModes (demoDark n) R U ∧ InRange (demoDark n) threeTops := by
  have hw := demoDark_wellPosed (n := n) (by omega)
  obtain ⟨R, h1⟩ := pydisort_isOk hw J
  exact ⟨R, _, h1, hw.sound, Or.inr (Or.inl one_pos), lt_irrefl _, by simpa [nFourier, demoDark, demo] using hn,
    fun h => one_ne_zero (h 0 (by simp [demoDark, demo]) 0 (by simp [demoDark, demo])), rfl, modes_val h1, threeTops_inRange hw.accepted⟩

end
end Pydisort

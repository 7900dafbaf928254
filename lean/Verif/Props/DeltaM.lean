import Verif.Props.Evaluate

/-!
# C23-C26, C28, C30: delta-M scaling and source rescaling
-/

namespace Pydisort
open Finset Spec

variable {E : Ext} {J : Junk} {a : Args} {R : Solved}

/-! ## C23 -/

/-- **C23.** For a call that succeeds with every `f < 1`, the data passed on after delta-M scaling are physical:
the scaled thickness of each layer is positive and at most the original one, the scaled albedo lies in `[0, 1)` and is
at most the original one, and the scaled zeroth Legendre coefficient is one wherever there is scattering. -/
theorem C23_scaled_optics_physical (h : pydisort E J a = .ok R) (hf : ∀ l < a.tauArr.n, peak a l < 1) {l : ℕ}
    (hl : l < a.tauArr.n) :
    0 < R.I.tau0 (l + 1) - R.I.tau0 l ∧
    R.I.tau0 (l + 1) - R.I.tau0 l ≤ bdry a.tauArr.get (l + 1) - bdry a.tauArr.get l ∧
    0 ≤ R.I.omega l ∧ R.I.omega l < 1 ∧ R.I.omega l ≤ a.omega.get l ∧
    (a.omega.get l ≠ 0 → R.I.wLeg l 0 = 1) := by
  have hmono := tau0_mono h hl
  obtain ⟨hacc, O, r, hO, hr, hI, _⟩ := pydisort_ok h
  have hs := Args.optics_spec hacc hO
  obtain ⟨hd, e1, e2⟩ := depthOK_of h
  have hsp := Args.scale_pos hacc hl
  have hpr := Args.peak_range hacc l
  have hom := hacc.omega l hl
  have hpl := hf l hl
  have hsc : R.I.scale l = scale a l := by rw [hI]; exact hs.scale l hl
  have how : R.I.omega l = omegaStar a l := by rw [hI]; exact hs.omega l hl
  have hsl : scale a l = 1 - a.omega.get l * peak a l := rfl
  refine ⟨by linarith, ?_, ?_, ?_, ?_, fun hne => ?_⟩
  · rw [hd.step l (by omega), hsc, e1]
    have := hd.mono l (by omega)
    rw [e1] at this
    nlinarith [mul_nonneg hom.1 hpr.1]
  · rw [how]; exact div_nonneg (mul_nonneg (by linarith) hom.1) hsp.le
  · rw [how, omegaStar, div_lt_one hsp, hsl]; nlinarith
  · rw [how, omegaStar, div_le_iff₀ hsp, hsl]
    nlinarith [mul_nonneg (mul_nonneg hom.1 hpr.1) (sub_nonneg.2 hom.2.le)]
  · have : R.I.wLeg l 0 = (2 * ((0 : ℕ) : ℝ) + 1) * legStar a l 0 := by rw [hI]; exact hs.wLeg l hl 0 hne
    rw [this, legStar, leg, if_pos rfl, div_self (by linarith)]
    simp

/-- The hypotheses of C23 are met by calls with any number of streams. -/
example {n : ℕ} (hn : 0 < n) (J : Junk) : ∃ (x : ℝ) (R : Solved), pydisort refExt J (demo n x) = .ok R ∧
    (∀ l < (demo n x).tauArr.n, peak (demo n x) l < 1) ∧ (demo n x).omega.get 1 ≠ 0 := by
  obtain ⟨x, R, hR, hw, _⟩ := demo_call hn J
  exact ⟨x, R, hR, hw.peak, by simp [demo]⟩

/-! ## C24 -/

theorem bdryStar_step (hacc : Accepted a) {p q : ℕ} (hpq : p ≤ q) (hq : q ≤ a.tauArr.n) :
    0 ≤ bdryStar a q - bdryStar a p ∧
      bdryStar a q - bdryStar a p ≤ bdry a.tauArr.get q - bdry a.tauArr.get p := by
  induction q, hpq using Nat.le_induction with
  | base => simp
  | succ q hle ih =>
    obtain ⟨i1, i2⟩ := ih (by omega)
    have hsp := Args.scale_pos hacc (l := q) (by exact hq)
    have hsl : scale a q = 1 - a.omega.get q * peak a q := rfl
    have hpr := Args.peak_range hacc q
    have hom := hacc.omega q hq
    have hth : bdry a.tauArr.get q < bdry a.tauArr.get (q + 1) := by
      rw [bdry_succ]
      unfold bdry
      split_ifs with h0
      · subst h0; exact hacc.top
      · have := hacc.increasing (q - 1) (by omega)
        rwa [Nat.sub_add_cancel (by omega)] at this
    have : bdryStar a (q + 1) = bdryStar a q + scale a q * (bdry a.tauArr.get (q + 1) - bdry a.tauArr.get q) := by
      simp [bdryStar, sum_range_succ]
    rw [this]
    have hm := mul_nonneg hom.1 hpr.1
    constructor <;> nlinarith

/-- Every depth of the atmosphere lies in a layer. -/
theorem exists_inLayer (h : pydisort E J a = .ok R) {t : ℝ} (h0 : 0 ≤ t) (h1 : t ≤ a.tauArr.get (a.tauArr.n - 1)) :
    ∃ l < a.tauArr.n, InLayer a l t ∧ (bdry a.tauArr.get l < t ∨ l = 0) := by
  obtain ⟨hd, e1, e2⟩ := depthOK_of h
  obtain ⟨l, hl, h3, h4, _⟩ := AsmIn.exists_layer hd (t := t) (by rw [e1, e2]; exact h1)
  rw [e1] at h3 h4
  refine ⟨l, by omega, ⟨?_, h4⟩, h3⟩
  rcases h3 with h3 | h3
  · exact h3.le
  · subst h3; simpa [bdry] using h0

theorem bdry_le (hacc : Accepted a) {p q : ℕ} (hpq : p ≤ q) (hq : q ≤ a.tauArr.n) :
    bdry a.tauArr.get p ≤ bdry a.tauArr.get q := by
  have := bdryStar_step hacc hpq hq; linarith

/-- Two depths: the scaled distance is positive and at most the original one. -/
theorem scaledTau_diff (h : pydisort E J a = .ok R) {x y : ℝ} (hx : 0 ≤ x) (hxy : x < y)
    (hy : y ≤ a.tauArr.get (a.tauArr.n - 1)) :
    0 < R.I.scaledTau y - R.I.scaledTau x ∧ R.I.scaledTau y - R.I.scaledTau x ≤ y - x := by
  have hacc := (pydisort_ok h).1
  obtain ⟨p, hp, hxp, hxp'⟩ := exists_inLayer h hx (hxy.le.trans hy)
  obtain ⟨q, hq, hyq, hyq'⟩ := exists_inLayer h (hx.trans hxy.le) hy
  have sp : ∀ k, k < a.tauArr.n → 0 < scale a k ∧ scale a k ≤ 1 := fun k hk => by
    have hm := mul_nonneg (hacc.omega k hk).1 (Args.peak_range hacc k).1
    exact ⟨Args.scale_pos hacc hk, by unfold scale; linarith⟩
  have hpq : p ≤ q := by
    by_contra hlt
    push Not at hlt
    have := bdry_le hacc (show q + 1 ≤ p by omega) hp.le
    linarith [hyq.2, hxp.1]
  rw [scaledTau_of h hp hxp, scaledTau_of h hq hyq]
  rcases Nat.eq_or_lt_of_le hpq with rfl | hlt
  · have := sp p hp
    unfold tauStar
    constructor <;> nlinarith
  · have e : tauStar a p x = bdryStar a (p + 1) - scale a p * (bdry a.tauArr.get (p + 1) - x) := by
      rw [bdryStar_eq]; unfold tauStar; ring
    have hb := bdryStar_step hacc (show p + 1 ≤ q by omega) hq.le
    have h1 := sp p hp
    have h2 := sp q hq
    have hq0 : bdry a.tauArr.get q < y := by
      rcases hyq' with h' | h'
      · exact h'
      · omega
    rw [e]
    unfold tauStar
    have := hxp.2
    constructor <;> nlinarith

/-- **C24.** The map from the caller's optical depth to the depth used internally is continuous and strictly increasing
on the atmosphere, `0` at the top, equal to the cumulative scaled depth at every layer boundary, has slope `1 - ω f`
inside each layer, and is a bijection onto the scaled atmosphere. -/
theorem C24_depth_map (h : pydisort E J a = .ok R) :
    ContinuousOn R.I.scaledTau (Set.Icc 0 (a.tauArr.get (a.tauArr.n - 1))) ∧
    StrictMonoOn R.I.scaledTau (Set.Icc 0 (a.tauArr.get (a.tauArr.n - 1))) ∧
    R.I.scaledTau 0 = 0 ∧
    (∀ l ≤ a.tauArr.n, R.I.scaledTau (bdry a.tauArr.get l) = R.I.tau0 l) ∧
    (∀ l < a.tauArr.n, ∀ t, bdry a.tauArr.get l < t → t < bdry a.tauArr.get (l + 1) →
      HasDerivAt R.I.scaledTau (1 - a.omega.get l * peak a l) t) ∧
    Set.BijOn R.I.scaledTau (Set.Icc 0 (a.tauArr.get (a.tauArr.n - 1))) (Set.Icc 0 (R.I.tau0 a.tauArr.n)) := by
  obtain ⟨hacc, O, r, hO, hr, hI, _⟩ := pydisort_ok h
  have hs := Args.optics_spec hacc hO
  have hL := hacc.layers
  have ht0 : ∀ k ≤ a.tauArr.n, R.I.tau0 k = bdryStar a k := fun k hk => by rw [hI]; exact hs.tau0 k hk
  have hmono : StrictMonoOn R.I.scaledTau (Set.Icc 0 (a.tauArr.get (a.tauArr.n - 1))) := fun x hx y hy hxy => by
    linarith [(scaledTau_diff h hx.1 hxy hy.2).1]
  have hcont : ContinuousOn R.I.scaledTau (Set.Icc 0 (a.tauArr.get (a.tauArr.n - 1))) := by
    refine LipschitzOnWith.continuousOn (K := 1) (LipschitzOnWith.of_dist_le_mul fun x hx y hy => ?_)
    simp only [NNReal.coe_one, one_mul, Real.dist_eq]
    rcases lt_trichotomy x y with hxy | rfl | hxy
    · have := scaledTau_diff h hx.1 hxy hy.2
      rw [abs_sub_comm, abs_of_pos this.1, abs_sub_comm, abs_of_pos (sub_pos.2 hxy)]; exact this.2
    · simp
    · have := scaledTau_diff h hy.1 hxy hx.2
      rw [abs_of_pos this.1, abs_of_pos (sub_pos.2 hxy)]; exact this.2
  have hb : ∀ l ≤ a.tauArr.n, R.I.scaledTau (bdry a.tauArr.get l) = R.I.tau0 l := by
    intro l hl
    rw [ht0 l hl]
    rcases Nat.eq_zero_or_pos l with rfl | hpos
    · rw [scaledTau_of h hL ⟨le_rfl, bdry_le hacc (by omega) (by omega)⟩]
      simp [tauStar, bdry, bdryStar]
    · obtain ⟨k, rfl⟩ : ∃ k, l = k + 1 := ⟨l - 1, by omega⟩
      rw [scaledTau_of h (l := k) (by omega) ⟨bdry_le hacc (by omega) hl, le_rfl⟩, ← bdryStar_eq]
  have h00 : R.I.scaledTau 0 = 0 := by
    have := hb 0 (by omega)
    rw [ht0 0 (by omega)] at this
    simpa [bdry, bdryStar] using this
  have hbot : bdry a.tauArr.get a.tauArr.n = a.tauArr.get (a.tauArr.n - 1) := by
    unfold bdry; rw [if_neg (by omega)]
  have hnn : (0 : ℝ) ≤ a.tauArr.get (a.tauArr.n - 1) := by
    rw [← hbot]; have := bdry_le hacc (Nat.zero_le a.tauArr.n) le_rfl; simpa [bdry] using this
  refine ⟨hcont, hmono, h00, hb, fun l hl t h1 h2 => ?_, ?_⟩
  · have hev : R.I.scaledTau =ᶠ[nhds t] fun x => bdryStar a l + scale a l * (x - bdry a.tauArr.get l) := by
      filter_upwards [Ioo_mem_nhds h1 h2] with x hx
      exact scaledTau_of h hl ⟨hx.1.le, hx.2.le⟩
    refine HasDerivAt.congr_of_eventuallyEq ?_ hev
    have := (((hasDerivAt_id t).sub_const (bdry a.tauArr.get l)).const_mul (scale a l)).const_add (bdryStar a l)
    simpa [scale] using this
  · have hend := hb a.tauArr.n le_rfl
    rw [hbot] at hend
    refine ⟨fun x hx => ?_, hmono.injOn, fun y hy => ?_⟩
    · have m1 := hmono.monotoneOn (Set.left_mem_Icc.2 hnn) hx hx.1
      have m2 := hmono.monotoneOn hx (Set.right_mem_Icc.2 hnn) hx.2
      rw [h00] at m1
      rw [hend] at m2
      exact ⟨m1, m2⟩
    · have := intermediate_value_Icc hnn hcont
      rw [h00, hend] at this
      exact this hy

/-- The call in C24 exists, with a slope that is not one. -/
example {n : ℕ} (hn : 0 < n) (J : Junk) : ∃ (x : ℝ) (R : Solved), pydisort refExt J (demo n x) = .ok R ∧
    1 - (demo n x).omega.get 0 * peak (demo n x) 0 = 15 / 16 := by
  obtain ⟨x, R, hR, _⟩ := demo_call hn J
  exact ⟨x, R, hR, by rw [demo_peak (by simp [demo])]; simp [demo]; norm_num⟩

/-! ## C25 -/

/-- **C25.** The source polynomial used internally (undoing the rescaling), evaluated at the scaled depth and multiplied
by `dτ*/dτ`, is `(1 - ω)` times the caller's source polynomial at the caller's depth. -/
theorem C25_source_transport (h : pydisort E J a = .ok R) (hres : Rescalable a) {l : ℕ} (hl : l < a.tauArr.n) {t : ℝ}
    (ht : InLayer a l t) :
    (1 - a.omega.get l * peak a l) * (R.I.rescale * ∑ k ∈ range R.I.Nscoeffs, R.I.s l k * R.I.scaledTau t ^ k)
      = (1 - a.omega.get l) * source a l t := by
  rw [scaledTau_of h hl ht]
  obtain ⟨hacc, O, r, hO, hr, hI, _⟩ := pydisort_ok h
  have hs := Args.optics_spec hacc hO
  rw [hI]
  by_cases hi : a.Iso
  · have hn : a.nsc = a.s.c := Args.nsc_of_iso hi
    have e : (a.asmIn (node E a) (weight E a) O r).Nscoeffs = a.s.c := hn
    have e2 : ∀ k, (a.asmIn (node E a) (weight E a) O r).s l k = O.s.get l k / r := fun k => by
      simp [Args.asmIn, hi]
    have e3 : (a.asmIn (node E a) (weight E a) O r).rescale = r := rfl
    rw [← hs.src hi l hl t, e, e3]
    show scale a l * _ = _
    congr 1
    rw [mul_sum]
    refine sum_congr rfl fun k _ => ?_
    rw [e2, ← mul_assoc, rescale_s hacc hs hr hres hi]
  · have hn : (a.asmIn (node E a) (weight E a) O r).Nscoeffs = 0 := by
      show a.nsc = 0
      unfold Args.Iso at hi; omega
    rw [hn]
    have hno : NoSource a := by
      by_contra hc; exact hi (Args.iso_iff.2 hc)
    have : source a l t = 0 := by
      unfold source
      split_ifs with hlr
      · exact sum_eq_zero fun k hk => by rw [hno l hlr k (mem_range.1 hk), zero_mul]
      · rfl
    rw [this]; simp

example {n : ℕ} (hn : 0 < n) (J : Junk) : ∃ (x : ℝ) (R : Solved), pydisort refExt J (demo n x) = .ok R ∧
    Rescalable (demo n x) ∧ InLayer (demo n x) 1 (3 / 2) ∧ source (demo n x) 1 (3 / 2) = 5 / 2 := by
  obtain ⟨x, R, hR, _⟩ := demo_call hn J
  refine ⟨x, R, hR, demo_rescalable x, ?_, ?_⟩
  · simp [InLayer, bdry, demo]; norm_num
  · simp [source, demo, sum_range_succ]; norm_num

/-! ## C26 -/

/-- **C26.** When all `f` vanish (the branch without scaling), the quantities passed on are those of the delta-M
formulas with `f = 0`: `scale = 1 - ω f`, `τ* = Σ scale · thickness`, `ω* = (1 - f) ω / (1 - ω f)`,
`g* = (g - f) / (1 - f)` weighted by `2 k + 1`, and the source `(1 - ω) s` re-expressed in `τ* = τ`. -/
theorem C26_no_scaling_shortcut (h : pydisort E J a = .ok R) (hf : ∀ k < a.fArr.n, a.fArr.get k = 0) {l : ℕ}
    (hl : l < a.tauArr.n) :
    R.I.scale l = 1 - a.omega.get l * 0 ∧
    R.I.tau0 (l + 1) = ∑ k ∈ range (l + 1), (1 - a.omega.get k * 0) * (bdry a.tauArr.get (k + 1) - bdry a.tauArr.get k) ∧
    R.I.omega l = (1 - 0) * a.omega.get l / (1 - a.omega.get l * 0) ∧
    (a.omega.get l ≠ 0 → ∀ k, R.I.wLeg l k = (2 * (k : ℝ) + 1) * ((leg a l k - 0) / (1 - 0))) ∧
    (∀ t, InLayer a l t → R.I.scaledTau t = t) ∧
    (Rescalable a → ¬ NoSource a → ∀ k < a.s.c, R.I.rescale * R.I.s l k = (1 - a.omega.get l) * a.s.get l k) := by
  have hst := fun t => scaledTau_of h hl (t := t)
  obtain ⟨hacc, O, r, hO, hr, hI, _⟩ := pydisort_ok h
  have hs := Args.optics_spec hacc hO
  have hf' : ¬ ∃ k < a.fArr.n, 0 < a.fArr.get k := by
    rintro ⟨k, hk, hp⟩; rw [hf k hk] at hp; exact lt_irrefl _ hp
  have hp : ∀ l, peak a l = 0 := Args.peak_of_zero hacc hf'
  have hsc : ∀ k, scale a k = 1 := fun k => by unfold scale; rw [hp]; ring
  have hb : ∀ k, bdryStar a k = bdry a.tauArr.get k := fun k => by
    induction k with
    | zero => simp [bdryStar, bdry]
    | succ k ih =>
      have : bdryStar a (k + 1) = bdryStar a k + scale a k * (bdry a.tauArr.get (k + 1) - bdry a.tauArr.get k) := by
        simp [bdryStar, sum_range_succ]
      rw [this, ih, hsc]; ring
  refine ⟨?_, ?_, ?_, fun hne k => ?_, fun t ht => ?_, fun hres hno k hk => ?_⟩
  · rw [hI]
    have := hs.scale l hl
    rw [hsc] at this
    rw [mul_zero, sub_zero]; exact this
  · rw [hI]
    have := hs.tau0 (l + 1) hl
    refine Eq.trans this ?_
    unfold bdryStar
    refine sum_congr rfl fun k _ => ?_
    rw [hsc]; ring
  · rw [hI]
    refine (hs.omega l hl).trans ?_
    unfold omegaStar; rw [hp, hsc]; ring
  · rw [hI]
    refine (hs.wLeg l hl k hne).trans ?_
    unfold legStar; rw [hp]
  · rw [hst t ht]
    unfold tauStar; rw [hsc, hb]; ring
  · have hi : a.Iso := Args.iso_iff.2 hno
    rw [hI]
    have e2 : (a.asmIn (node E a) (weight E a) O r).s l k = O.s.get l k / r := by simp [Args.asmIn, hi]
    have e3 : (a.asmIn (node E a) (weight E a) O r).rescale = r := rfl
    rw [e2, e3, rescale_s hacc hs hr hres hi]
    unfold Args.optics at hO
    rw [if_neg hf'] at hO
    rcases h3 : A2.bin (fun x y : ℝ => x * y) a.s (A1.col ⟨a.NLayers, fun k => 1 - a.omega.get k⟩) with e | s3
    · rw [h3] at hO; cases hO
    rw [h3] at hO; cases hO
    obtain ⟨g1, g2, g3⟩ := Args.bin_ok h3
    have hrow : a.s.r = a.NLayers := by
      rcases hacc.sourceRows with h' | h'
      · exact absurd h' hno
      · exact h'
    have hl' : l < a.NLayers := hl
    rw [g3, hrow, bix_of_lt hl', bix_of_lt hk]
    simp only [A1.col]
    rw [bix_of_lt hl']
    ring

/-- A call to which C26 applies, with a source. -/
example {n : ℕ} (hn : 0 < n) (J : Junk) : ∃ (a : Args) (R : Solved), pydisort refExt J a = .ok R ∧
    (∀ k < a.fArr.n, a.fArr.get k = 0) ∧ Rescalable a ∧ ¬ NoSource a ∧ nHalf a = n := by
  have hw : WellPosed refExt { demoDark n with fArr := ⟨1, fun _ => 0⟩ } := by
    have hh : nHalf { demoDark n with fArr := ⟨1, fun _ => 0⟩ } = n := demo_nHalf 1
    refine wellPosed_of { demoDark_accepted hn with peakLen := Or.inl fun _ _ => rfl, peak := fun _ _ => ?_ } ?_ ?_ ?_
      (beamRegular_dark rfl _ _) (Or.inr ⟨1 / 3, by norm_num, rfl⟩) trivial trivial (Or.inr rfl) rfl
    · norm_num
    · rw [hh]; exact hn
    · intro l _; unfold peak; split_ifs <;> simp
    · rw [hh]; simp [nLeg, demoDark, demo]
  obtain ⟨R, hR⟩ := pydisort_isOk hw J
  refine ⟨_, R, hR, fun _ _ => rfl, Or.inl (Or.inr (Or.inl ?_)), fun hno => ?_, demo_nHalf 1⟩
  · show (0 : ℝ) < 1
    norm_num
  · have : (1 : ℝ) = 0 := hno 0 (by simp [demoDark, demo]) 0 (by simp [demoDark, demo])
    norm_num at this

/-! ## C28: `f = 1` is not rejected -/

/-- **C28 is false.** The property asks that an input with some `f = 1` be rejected. In fact validation passes for every
otherwise accepted input when every `f` is set to one: the check on lines 286-287 of `pydisort.py` allows `f ≤ 1`, and
line 331 then divides by `1 - f = 0`. -/
theorem C28_false_peak_one_accepted (h : Accepted a) :
    ({ a with fArr := ⟨a.tauArr.n, fun _ => 1⟩ } : Args).validate = .ok () :=
  Args.validate_iff.2 { h with peakLen := Or.inr rfl, peak := fun _ _ => ⟨zero_le_one, le_rfl⟩ }

/-- ... in particular for a problem that is otherwise well posed. -/
theorem C28_false : ∃ a : Args, (∃ l < a.tauArr.n, 0 < a.omega.get l ∧ a.fArr.get l = 1) ∧ a.validate = .ok () :=
  ⟨{ demoDark 2 with fArr := ⟨2, fun _ => 1⟩ }, ⟨0, by simp [demoDark, demo], by simp [demoDark, demo], rfl⟩,
    C28_false_peak_one_accepted (demoDark_accepted (n := 2) (by norm_num))⟩

/-- **C28, the part that holds.** Fractions outside `[0, 1]` are rejected, whatever the other arguments are. Missing:
the rejection of `f = 1` itself. -/
theorem C28_out_of_range_rejected_partial {l : ℕ} (hl : l < a.fArr.n) (hf : a.fArr.get l < 0 ∨ 1 < a.fArr.get l) :
    ∀ R, pydisort E J a ≠ .ok R := by
  intro R h
  have := (pydisort_ok h).1.peak l hl
  rcases hf with hf | hf <;> linarith

/-- An input that is rejected for this reason alone. -/
example {n : ℕ} (hn : 0 < n) : ∃ (b : Args) (f : A1 ℝ), Accepted b ∧ nHalf b = n ∧ ∃ l < f.n, 1 < f.get l :=
  ⟨demoDark n, ⟨2, fun _ => 2⟩, demoDark_accepted hn, demo_nHalf 1, 0, by norm_num, by norm_num⟩

/-! ## C30: the rescale factor can vanish -/

/-- All sources are non-negative: beam, boundary values, and the internal source at every depth. -/
def NonnegSources (a : Args) : Prop :=
  0 ≤ a.I0 ∧ (∀ m i, 0 ≤ bcVal a.bpos m i) ∧ (∀ m i, 0 ≤ bcVal a.bneg m i) ∧
    ∀ l < a.tauArr.n, ∀ t, InLayer a l t → 0 ≤ source a l t

/-- A source that is zero at the top and at the bottom of the atmosphere and positive in between: `τ` in the first
layer, `2 - τ` in the second; nothing else. -/
noncomputable def demoInner (n : ℕ) : Args :=
  { demoDark n with
    bpos := .scalar 0
    bneg := .scalar 0
    s := ⟨2, 2, fun l k => if l = 0 then (if k = 0 then 0 else 1) else (if k = 0 then 2 else -1)⟩ }

/-- **C30 is false.** For every number of streams there is an accepted input with non-negative sources, not all zero, for
which the factor by which all sources are divided (line 361 of `pydisort.py`) is zero. -/
theorem C30_false (E : Ext) {n : ℕ} (hn : 0 < n) : ∃ a : Args, nHalf a = n ∧ Accepted a ∧ NonnegSources a ∧
    (∃ l < a.tauArr.n, ∃ t, InLayer a l t ∧ 0 < source a l t) ∧
    ∃ p, prepare E a = .ok p ∧ p.1.iso = true ∧ p.1.rescale = 0 := by
  have hsrc0 : ∀ t, source (demoInner n) 0 t = t := fun t => by
    simp [source, demoInner, demoDark, demo, sum_range_succ]
  have hsrc1 : ∀ t, source (demoInner n) 1 t = 2 - t := fun t => by
    simp [source, demoInner, demoDark, demo, sum_range_succ]; ring
  have hacc : Accepted (demoInner n) :=
    { demoDark_accepted hn with sourceRows := Or.inr rfl, bottom := trivial, topBC := trivial }
  have hbc : ∀ m i, bcVal (.scalar 0) m i = 0 := fun m i => by simp [bcVal]
  have hhalf : nHalf (demoInner n) = n := demo_nHalf 1
  refine ⟨demoInner n, hhalf, hacc, ⟨le_rfl, fun m i => (hbc m i).ge, fun m i => (hbc m i).ge, ?_⟩, ?_, ?_⟩
  · intro l hl t ht
    have hl' : l < 2 := hl
    interval_cases l
    · rw [hsrc0]; simpa [bdry] using ht.1
    · rw [hsrc1]
      have := ht.2
      simp [bdry, demoInner, demoDark, demo] at this
      linarith
  · refine ⟨0, by simp [demoInner, demoDark, demo], 1 / 2, ?_, by rw [hsrc0]; norm_num⟩
    simp [InLayer, bdry, demoInner, demoDark, demo]; norm_num
  · obtain ⟨q, hq, _, _⟩ := quad_isOk (E := E) hacc (fun h => by simp [demoInner, demoDark, demo] at h)
    obtain ⟨O, hO⟩ := optics_isOk hacc (Or.inr rfl)
    obtain ⟨r, hr⟩ := rescaleFactor_isOk (demoInner n) O
    have hv := Args.validate_iff.2 hacc
    have hi : (demoInner n).Iso := by
      rw [Args.iso_iff]
      intro hno
      have : (2 : ℝ) = 0 := hno 1 (by simp [demoInner]) 0 (by simp [demoInner])
      norm_num at this
    obtain ⟨r0, rl⟩ := rescale_spec hacc (Args.optics_spec hacc hO) hr
    have hr0 : r = 0 := by
      refine le_antisymm (not_lt.1 fun hlt => ?_) r0
      rcases rl.1 hlt with h' | h' | h' | h' | h'
      · exact lt_irrefl _ h'
      · exact lt_irrefl (0 : ℝ) h'
      · exact lt_irrefl (0 : ℝ) h'
      · rw [hsrc0] at h'; exact lt_irrefl _ h'
      · have e : (demoInner n).tauArr.n - 1 = 1 := rfl
        rw [e, hsrc1] at h'
        simp [demoInner, demoDark, demo] at h'
        norm_num at h'
    refine ⟨((demoInner n).asmIn q.1.get q.2.get O r, (demoInner n).ntIn q.1.get O r), ?_, ?_, ?_⟩
    · unfold prepare
      rw [hv]; simp only [bind, Except.bind]
      rw [hq]; simp only
      rw [hO]; simp only
      rw [hr]; rfl
    · simp [Args.asmIn, hi]
    · exact hr0

/-- **C30, the part that holds.** The rescale factor is positive exactly when there is a beam, a positive boundary value,
or an internal source that is positive at the very top or the very bottom. Missing: sources that are positive only in
between. -/
theorem C30_rescale_factor_partial (h : pydisort E J a = .ok R) : 0 ≤ R.I.rescale ∧
    (0 < R.I.rescale ↔ 0 < a.I0 ∨ HasPos a.bpos ∨ HasPos a.bneg ∨ 0 < source a 0 0
      ∨ 0 < source a (a.tauArr.n - 1) (a.tauArr.get (a.tauArr.n - 1))) := by
  obtain ⟨hacc, O, r, hO, hr, hI, _⟩ := pydisort_ok h
  have hs := Args.optics_spec hacc hO
  rw [hI]
  exact rescale_spec hacc hs hr

end Pydisort

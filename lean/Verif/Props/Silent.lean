import Verif.WitnessIso
import Verif.Props.Estimate

/-!
# C35 and C38: values that are wrong without an error

Beside raising (`C35_false`, `C38_false`) the antiderivative of the downward flux and the Fourier error estimate can also return wrong numbers.
-/

namespace Pydisort
open Finset Spec

noncomputable section

theorem demoIso_steep {n L F : ℕ} {x : ℝ} (hn : 0 < n) (hw : WellPosed refExt (demoIso n L F x))
    (hx : ∀ i < n, node refExt (demoIso n L F x) i < x) : ∀ i < 2 * n, 0 < 1 + stream n (node refExt (demoIso n L F x)) i / x := by
  have hN : nHalf (demoIso n L F x) = n := demoIso_nHalf
  have hx0 : 0 < x := (node_pos hw.gauss (i := 0) (by rw [hN]; exact hn)).1.trans (hx 0 hn)
  intro i hi
  have h1 : -x < stream n (node refExt (demoIso n L F x)) i := by
    unfold stream
    split_ifs with h2
    · have := (node_pos hw.gauss (i := i) (by rw [hN]; exact h2)).1
      linarith
    · have := hx (i - n) (by omega)
      linarith
  have : -1 < stream n (node refExt (demoIso n L F x)) i / x := by rw [lt_div_iff₀ hx0]; linarith
  linarith

/-- In the isotropic atmosphere with a steep beam the particular solution has one sign. -/
theorem demoIso_particular {n L F : ℕ} {x : ℝ} {J : Junk} {R : Solved} (hn : 0 < n) (hF : 0 < F)
    (h : pydisort refExt J (demoIso n L F x) = .ok R) (hw : WellPosed refExt (demoIso n L F x))
    (hx : ∀ i < n, node refExt (demoIso n L F x) i < x) {l : ℕ} (hl : l < L) :
    ∃ c : ℝ, c ≠ 0 ∧ ∀ i < 2 * n, ∃ d : ℝ, 0 < d ∧ R.I.rescale * R.S.B 0 l i = c * d := by
  set a := demoIso n L F x with ha
  have hN : nHalf a = n := demoIso_nHalf
  have hres : Rescalable a := Or.inl (Or.inl one_pos)
  have key : ∀ i < 2 * n, (R.I.rescale * R.S.B 0 l i) * (1 + stream n (node refExt a) i / x)
      = omegaStar a l / 2 * (∑ j ∈ range (2 * n), streamW n (weight refExt a) j * (R.I.rescale * R.S.B 0 l j))
        + omegaStar a l / (4 * Real.pi) := by
    intro i hi
    have := beam_particular h hw.sound hres one_pos (m := 0) (l := l) (i := i) (by rw [demoIso_nFourier]; exact hF) hl
      (by rw [hN]; exact hi)
    rw [demoIso_beamSource hl hF, hN] at this
    rw [show (demoIso n L F x).mu0 = x from rfl] at this
    rw [this, mul_sum]
    congr 1
    exact sum_congr rfl fun j _ => by rw [demoIso_kernel hl hF]; ring
  have hpos : ∀ i < 2 * n, 0 < 1 + stream n (node refExt a) i / x := demoIso_steep hn hw hx
  set c := omegaStar a l / 2 * (∑ j ∈ range (2 * n), streamW n (weight refExt a) j * (R.I.rescale * R.S.B 0 l j))
        + omegaStar a l / (4 * Real.pi) with hc
  refine ⟨c, fun h0 => ?_, fun i hi => ⟨(1 + stream n (node refExt a) i / x)⁻¹, inv_pos.2 (hpos i hi), ?_⟩⟩
  · have hB : ∀ i < 2 * n, R.I.rescale * R.S.B 0 l i = 0 := fun i hi => by
      have := key i hi
      rw [h0] at this
      exact (mul_eq_zero.1 this).resolve_right (hpos i hi).ne'
    rw [hc, sum_eq_zero (fun j hj => by rw [hB j (mem_range.1 hj), mul_zero]), mul_zero, zero_add] at h0
    have := demoIso_omegaStar (n := n) (F := F) (x := x) hl
    have hp : 0 < omegaStar a l / (4 * Real.pi) := by
      have := Real.pi_pos
      have : 0 < omegaStar a l := by linarith
      positivity
    linarith
  · rw [← key i hi, mul_assoc, mul_inv_cancel₀ (hpos i hi).ne', mul_one]

/-- What `flux_down(tau, True)` returns with a beam, no internal source and as many depths as layers. -/
theorem fluxDown_anti_square {I : AsmIn} {S : Sols} (hd : I.DepthOK) (hi : I.iso = false) (hb : I.beam = true) {tau : A1 ℝ}
    (hn : tau.n = I.NLayers) (h : I.checkTau tau = .ok ()) :
    ∃ A, I.fluxDown S tau true = .ok A ∧ A.1.n = tau.n ∧ ∀ t < tau.n, A.1.get t = I.rescale * ((∑ i ∈ range I.N, (2 * Real.pi * (I.mu i * I.W i)) *
      ((∑ j ∈ range (2 * I.N), S.GC 0 (I.layer (tau.get t)) (I.N + i) j
          * (Real.exp (I.exponent S 0 (tau.get t) j) / (I.scale (I.layer (tau.get t)) * S.K 0 (I.layer (tau.get t)) j)))
        + S.B 0 (I.layer (tau.get t)) (I.N + i) / (-I.scale (I.layer (tau.get (I.layer (tau.get t)))) / I.mu0)
          * Real.exp (-I.scaledTau (tau.get t) / I.mu0)))
      + I.directScaled true (tau.get t) - I.direct true (tau.get t)) := by
  have hL : ∀ t, I.layer t < I.NLayers := AsmIn.layer_lt hd
  unfold AsmIn.fluxDown
  rw [h]
  simp only [bind, Except.bind]
  unfold AsmIn.fluxDownRaw AsmIn.fluxDownAntiBeam
  rw [if_pos rfl, if_pos hb, hn, bdim_self]
  simp only [bind, Except.bind, pure, Except.pure]
  rw [if_neg (by rintro ⟨t, _, h2⟩; exact absurd (hL (tau.get t)) (by omega))]
  simp only [AsmIn.addIso, hi, Bool.false_eq_true, if_false]
  rw [if_pos hb]
  simp only [A1.bin, AsmIn.fluxQuad, A1.map, hn, bdim_self, bind, Except.bind, pure, Except.pure]
  refine ⟨_, rfl, rfl, fun t ht => ?_⟩
  simp only [bix_of_lt ht, bix_of_lt (hL _)]

/-- **C35, wrong values.** For every number of streams there is a well-posed problem without internal source and two depths for which
`flux_down(tau, True)` returns, but its first entry is not what the same function returns for the first depth alone (which is the antiderivative
by `C35_flux_down_antiderivative_partial`). -/
theorem C35_wrong_value {n : ℕ} (hn : 0 < n) (J : Junk) : ∃ a R tau A B, pydisort refExt J a = .ok R ∧ WellPosed refExt a ∧ Rescalable a ∧
    NoSource a ∧ tau.n = 2 ∧ InRange a tau ∧ R.fluxDown tau true = .ok A ∧ R.fluxDown ⟨1, fun _ => tau.get 0⟩ true = .ok B ∧
    A.1.n = 2 ∧ A.1.get 0 ≠ B.1.get 0 := by
  obtain ⟨x, hw, hx⟩ := demoIso_wellPosed (n := n) (L := 2) (F := 1) hn two_pos one_pos hn
  obtain ⟨R, h⟩ := pydisort_isOk hw J
  set a := demoIso n 2 1 x with ha
  have hr : Rescalable a := Or.inl (Or.inl one_pos)
  obtain ⟨hd, e1, e2⟩ := depthOK_of h
  obtain ⟨hacc, O, r, hO, hr', hI, _⟩ := pydisort_ok h
  have hN : R.I.N = n := by rw [hI]; exact demoIso_nHalf (L := 2) (F := 1) (x := x)
  have hi := iso_false_of h demoIso_noSource
  have hb := (beam_iff h).2 (one_pos : (0 : ℝ) < a.I0)
  have hsc : ∀ l < 2, R.I.scale l = 1 - 1 / 2 * isoPeak l := fun l hl => by
    rw [← demoIso_scale (n := n) (F := 1) (x := x) hl, hI]; exact (Args.optics_spec hacc hO).scale l hl
  have hmu : R.I.mu0 = x := by rw [hI]; rfl
  have hr0 := rescale_pos_of_lit h (Or.inl one_pos)
  set tau : A1 ℝ := ⟨2, fun k => if k = 0 then 3 / 2 else 1 / 2⟩ with htau
  have ht : InRange a tau := fun t _ => by
    simp only [htau, ha, demoIso]
    split_ifs <;> norm_num
  have h1 : InRange a ⟨1, fun _ => tau.get 0⟩ := fun t _ => ht 0 (by simp [htau])
  have l0 : R.I.layer (tau.get 0) = 1 := AsmIn.layer_eq hd (by rw [e2]; exact one_lt_two)
    (Or.inl (by rw [e1]; norm_num [htau, bdry, ha, demoIso])) (by rw [e1]; norm_num [htau, bdry, ha, demoIso])
  have l1 : R.I.layer (tau.get 1) = 0 := AsmIn.layer_eq hd (by rw [e2]; exact two_pos)
    (Or.inr rfl) (by rw [e1]; norm_num [htau, bdry, ha, demoIso])
  obtain ⟨A, hA, hAn, hAv⟩ := fluxDown_anti_square (S := R.S) hd hi hb (tau := tau) (by rw [e2]; rfl) (checkTau_of_inRange h ht)
  obtain ⟨B, D, hB, hBn, hBv, _⟩ := AsmIn.fluxDown_anti (S := R.S) hd (tau := ⟨1, fun _ => tau.get 0⟩) (Or.inl hi) (fun _ => Or.inr rfl)
    (checkTau_of_inRange h h1)
  refine ⟨a, R, tau, A, (B, D, R.I.beam), h, hw, hr, demoIso_noSource, rfl, ht, hA, hB, hAn, ?_⟩
  have eA := hAv 0 (by simp [htau])
  have eB := hBv 0 (by simp)
  rw [l0, l1] at eA
  intro hne
  have hW : ∀ i < n, 0 < R.I.mu i * R.I.W i := fun i hi => by
    have h1 := (node_pos hw.gauss (i := i) (by rw [demoIso_nHalf]; exact hi)).1
    have h2 := weight_pos hw.gauss (i := i) (by rw [demoIso_nHalf]; exact hi)
    rw [hI]; exact mul_pos h1 h2
  obtain ⟨c, hc, hcd⟩ := demoIso_particular hn one_pos h hw hx (l := 1) one_lt_two
  choose! d hd0 hdv using hcd
  have hp0 : isoPeak 0 = 1 / 8 := if_pos rfl
  have hp1 : isoPeak 1 = 1 / 4 := if_neg one_ne_zero
  have hx0 : 0 < x := (hacc.beamDir one_pos).1.1
  rw [hne, eB] at eA
  simp only [AsmIn.valAnti, AsmIn.umAnti, hb, hi, l0, and_false, Bool.false_eq_true, if_true, if_false, add_zero, AsmIn.directScaled,
    AsmIn.direct, hN, hmu, hsc 0 two_pos, hsc 1 one_lt_two, hp0, hp1] at eA
  have eA' := mul_left_cancel₀ hr0.ne' eA
  simp only [mul_add, sum_add_distrib] at eA'
  have e3 : ∑ i ∈ range n, 2 * Real.pi * (R.I.mu i * R.I.W i) * (R.S.B 0 1 (n + i) / (-(1 - 1 / 2 * (1 / 4)) / x)
        * Real.exp (-R.I.scaledTau (tau.get 0) / x))
      = ∑ i ∈ range n, 2 * Real.pi * (R.I.mu i * R.I.W i) * (R.S.B 0 1 (n + i) / (-(1 - 1 / 2 * (1 / 8)) / x)
        * Real.exp (-R.I.scaledTau (tau.get 0) / x)) := by linarith
  rw [← sub_eq_zero, ← sum_sub_distrib] at e3
  have e4 : ∑ i ∈ range n, (R.I.mu i * R.I.W i) * d (n + i) = 0 := by
    have e5 : (-(8 / 105) * (2 * Real.pi * x * Real.exp (-R.I.scaledTau (tau.get 0) / x) / R.I.rescale * c))
        * ∑ i ∈ range n, (R.I.mu i * R.I.W i) * d (n + i) = 0 := by
      rw [← e3, mul_sum]
      refine sum_congr rfl fun i hi => ?_
      have hBi : R.S.B 0 1 (n + i) = c * d (n + i) / R.I.rescale := by
        rw [← hdv (n + i) (by have := mem_range.1 hi; omega)]; field_simp
      rw [hBi]
      field_simp
      ring
    refine (mul_eq_zero.1 e5).resolve_left ?_
    have h1 := Real.pi_pos
    have h2 := Real.exp_pos (-R.I.scaledTau (tau.get 0) / x)
    refine mul_ne_zero (by norm_num) (mul_ne_zero (by positivity) hc)
  have e6 : 0 < ∑ i ∈ range n, (R.I.mu i * R.I.W i) * d (n + i) :=
    sum_pos (fun i hi => mul_pos (hW i (mem_range.1 hi)) (hd0 _ (by have := mem_range.1 hi; omega))) ⟨0, mem_range.2 hn⟩
  exact absurd e4 e6.ne'

/-- **C38, wrong values.** For every number of streams above two there is a well-posed problem with one layer for which the Fourier error is
returned, but is positive although the last Fourier term vanishes, so that the estimate should be zero. -/
theorem C38_wrong_value {n : ℕ} (hn : 1 < n) (J : Junk) : ∃ a R tau phi U e, pydisort refExt J a = .ok R ∧ WellPosed refExt a ∧ Lit a ∧
    InRange a tau ∧ 0 < tau.n ∧ 0 < phi.n ∧ IsModes a R U ∧ IsFourierError a U (R.I.rescale / 10 ^ 8) tau phi 0 ∧
    R.fourierError tau phi false = .ok e ∧ 0 < e := by
  obtain ⟨x, hw, hx⟩ := demoIso_wellPosed (n := n) (L := 1) (F := 2) (by omega) one_pos two_pos (by omega)
  obtain ⟨R, h⟩ := pydisort_isOk hw J
  set a := demoIso n 1 2 x with ha
  have hr : Rescalable a := Or.inl (Or.inl one_pos)
  obtain ⟨hd, e1, e2⟩ := depthOK_of h
  obtain ⟨hacc, O, r, hO, hr', hI, _, hof, hg1, hg2⟩ := pydisort_ok h
  have hN : nHalf a = n := demoIso_nHalf
  have hN' : R.I.N = n := by rw [hI]; exact hN
  have hF : R.I.NFourier = 2 := by
    rw [← demoIso_nFourier (n := n) (L := 1) (F := 2) (x := x), hI, ← nFourier_eq (a := a)]; rfl
  have hp : R.I.phi0 = 1 := by rw [hI]; rfl
  have hi := iso_false_of h demoIso_noSource
  have hb := (beam_iff h).2 (one_pos : (0 : ℝ) < a.I0)
  have hmu : R.I.mu0 = x := by rw [hI]; rfl
  have hL : Lit a := Or.inl one_pos
  have hr0 := rescale_pos_of_lit h hL
  have hn' : R.nt = none := hg2 fun hg => absurd hg.1 (by simp [ha, demoIso])
  have hrle : R.I.rescale ≤ 1 := by
    rw [hI]
    change r ≤ 1
    have hiso : ¬ a.Iso := fun hc => Args.iso_iff.1 hc demoIso_noSource
    have hbp : a.bpos'.max = .ok 0 := by
      unfold Args.bpos'; split_ifs <;> rfl
    obtain ⟨q, hbn, hq⟩ : ∃ q, a.bneg'.max = .ok q ∧ q ≤ 1 := by
      unfold Args.bneg'; split_ifs
      · exact ⟨0, rfl, zero_le_one⟩
      · exact ⟨1, rfl, le_rfl⟩
    unfold Args.rescaleFactor at hr'
    rw [hbp, hbn] at hr'
    simp only [bind, Except.bind, pure, Except.pure, if_neg hiso] at hr'
    cases hr'
    exact max_le (max_le le_rfl zero_le_one) hq
  set tau : A1 ℝ := ⟨1, fun _ => 0⟩ with htau
  set phi : A1 ℝ := ⟨1, fun _ => 1⟩ with hphi
  have ht : InRange a tau := fun t _ => by norm_num [htau, ha, demoIso]
  have l0 : ∀ t, R.I.layer t = 0 := fun t => by
    have := AsmIn.layer_lt hd t
    rw [e2] at this
    exact Nat.lt_one_iff.1 this
  have hmodes := modes_val h
  have hins : ∀ l < a.tauArr.n, ¬ Significant (omegaStar a l) (nLeg a) (legStar a l) 1 := fun l hl => demoIso_insignificant hl one_pos
  -- the last mode vanishes
  have hU1 : ∀ t, 0 ≤ t → t ≤ bottom a → ∀ i < 2 * n, R.I.rescale * R.I.val R.S 1 t i = 0 := by
    have hm : (1 : ℕ) < nFourier a := by rw [demoIso_nFourier]; exact one_lt_two
    have := solution_unique (rho := fun _ _ => 0) hw.accepted hw.gauss hw.dissipates hw.surface hm (fun M hM => by simp [ha, demoIso] at hM)
      (modes_isSolution (rho := fun _ _ _ => 0) h hw.sound hr trivial trivial (fun m _ M hM => by simp [ha, demoIso] at hM) hmodes hm)
      (W := fun _ _ => 0) ⟨fun i _ => continuousOn_const, fun l hl t _ _ i _ => ⟨0, hasDerivAt_const _ _, ?_⟩, fun i _ => ?_, fun i _ => ?_⟩
    · rw [hN] at this; exact this
    · unfold rteUser rteRHS beamSource
      rw [if_neg (hins l hl)]
      simp
    · simp [ha, demoIso, bcVal]
    · simp [ha, demoIso, bcVal]
  have hB1 : ∀ i < 2 * n, R.S.B 1 0 i = 0 := by
    intro i hi'
    have := beam_particular h hw.sound hr one_pos (m := 1) (l := 0) (i := i) (by rw [demoIso_nFourier]; exact one_lt_two) one_pos
      (by rw [hN]; exact hi')
    unfold kernel beamSource at this
    rw [if_neg (hins 0 one_pos), sum_eq_zero (fun j _ => by rw [if_neg (hins 0 one_pos), mul_zero, zero_mul]), add_zero, hN] at this
    have h1 := (mul_eq_zero.1 this).resolve_right (demoIso_steep (by omega) hw hx i hi').ne'
    exact (mul_eq_zero.1 h1).resolve_left hr0.ne'
  have hh : ∀ i < 2 * n, ∑ j ∈ range (2 * n), R.S.GC 1 0 i j * Real.exp (R.I.exponent R.S 1 0 j) = 0 := by
    intro i hi'
    have := (mul_eq_zero.1 (hU1 0 le_rfl (by norm_num [bottom, ha, demoIso]) i hi')).resolve_left hr0.ne'
    unfold AsmIn.val AsmIn.umPlain at this
    rw [l0, hB1 i hi', hN'] at this
    simpa using this
  -- the first downward stream at the top
  have hU0 : R.I.rescale * R.I.val R.S 0 0 n = 1 := by
    have := C03_top_boundary_condition h hw.sound hr trivial hmodes 0 (by rw [demoIso_nFourier]; exact two_pos) 0 (by rw [hN]; omega)
    rw [hN] at this
    simpa [ha, demoIso, bcVal] using this
  obtain ⟨c, hc, hcd⟩ := demoIso_particular (by omega) two_pos h hw hx (l := 0) one_pos
  obtain ⟨d, hd0, hdv⟩ := hcd (2 * n - 1) (by omega)
  have hBlast : R.S.B 0 0 (2 * n - 1) ≠ 0 := fun h0 => by
    rw [h0, mul_zero] at hdv
    exact mul_ne_zero hc hd0.ne' hdv.symm
  obtain ⟨y, y1, y2, y3, y4, y5⟩ := R.I.uRaw_plain R.S phi (checkTau_of_inRange h ht)
  set g : A3 ℝ := ⟨y.d0, y.d1, y.d2, fun i t p =>
      if |y.get i t p| > 1 / 10 ^ 8 then
        |((∑ j ∈ range (2 * n), R.S.GC 1 0 (bix (2 * n) i) j * Real.exp (R.I.exponent R.S 1 0 j))
          + R.S.B 0 0 (2 * n - 1) * Real.exp (-R.I.scaledTau 0 / x))
          * Real.cos (((2 - 1 : ℕ) : ℝ) * (1 - 1))| / |y.get i t p|
      else 0⟩ with hg
  have hE : R.fourierError tau phi false = npMax3 g := by
    unfold Solved.fourierError Solved.u
    rw [hof, show a.onlyFlux = false from rfl, if_neg (by simp), hn']
    simp only [Solved.uUncorrected, AsmIn.u, y1, bind, Except.bind, pure, Except.pure]
    unfold AsmIn.fourierError AsmIn.ulast AsmIn.ulastBeam
    simp only [y1, bind, Except.bind, hb, if_true, Bool.false_eq_true, if_false, l0, hF]
    rw [if_neg (by rintro ⟨_, _, h2⟩; omega)]
    simp only [A2.bin, A1.row, A1.map, bind, Except.bind, pure, Except.pure]
    rw [e2, show a.tauArr.n = 1 from rfl, show tau.n = 1 from rfl, y2, y3, show tau.n = 1 from rfl, bdim_self]
    simp only [bdim_self, bdim_one_right, and_self, if_true, hN', hmu, hp]
    rw [hg]
    have hbix : ∀ i, bix (2 * n) (bix (2 * n) i) = bix (2 * n) i := fun i => by unfold bix; split_ifs <;> rfl
    simp only [y2, y3, hN', htau, hphi, bix_one, hbix]
  obtain ⟨e, e3, e4⟩ := npMax3_ok (x := g) (p := 2 * n) (q := 1) (r := 1) (by rw [← hN']; exact y2) y3 y4 (by omega) one_pos one_pos
  refine ⟨a, R, tau, phi, _, e, h, hw, hL, ht, one_pos, one_pos, hmodes, ?_, by rw [hE]; exact e3, ?_⟩
  · have hz : ∀ i < 2 * n, ∀ t < tau.n, ∀ p < phi.n, lastRatio a (fun m t i => R.I.rescale * R.I.val R.S m t i)
        (R.I.rescale / 10 ^ 8) i (tau.get t) (phi.get p) = 0 := by
      intro i hi' t _ p _
      unfold lastRatio lastTerm
      rw [demoIso_nFourier]
      simp only [htau]
      rw [show 2 - 1 = 1 from rfl, hU1 0 le_rfl (by norm_num [bottom, ha, demoIso]) i hi']
      simp
    unfold IsFourierError
    rw [hN]
    refine ⟨⟨0, by omega, 0, one_pos, 0, one_pos, (hz 0 (by omega) 0 one_pos 0 one_pos).symm⟩, ?_⟩
    rintro z ⟨i, hi', t, ht', p, hp', rfl⟩
    exact (hz i hi' t ht' p hp').le
  · refine lt_of_lt_of_le ?_ (e4.2 ⟨n, by omega, 0, one_pos, 0, one_pos, rfl⟩)
    have hy : R.I.rescale * y.get n 0 0 = 1 := by
      rw [y5 n (by rw [hN']; omega) 0 one_pos 0 one_pos, hF]
      beta_reduce
      rw [sum_range_succ, sum_range_one, mul_add]
      simp only [htau]
      rw [← mul_assoc, ← mul_assoc, hU1 0 le_rfl (by norm_num [bottom, ha, demoIso]) n (by omega), hU0]
      simp
    have hy1 : 1 ≤ y.get n 0 0 := by
      by_contra hlt
      push Not at hlt
      nlinarith
    simp only [hg]
    have hya : |y.get n 0 0| = y.get n 0 0 := abs_of_pos (by linarith)
    rw [hya, if_pos (by linarith), bix_of_lt (by omega), hh n (by omega)]
    have h3 := Real.exp_pos (-R.I.scaledTau 0 / x)
    rw [zero_add, sub_self, mul_zero, Real.cos_zero, mul_one]
    have : 0 < |R.S.B 0 0 (2 * n - 1) * Real.exp (-R.I.scaledTau 0 / x)| := abs_pos.2 (mul_ne_zero hBlast h3.ne')
    have : 0 < y.get n 0 0 := by linarith
    positivity

end
end Pydisort

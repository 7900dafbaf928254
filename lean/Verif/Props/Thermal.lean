import Verif.Spec.Thermal
import Verif.Props.Tools
import Verif.Spec.Field

/-!
# C54-C57: thermal helpers
-/

namespace Pydisort
open Finset Spec

noncomputable section

/-! ## C54: the Planck function -/

theorem planck_n (T : A1 ℝ) (nu : ℝ) : (planck T nu).n = T.n := by
  unfold planck; split_ifs <;> rfl

/-- **C54.** Entry by entry the function is Planck's law, zero at absolute zero. -/
theorem C54_law (T : A1 ℝ) (hT : ∀ i < T.n, 0 ≤ T.get i) {nu : ℝ} (hnu : 0 < nu) :
    (planck T nu).n = T.n ∧ ∀ i < T.n, (planck T nu).get i = planckLaw (T.get i) nu := by
  refine ⟨planck_n T nu, fun i hi => ?_⟩
  unfold planck planckLaw
  by_cases h0 : T.get i = 0
  · rw [if_pos h0]
    split_ifs with h
    · simp [h0]
    · rfl
  · rw [if_neg h0, if_pos ⟨i, hi, h0⟩]
    simp only [ne_eq, h0, not_false_eq_true, if_true]
    have hTi : 0 < T.get i := lt_of_le_of_ne (hT i hi) (Ne.symm h0)
    have hx : 100 * (6.62607015e-34 * 299792458 / 1.380649e-23) * nu / T.get i = -planckExponent (T.get i) nu := by
      unfold planckExponent constH constC constK
      field_simp
    have hpos : 0 < -planckExponent (T.get i) nu := by rw [← hx]; positivity
    rw [hx, Real.exp_neg]
    have hlt : Real.exp (planckExponent (T.get i) nu) < 1 := Real.exp_lt_one_iff.mpr (by linarith)
    have hep := Real.exp_pos (planckExponent (T.get i) nu)
    rw [show (Real.exp (planckExponent (T.get i) nu))⁻¹ - 1 = (1 - Real.exp (planckExponent (T.get i) nu)) / Real.exp (planckExponent (T.get i) nu) by
      field_simp]
    unfold constH constC
    rw [div_div_eq_mul_div]
    ring

/-- **C54.** Planck's law is zero at absolute zero, positive above it and strictly increasing in the temperature. -/
theorem C54_increasing {nu : ℝ} (hnu : 0 < nu) :
    planckLaw 0 nu = 0 ∧ (∀ T, 0 < T → 0 < planckLaw T nu) ∧ ∀ T T', 0 ≤ T → T < T' → planckLaw T nu < planckLaw T' nu := by
  have hpos : ∀ T : ℝ, 0 < T → 0 < planckLaw T nu := fun T hT => by
    unfold planckLaw
    rw [if_neg hT.ne']
    refine div_pos (by positivity) ?_
    rw [sub_pos, Real.one_lt_exp_iff]
    positivity
  refine ⟨if_pos rfl, hpos, fun T T' hT hTT => ?_⟩
  have hT' : 0 < T' := lt_of_le_of_lt hT hTT
  rcases eq_or_lt_of_le hT with rfl | hTp
  · rw [show planckLaw 0 nu = 0 from if_pos rfl]; exact hpos T' hT'
  · unfold planckLaw
    rw [if_neg hTp.ne', if_neg hT'.ne']
    have hc : (0 : ℝ) < 100 * (6.62607015e-34 * 299792458 / 1.380649e-23) * nu := by positivity
    have h1 : 1 < Real.exp (100 * (6.62607015e-34 * 299792458 / 1.380649e-23) * nu / T') := by
      rw [Real.one_lt_exp_iff]; positivity
    have h2 : Real.exp (100 * (6.62607015e-34 * 299792458 / 1.380649e-23) * nu / T')
        < Real.exp (100 * (6.62607015e-34 * 299792458 / 1.380649e-23) * nu / T) :=
      Real.exp_lt_exp.mpr (div_lt_div_of_pos_left hc hTp hTT)
    exact div_lt_div_of_pos_left (by positivity) (by linarith) (by linarith)

/-- **C54.** No growing exponential is evaluated, and the divisor is positive. -/
theorem C54_exponent {T nu : ℝ} (hT : 0 < T) (hnu : 0 < nu) :
    planckExponent T nu < 0 ∧ 0 < 1 - Real.exp (planckExponent T nu) := by
  have h : planckExponent T nu < 0 := by
    unfold planckExponent constH constC constK
    apply div_neg_of_neg_of_pos
    · have : (0 : ℝ) < 100 * 6.62607015e-34 * 299792458 * nu := by positivity
      linarith
    · positivity
  exact ⟨h, by have := Real.exp_lt_one_iff.mpr h; linarith⟩

example : (∀ i < 2, (0 : ℝ) ≤ if i = 0 then 0 else 300) := by intro i _; split_ifs <;> norm_num

/-! ## C55: linear splines -/

theorem bin_eq {f : ℝ → ℝ → ℝ} {a b : A1 ℝ} (h : a.n = b.n) :
    ∃ r, A1.bin f a b = .ok r ∧ r.n = a.n ∧ ∀ i < a.n, r.get i = f (a.get i) (b.get i) := by
  unfold A1.bin bdim
  rw [if_pos h]
  refine ⟨_, rfl, rfl, fun i hi => ?_⟩
  have h1 : bix a.n i = i := by unfold bix; split_ifs <;> omega
  have h2 : bix b.n i = i := by unfold bix; split_ifs <;> omega
  simp only [h1, h2]

/-- The arithmetic of `linear_spline_coefficients` for arrays of equal length with at least two entries. -/
theorem linearSpline_eq {x y : A1 ℝ} (hxy : x.n = y.n) (c : Bool)
    (hc : c = true → 1 < x.n ∧ ∀ i, i + 1 < x.n → x.get i < x.get (i + 1)) :
    ∃ A, linearSpline x y c = .ok A ∧ A.r = x.n - 1 ∧ A.c = 2 ∧ ∀ l, l + 1 < x.n →
      A.get l 1 = (y.get (l + 1) - y.get l) / (x.get (l + 1) - x.get l) ∧
      A.get l 0 = y.get l - (y.get (l + 1) - y.get l) / (x.get (l + 1) - x.get l) * x.get l := by
  obtain ⟨dy, e1, n1, v1⟩ := bin_eq (f := (· - ·)) (a := y.tail) (b := y.init) rfl
  obtain ⟨dx, e2, n2, v2⟩ := bin_eq (f := (· - ·)) (a := x.tail) (b := x.init) rfl
  have ny : y.tail.n = x.n - 1 := by simp [A1.tail, hxy]
  have nx : x.tail.n = x.n - 1 := rfl
  obtain ⟨sl, e3, n3, v3⟩ := bin_eq (f := (· / ·)) (a := dy) (b := dx) (by omega)
  obtain ⟨sx, e4, n4, v4⟩ := bin_eq (f := (· * ·)) (a := sl) (b := x.init) (by rw [n3, n1, ny]; rfl)
  obtain ⟨ic, e5, n5, v5⟩ := bin_eq (f := (· - ·)) (a := y.init) (b := sx) (by rw [n4, n3, n1, ny]; simp [A1.init, hxy])
  have n5' : ic.n = x.n - 1 := by rw [n5]; simp [A1.init, hxy]
  have body : (do
      let dy ← A1.bin (· - ·) y.tail y.init
      let dx ← A1.bin (· - ·) x.tail x.init
      let slopes ← A1.bin (· / ·) dy dx
      let sx ← A1.bin (· * ·) slopes x.init
      let intercepts ← A1.bin (· - ·) y.init sx
      if intercepts.n ≠ slopes.n then .error (.valueError "inhomogeneous shape")
      return (⟨slopes.n, 2, fun l j => if j = 0 then intercepts.get l else slopes.get l⟩ : A2 ℝ) : Py (A2 ℝ))
      = .ok ⟨sl.n, 2, fun l j => if j = 0 then ic.get l else sl.get l⟩ := by
    simp only [e1, e2, e3, e4, e5, bind, Except.bind]
    rw [if_neg (by rw [n5', n3, n1, ny]; simp)]
    rfl
  refine ⟨⟨sl.n, 2, fun l j => if j = 0 then ic.get l else sl.get l⟩, ?_, by simp only [n3, n1, ny], rfl, fun l hl => ?_⟩
  · unfold linearSpline
    cases c with
    | false => simpa using body
    | true =>
      obtain ⟨h1, h2⟩ := hc rfl
      rw [if_pos rfl]
      rw [if_neg (by push Not; exact h1), if_neg (by push Not; exact hxy),
        if_neg (by push Not; exact fun i hi => sub_pos.mpr (h2 i hi))]
      exact body
  · have hd : sl.get l = (y.get (l + 1) - y.get l) / (x.get (l + 1) - x.get l) := by
      rw [v3 l (by omega), v1 l (by omega), v2 l (by omega)]
      rfl
    simp only [one_ne_zero, if_false, if_true]
    refine ⟨hd, ?_⟩
    rw [v5 l (by simp [A1.init]; omega), v4 l (by omega), hd]
    rfl

/-- **C55.** For increasing `x` the coefficients of segment `l` give the only line through its two data points. -/
theorem C55_line (x y : A1 ℝ) (h1 : 1 < x.n) (hxy : x.n = y.n) (hx : ∀ i, i + 1 < x.n → x.get i < x.get (i + 1)) :
    ∃ A, linearSpline x y true = .ok A ∧ A.r = x.n - 1 ∧ A.c = 2 ∧ ∀ l, l + 1 < x.n →
      rowValue A l (x.get l) = y.get l ∧ rowValue A l (x.get (l + 1)) = y.get (l + 1) ∧
      ∀ p q : ℝ, p + q * x.get l = y.get l → p + q * x.get (l + 1) = y.get (l + 1) → A.get l 0 = p ∧ A.get l 1 = q := by
  obtain ⟨A, e1, e2, e3, e4⟩ := linearSpline_eq hxy true (fun _ => ⟨h1, hx⟩)
  refine ⟨A, e1, e2, e3, fun l hl => ?_⟩
  obtain ⟨f1, f2⟩ := e4 l hl
  have hd : x.get (l + 1) - x.get l ≠ 0 := (sub_pos.mpr (hx l hl)).ne'
  have hv : ∀ t, rowValue A l t = A.get l 0 + A.get l 1 * t := fun t => by simp [rowValue, polyVal, e3, sum_range_succ]
  refine ⟨?_, ?_, fun p q hp hq => ?_⟩
  · rw [hv, f1, f2]; ring
  · rw [hv, f1, f2]; field_simp; ring
  · have hqe : q = (y.get (l + 1) - y.get l) / (x.get (l + 1) - x.get l) := by
      rw [eq_div_iff hd]; linarith
    exact ⟨by rw [f2, ← hqe]; linarith, by rw [f1, hqe]⟩

/-- **C55.** Inputs that are too short, of different lengths, or not increasing raise `ValueError`. -/
theorem C55_refused (x y : A1 ℝ) (h : x.n < 2 ∨ x.n ≠ y.n ∨ ∃ i, i + 1 < x.n ∧ x.get (i + 1) ≤ x.get i) :
    ∃ msg, linearSpline x y true = .error (.valueError msg) := by
  unfold linearSpline
  rw [if_pos rfl]
  by_cases h1 : x.n > 1
  · rw [if_neg (by push Not; exact h1)]
    by_cases h2 : x.n = y.n
    · rw [if_neg (by push Not; exact h2)]
      rcases h with h | h | ⟨i, hi, hle⟩
      · omega
      · exact absurd h2 h
      · rw [if_pos (by push Not; exact ⟨i, hi, by linarith⟩)]
        exact ⟨_, rfl⟩
    · rw [if_pos h2]; exact ⟨_, rfl⟩
  · rw [if_pos h1]; exact ⟨_, rfl⟩

example : ∃ A, linearSpline ⟨2, fun i => i⟩ ⟨2, fun i => 3 + 2 * i⟩ true = .ok A ∧ A.get 0 0 = 3 ∧ A.get 0 1 = 2 := by
  obtain ⟨A, h1, -, -, h2⟩ := C55_line ⟨2, fun i => (i : ℝ)⟩ ⟨2, fun i => 3 + 2 * (i : ℝ)⟩ (by norm_num) rfl
    (fun i _ => by push_cast; linarith)
  exact ⟨A, h1, (h2 0 (by norm_num)).2.2 3 2 (by simp) (by simp)⟩

/-! ## C56: source polynomials -/

theorem planckLaw_continuous (T : ℝ) (hT : 0 ≤ T) {lo hi : ℝ} (hlo : 0 < lo) : ContinuousOn (planckLaw T) (Set.Icc lo hi) := by
  unfold planckLaw
  by_cases h : T = 0
  · simp only [h, if_true]; exact continuousOn_const
  · simp only [h, if_false]
    have hTp : 0 < T := lt_of_le_of_ne hT (Ne.symm h)
    refine ContinuousOn.div (by fun_prop) (by fun_prop) fun nu hnu => ?_
    have : 0 < nu := lt_of_lt_of_le hlo hnu.1
    have : 1 < Real.exp (100 * (6.62607015e-34 * 299792458 / 1.380649e-23) * nu / T) := by
      rw [Real.one_lt_exp_iff]; positivity
    linarith

/-- The integral of the Planck function over a band. -/
theorem quad_planck {Q : QuadVec} (hQ : QuadContract Q) (T : A1 ℝ) (hT : ∀ i < T.n, 0 ≤ T.get i) {lo hi : ℝ} (hlo : 0 < lo) (hhi : lo ≤ hi) :
    (Q (fun nu => planck T nu) lo hi).n = T.n ∧ ∀ i < T.n, (Q (fun nu => planck T nu) lo hi).get i = bandEmission (T.get i) lo hi := by
  have e : ∀ i < T.n, ∀ nu ∈ Set.Icc lo hi, (planck T nu).get i = planckLaw (T.get i) nu := fun i hi' nu hnu =>
    (C54_law T hT (lt_of_lt_of_le hlo hnu.1)).2 i hi'
  obtain ⟨h1, h2⟩ := hQ (fun nu => planck T nu) lo hi T.n hhi (fun nu => planck_n T nu) fun i hi' =>
    (planckLaw_continuous (T.get i) (hT i hi') hlo).congr (e i hi')
  refine ⟨h1, fun i hi' => ?_⟩
  rw [h2 i hi']
  unfold bandEmission
  refine intervalIntegral.integral_congr fun nu hnu => ?_
  rw [Set.uIcc_of_le hhi] at hnu
  exact e i hi' nu hnu

/-- Upper boundary of layer `l` is entry `l` of the depths with a zero in front. -/
def Spec.edge (tau : A1 ℝ) (l : ℕ) : ℝ := if l = 0 then 0 else tau.get (l - 1)

/-- **C56.** There is one line per layer; at the boundaries of the layer it takes the band emission at the temperatures of these
boundaries. Hence the source is continuous across the interfaces. -/
theorem C56_source {Q : QuadVec} (hQ : QuadContract Q) (tau temper : A1 ℝ) (h0 : 0 < tau.n) (hlen : temper.n = tau.n + 1)
    (htau : ∀ l < tau.n, edge tau l < edge tau (l + 1)) (hT : ∀ i < temper.n, 0 ≤ temper.get i) {lo hi : ℝ} (hlo : 0 < lo) (hhi : lo ≤ hi) :
    ∃ S, generateSPoly Q tau temper lo hi = .ok S ∧ S.r = tau.n ∧ S.c = 2 ∧
      (∀ l < tau.n, rowValue S l (edge tau l) = bandEmission (temper.get l) lo hi ∧
        rowValue S l (edge tau (l + 1)) = bandEmission (temper.get (l + 1)) lo hi) ∧
      ∀ l, l + 1 < tau.n → rowValue S l (tau.get l) = rowValue S (l + 1) (tau.get l) := by
  obtain ⟨q1, q2⟩ := quad_planck hQ temper hT hlo hhi
  have hp : ∃ t0, prepend tau tau.n 0 = .ok t0 ∧ t0.n = tau.n + 1 ∧ ∀ i, t0.get i = edge tau i := by
    unfold prepend assign1
    rw [if_pos rfl]
    exact ⟨_, rfl, rfl, fun i => rfl⟩
  obtain ⟨t0, e1, e2, e3⟩ := hp
  obtain ⟨S, f1, f2, f3, f4⟩ := linearSpline_eq (x := t0) (y := Q (fun nu => planck temper nu) lo hi) (by rw [e2, q1, hlen]) false (by simp)
  have hval : ∀ l t, rowValue S l t = S.get l 0 + S.get l 1 * t := fun l t => by simp [rowValue, polyVal, f3, sum_range_succ]
  have key : ∀ l < tau.n, rowValue S l (edge tau l) = bandEmission (temper.get l) lo hi ∧
      rowValue S l (edge tau (l + 1)) = bandEmission (temper.get (l + 1)) lo hi := fun l hl => by
    obtain ⟨g1, g2⟩ := f4 l (by omega)
    have hd : edge tau (l + 1) - edge tau l ≠ 0 := (sub_pos.mpr (htau l hl)).ne'
    rw [e3, e3, q2 _ (by omega), q2 _ (by omega)] at g1 g2
    constructor
    · rw [hval, g1, g2]; ring
    · rw [hval, g1, g2]; field_simp; ring
  refine ⟨S, ?_, by rw [f2, e2]; rfl, f3, key, fun l hl => ?_⟩
  · unfold generateSPoly
    rw [if_neg (by push Not; exact hlen), e1]
    simp only [bind, Except.bind]
    rw [if_neg (by omega)]
    exact f1
  · have k1 := (key l (by omega)).2
    have k2 := (key (l + 1) hl).1
    have : edge tau (l + 1) = tau.get l := by simp [edge]
    rw [this] at k1 k2
    rw [k1, k2]

/-- **C56.** A temperature array of the wrong length raises `ValueError`. -/
theorem C56_refused (Q : QuadVec) (tau temper : A1 ℝ) (h : temper.n ≠ tau.n + 1) (lo hi : ℝ) :
    ∃ msg, generateSPoly Q tau temper lo hi = .error (.valueError msg) := by
  unfold generateSPoly
  rw [if_pos h]
  exact ⟨_, rfl⟩

/-- The contract of `quad_vec` can be met. -/
def refQuad : QuadVec := fun f lo hi => ⟨(f lo).n, fun i => ∫ x in lo..hi, (f x).get i⟩

theorem refQuad_contract : QuadContract refQuad := fun f lo hi n _ hn _ => ⟨hn lo, fun _ _ => rfl⟩

example : ∃ S, generateSPoly refQuad ⟨2, fun i => i + 1⟩ ⟨3, fun i => 200 + 10 * i⟩ 50000 80000 = .ok S ∧ S.r = 2 := by
  obtain ⟨S, h1, h2, -⟩ := C56_source refQuad_contract ⟨2, fun i => (i : ℝ) + 1⟩ ⟨3, fun i => 200 + 10 * (i : ℝ)⟩ (by norm_num) rfl
    (fun l _ => by
      unfold edge
      simp only [Nat.add_eq_zero_iff, one_ne_zero, and_false, if_false, Nat.add_sub_cancel]
      split_ifs with h
      · positivity
      · rw [Nat.cast_sub (by omega)]; push_cast; linarith) (fun i _ => by positivity) (lo := 50000) (hi := 80000) (by norm_num) (by norm_num)
  exact ⟨S, h1, h2⟩

/-! ## C69: blackbody emission of a boundary -/

/-- **C69.** The blackbody contribution to a boundary condition is the band emission at its temperature: zero at absolute zero,
positive above, strictly increasing with temperature, and additive over adjacent bands. -/
theorem C69_blackbody {Q : QuadVec} (hQ : QuadContract Q) (T : A1 ℝ) (hT : ∀ i < T.n, 0 ≤ T.get i) {lo hi : ℝ} (hlo : 0 < lo) (hhi : lo ≤ hi) :
    (blackbodyContrib Q T lo hi).n = T.n ∧ ∀ i < T.n, (blackbodyContrib Q T lo hi).get i = bandEmission (T.get i) lo hi :=
  quad_planck hQ T hT hlo hhi

theorem bandEmission_lt {T T' lo hi : ℝ} (hT : 0 ≤ T) (hTT : T < T') (hlo : 0 < lo) (hhi : lo < hi) :
    bandEmission T lo hi < bandEmission T' lo hi := by
  unfold bandEmission
  refine intervalIntegral.integral_lt_integral_of_continuousOn_of_le_of_exists_lt hhi (planckLaw_continuous T hT hlo)
    (planckLaw_continuous T' (hT.trans hTT.le) hlo) (fun nu hnu => ?_) ⟨lo, ⟨le_rfl, hhi.le⟩, ?_⟩
  · exact ((C54_increasing (hlo.trans hnu.1)).2.2 T T' hT hTT).le
  · exact (C54_increasing hlo).2.2 T T' hT hTT

/-- **C69.** Strictly increasing in the temperature, starting from zero. -/
theorem C69_increasing {lo hi : ℝ} (hlo : 0 < lo) (hhi : lo < hi) :
    bandEmission 0 lo hi = 0 ∧ (∀ T, 0 < T → 0 < bandEmission T lo hi) ∧ ∀ T T', 0 ≤ T → T < T' → bandEmission T lo hi < bandEmission T' lo hi := by
  have h0 : bandEmission 0 lo hi = 0 := by
    unfold bandEmission planckLaw; simp
  exact ⟨h0, fun T hT => by have := bandEmission_lt le_rfl hT hlo hhi; rwa [h0] at this, fun T T' hT hTT => bandEmission_lt hT hTT hlo hhi⟩

/-- **C69.** Adjacent bands add up. -/
theorem C69_additive {T a b c : ℝ} (hT : 0 ≤ T) (ha : 0 < a) (hab : a ≤ b) (hbc : b ≤ c) :
    bandEmission T a b + bandEmission T b c = bandEmission T a c := by
  unfold bandEmission
  refine intervalIntegral.integral_add_adjacent_intervals ?_ ?_
  · exact (planckLaw_continuous T hT ha).intervalIntegrable_of_Icc hab
  · exact (planckLaw_continuous T hT (lt_of_lt_of_le ha hab)).intervalIntegrable_of_Icc hbc

/-! ## C57: emissivity -/

theorem gauss_moment_one {E : Ext} {N : ℕ} (hN : 0 < N) (hE : GaussContract E N) :
    ∃ x w, gaussLegendreQuad E N 0 1 = .ok (x, w) ∧ x.n = N ∧ w.n = N ∧ ∑ i ∈ range N, x.get i * w.get i = 1 / 2 := by
  obtain ⟨x, w, h1, h2, h3, -, -, -, h4⟩ := C49_gauss E hN hE (c := 0) (d := 1) (by norm_num)
  refine ⟨x, w, h1, h2, h3, ?_⟩
  have := h4 Polynomial.X (by simp; omega)
  simp only [Polynomial.eval_X] at this
  rw [integral_id] at this
  rw [← sum_congr rfl fun i _ => mul_comm (w.get i) (x.get i), this]
  norm_num

/-- **C57.** In general: one minus the fraction reflected into each upward direction. -/
theorem C57_kirchhoff {E : Ext} {N : ℕ} (hN : 0 < N) (f : A1 ℝ → A1 ℝ → BOut) (rho : ℝ → ℝ → ℝ) (hf : Represents (.func f) rho) :
    ∃ x w v, gaussLegendreQuad E N 0 1 = .ok (x, w) ∧ emissivity E N (.func f) = .ok (.arr v) ∧ v.n = N ∧
      ∀ i < N, v.get i = 1 - 2 * ∑ j ∈ range N, w.get j * x.get j * rho (x.get i) (x.get j) := by
  obtain ⟨x, w, hq, hx⟩ : ∃ x w, gaussLegendreQuad E N 0 1 = .ok (x, w) ∧ x.n = N := by
    unfold gaussLegendreQuad; rw [if_neg hN.ne']; exact ⟨_, _, rfl, rfl⟩
  obtain ⟨Z, z1, z2, z3, z4⟩ := hf x x
  refine ⟨x, w, ⟨Z.r, fun i => 1 - ∑ j ∈ range N, 2 * Z.get i (bix Z.c j) * x.get j * w.get j⟩, hq, ?_, by rw [z2, hx], fun i hi => ?_⟩
  · unfold emissivity
    simp only [hq, bind, Except.bind, z1]
    rw [show bdim Z.c N = .ok N by unfold bdim; rw [if_pos (by rw [z3, hx]), z3, hx]]
    simp [pure, Except.pure]
  · simp only
    rw [mul_sum]
    congr 1
    refine sum_congr rfl fun j hj => ?_
    have hj' := mem_range.mp hj
    have : bix Z.c j = j := by unfold bix; split_ifs <;> omega
    rw [this, z4 i (by omega) j (by omega)]
    ring

/-- **C57.** A constant mode given as a function has emissivity one minus the constant at every node, as the scalar shortcut says. -/
theorem C57_constant {E : Ext} {N : ℕ} (hN : 0 < N) (hE : GaussContract E N) (rho : ℝ) (f : A1 ℝ → A1 ℝ → BOut)
    (hf : Represents (.func f) (fun _ _ => rho)) :
    emissivity E N (.scalar rho) = .ok (.scalar (1 - rho)) ∧
      ∃ v, emissivity E N (.func f) = .ok (.arr v) ∧ v.n = N ∧ ∀ i < N, v.get i = 1 - rho := by
  refine ⟨rfl, ?_⟩
  obtain ⟨x, w, v, h1, h2, h3, h4⟩ := C57_kirchhoff (E := E) hN f _ hf
  refine ⟨v, h2, h3, fun i hi => ?_⟩
  obtain ⟨x', w', g1, -, -, g2⟩ := gauss_moment_one hN hE
  rw [h1] at g1
  injection g1 with g1
  injection g1 with gx gw
  subst gx gw
  rw [h4 i hi, ← sum_mul, sum_congr rfl fun j _ => mul_comm (w.get j) (x.get j), g2]
  ring

/-- **C57.** Also when the function returns the constant as a number. -/
theorem C57_constant_number {E : Ext} {N : ℕ} (hN : 0 < N) (hE : GaussContract E N) (rho : ℝ) :
    ∃ v, emissivity E N (.func fun _ _ => .scalar rho) = .ok (.arr v) ∧ ∀ i < v.n, v.get i = 1 - rho := by
  obtain ⟨x, w, g1, -, -, g2⟩ := gauss_moment_one hN hE
  unfold emissivity
  simp only [g1, bind, Except.bind]
  refine ⟨_, rfl, fun i _ => ?_⟩
  have : ∀ j ∈ range N, 2 * rho * x.get j * w.get j = 2 * rho * (x.get j * w.get j) := fun j _ => by ring
  simp only
  rw [sum_congr rfl this, ← mul_sum, g2]
  ring

example (rho : ℝ) : Represents (.func fun x y => .arr ⟨x.n, y.n, fun _ _ => rho⟩) (fun _ _ => rho) :=
  fun x y => ⟨_, rfl, rfl, rfl, fun _ _ _ _ => rfl⟩

end

end Pydisort

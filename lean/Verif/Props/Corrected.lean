import Verif.Spec.CutOff
import Verif.Props.Floor
import Verif.Props.Corrections

/-!
# C121: the corrections are no larger than what was cut off

Specification used: `Spec.cutOff`, `Spec.Corrected`, `Spec.IsModes`, `Spec.WholeSolution`, `Spec.AsksForCorrected`.
-/

namespace Pydisort
open Finset Spec MeasureTheory

variable {E : Ext} {J : Junk} {a : Args} {R : Solved}

theorem beamCos_mem (h0 : 0 < a.mu0) (h1 : a.mu0 ≤ 1) {x : ℝ} (hx : x ∈ Set.Icc (-1 : ℝ) 1) (ph : ℝ) : beamCos a x ph ∈ Set.Icc (-1 : ℝ) 1 := by
  have := cosAngle_mem hx (show -a.mu0 ∈ Set.Icc (-1 : ℝ) 1 from ⟨by linarith, by linarith⟩) ph a.phi0
  unfold cosAngle at this
  unfold beamCos
  rw [neg_sq, ← Real.cos_neg, neg_sub] at this
  exact this

theorem exp_chord {r c : ℝ} (h0 : 0 ≤ r) (h1 : r ≤ 1) (hc : c ≤ 0) : Real.exp (r * c) - Real.exp c ≤ 1 - r := by
  have h := convexOn_exp.2 (Set.mem_univ 0) (Set.mem_univ c) (sub_nonneg.2 h1) h0 (by ring)
  simp only [smul_eq_mul, mul_zero, zero_add, Real.exp_zero, mul_one] at h
  have := Real.exp_pos c
  nlinarith

/-- Light of unit strength scattered out of the beam is nowhere brighter than one. -/
theorem once_up {x s b : ℝ} (h0 : 0 < a.mu0) (hx : 0 < x) (hs : 0 ≤ s) (hsb : s ≤ b) : |a.mu0 / (a.mu0 + x) * emitUp a x s b| ≤ 1 := by
  have e1 : 0 ≤ emitUp a x s b := by
    rcases hsb.eq_or_lt with rfl | h
    · simp [emitUp, atten]
    · exact (emitUp_pos h0 hx h).le
  have e2 : emitUp a x s b ≤ 1 := by
    unfold emitUp atten
    have := mul_pos (Real.exp_pos (-(b - s) / x)) (Real.exp_pos (-b / a.mu0))
    have : Real.exp (-s / a.mu0) ≤ 1 := Real.exp_le_one_iff.2 (div_nonpos_of_nonpos_of_nonneg (by linarith) h0.le)
    linarith
  have e3 : a.mu0 / (a.mu0 + x) ≤ 1 := by rw [div_le_one (by linarith)]; linarith
  rw [abs_of_nonneg (by positivity)]
  exact mul_le_one₀ e3 e1 e2

theorem once_down {x s : ℝ} (h0 : 0 < a.mu0) (hx : 0 < x) (hs : 0 ≤ s) (hne : a.mu0 ≠ x) : |a.mu0 / (a.mu0 - x) * emitDown a x 0 s| ≤ 1 := by
  unfold emitDown atten
  rw [neg_zero, zero_div, Real.exp_zero, mul_one, sub_zero]
  rcases lt_or_gt_of_ne hne with h | h
  · have k := exp_chord (r := a.mu0 / x) (c := -s / a.mu0) (by positivity) (by rw [div_le_one hx]; exact h.le) (div_nonpos_of_nonpos_of_nonneg (by linarith) h0.le)
    rw [show a.mu0 / x * (-s / a.mu0) = -s / x by field_simp] at k
    have k0 : Real.exp (-s / a.mu0) ≤ Real.exp (-s / x) := by
      rw [Real.exp_le_exp, neg_div, neg_div, neg_le_neg_iff]
      exact div_le_div_of_nonneg_left hs h0 h.le
    have hd : 0 < x - a.mu0 := by linarith
    rw [show a.mu0 / (a.mu0 - x) * (Real.exp (-s / a.mu0) - Real.exp (-s / x)) = a.mu0 / (x - a.mu0) * (Real.exp (-s / x) - Real.exp (-s / a.mu0)) by
      rw [← neg_sub x a.mu0, div_neg]; ring, abs_of_nonneg (mul_nonneg (by positivity) (by linarith)), div_mul_eq_mul_div, div_le_one hd]
    have : a.mu0 * (1 - a.mu0 / x) ≤ x - a.mu0 := by
      have : a.mu0 / x ≤ 1 := by rw [div_le_one hx]; exact h.le
      have e : x * (1 - a.mu0 / x) = x - a.mu0 := by field_simp
      nlinarith
    nlinarith
  · have k := exp_chord (r := x / a.mu0) (c := -s / x) (by positivity) (by rw [div_le_one h0]; exact h.le) (div_nonpos_of_nonpos_of_nonneg (by linarith) hx.le)
    rw [show x / a.mu0 * (-s / x) = -s / a.mu0 by field_simp] at k
    have k0 : Real.exp (-s / x) ≤ Real.exp (-s / a.mu0) := by
      rw [Real.exp_le_exp, neg_div, neg_div, neg_le_neg_iff]
      exact div_le_div_of_nonneg_left hs hx h.le
    have hd : 0 < a.mu0 - x := by linarith
    rw [abs_of_nonneg (mul_nonneg (by positivity) (by linarith)), div_mul_eq_mul_div, div_le_one hd]
    have e : a.mu0 * (1 - x / a.mu0) = a.mu0 - x := by field_simp
    nlinarith

theorem chi_le {mu s : ℝ} {chi : ℝ → ℝ} (hmu : 0 < mu) (hs : 0 < s) (h : IsChi mu s chi) {t : ℝ} (ht : 0 ≤ t) : |chi t| ≤ 1 := by
  choose d hd he using h.2
  have hr : ∀ x, 0 ≤ x → 0 ≤ x / s * Real.exp (-x / s) ∧ x / s * Real.exp (-x / s) ≤ 1 := fun x hx => by
    have hxs : 0 ≤ x / s := by positivity
    refine ⟨by positivity, ?_⟩
    rw [neg_div, Real.exp_neg, ← div_eq_mul_inv, div_le_one (Real.exp_pos _)]
    linarith [Real.add_one_le_exp (x / s)]
  have key : ∀ σ : ℝ, |σ| = 1 → 0 ≤ 1 + σ * chi t := fun σ hσ => by
    have hD : ∀ x, HasDerivAt (fun x => (1 + σ * chi x) * Real.exp (x / mu)) (Real.exp (x / mu) / mu * (1 + σ * (x / s * Real.exp (-x / s)))) x := fun x => by
      have h1 := ((hd x).const_mul σ).const_add 1
      have h2 := ((hasDerivAt_id x).div_const mu).exp
      refine (h1.mul h2).congr_deriv ?_
      simp only [id]
      rw [← he x]
      field_simp
      ring
    have hm : MonotoneOn (fun x => (1 + σ * chi x) * Real.exp (x / mu)) (Set.Ici 0) :=
      monotoneOn_of_deriv_nonneg (convex_Ici 0) (fun x _ => (hD x).continuousAt.continuousWithinAt) (fun x _ => (hD x).differentiableAt.differentiableWithinAt) fun x hx => by
        rw [(hD x).deriv]
        rw [interior_Ici, Set.mem_Ioi] at hx
        obtain ⟨r1, r2⟩ := hr x hx.le
        have : |σ * (x / s * Real.exp (-x / s))| ≤ 1 := by rw [abs_mul, hσ, one_mul, abs_of_nonneg r1]; exact r2
        have := (abs_le.1 this).1
        exact mul_nonneg (by positivity) (by linarith)
    have := hm (Set.mem_Ici.2 le_rfl) (Set.mem_Ici.2 ht) ht
    simp only [h.1, mul_zero, add_zero, zero_div, Real.exp_zero, mul_one] at this
    exact (pos_of_mul_pos_left (zero_lt_one.trans_le this) (Real.exp_pos _).le).le
  have h1 := key 1 (by simp)
  have h2 := key (-1) (by simp)
  rw [abs_le]
  constructor <;> linarith

theorem cut_phase {l : ℕ} (hacc : Accepted a) (hp : peak a l < 1) {nu : ℝ} (hnu : nu ∈ Set.Icc (-1 : ℝ) 1) :
    |exactPhase a l nu / (1 - peak a l) - truncPhase a l nu| ≤ cutOff a l / (1 - peak a l) := by
  have hp0 := (Args.peak_range hacc l).1
  have hd : 0 < 1 - peak a l := by linarith
  have hL : nLeg a ≤ a.leg.c := by
    have := hacc.legCols
    unfold nLeg
    omega
  have e : exactPhase a l nu / (1 - peak a l) - truncPhase a l nu = (peak a l * ∑ k ∈ range (nLeg a), (2 * (k : ℝ) + 1) * (legendreP k).eval nu
      + ∑ k ∈ Ico (nLeg a) a.leg.c, (2 * (k : ℝ) + 1) * leg a l k * (legendreP k).eval nu) / (1 - peak a l) := by
    unfold exactPhase truncPhase legStar
    rw [← sum_range_add_sum_Ico _ hL, mul_sum, eq_div_iff hd.ne', sub_mul, div_mul_cancel₀ _ hd.ne', sum_mul]
    have : ∑ k ∈ range (nLeg a), (2 * (k : ℝ) + 1) * ((leg a l k - peak a l) / (1 - peak a l)) * (legendreP k).eval nu * (1 - peak a l)
        = ∑ k ∈ range (nLeg a), (2 * (k : ℝ) + 1) * leg a l k * (legendreP k).eval nu - ∑ k ∈ range (nLeg a), peak a l * ((2 * (k : ℝ) + 1) * (legendreP k).eval nu) := by
      rw [← sum_sub_distrib]
      exact sum_congr rfl fun k _ => by field_simp
    rw [this]
    ring
  rw [e, abs_div, abs_of_pos hd]
  refine div_le_div_of_nonneg_right ?_ hd.le
  unfold cutOff
  refine (abs_add_le _ _).trans (add_le_add ?_ ?_)
  · rw [abs_mul, abs_of_nonneg hp0]
    refine mul_le_mul_of_nonneg_left ?_ hp0
    rw [← sum_odd]
    refine (abs_sum_le_sum_abs _ _).trans (sum_le_sum fun k _ => ?_)
    rw [abs_mul, abs_of_nonneg (by positivity)]
    exact mul_le_of_le_one_right (by positivity) (abs_legendreP_le k hnu)
  · refine (abs_sum_le_sum_abs _ _).trans (sum_le_sum fun k _ => ?_)
    rw [abs_mul, abs_mul, abs_of_nonneg (by positivity : (0 : ℝ) ≤ 2 * k + 1)]
    exact mul_le_of_le_one_right (by positivity) (abs_legendreP_le k hnu)

theorem cutOff_nonneg (hacc : Accepted a) (l : ℕ) : 0 ≤ cutOff a l :=
  add_nonneg (mul_nonneg (Args.peak_range hacc l).1 (sq_nonneg _)) (sum_nonneg fun _ _ => by positivity)

theorem tauArr_pos (hacc : Accepted a) : ∀ k < a.tauArr.n, 0 < a.tauArr.get k := by
  intro k
  induction k with
  | zero => intro _; exact hacc.top
  | succ k ih => intro hk; exact (ih (by omega)).trans (hacc.increasing k hk)

/-- Strength of the single scattering that the TMS correction replaces. -/
theorem once_le (hacc : Accepted a) (hI : 0 < a.I0) {D σ : ℝ} (hσ : 0 < σ) {l : ℕ} (hl : l < a.tauArr.n) (hp : peak a l < 1) (hD : cutOff a l ≤ D) (hs : σ ≤ scale a l)
    {x : ℝ} (hx : x ∈ Set.Icc (-1 : ℝ) 1) (ph : ℝ) : |onceScattered a l x ph| ≤ a.I0 / (4 * Real.pi) * (D / σ) := by
  obtain ⟨⟨h0, h1⟩, -⟩ := hacc.beamDir hI
  have hd : 0 < 1 - peak a l := by linarith
  have ho := hacc.omega l hl
  have hc := cut_phase hacc hp (beamCos_mem h0 h1 hx ph)
  have hsc : 0 < scale a l := hσ.trans_le hs
  have hD0 := (cutOff_nonneg hacc l).trans hD
  unfold onceScattered
  rw [abs_mul, abs_of_nonneg (div_nonneg (mul_nonneg (omegaStar_nonneg hacc hl hp) hI.le) (by positivity))]
  refine (mul_le_mul_of_nonneg_left hc (div_nonneg (mul_nonneg (omegaStar_nonneg hacc hl hp) hI.le) (by positivity))).trans ?_
  have e : omegaStar a l * a.I0 / (4 * Real.pi) * (cutOff a l / (1 - peak a l)) = a.I0 / (4 * Real.pi) * (a.omega.get l * cutOff a l / scale a l) := by
    unfold omegaStar
    field_simp
  rw [e]
  refine mul_le_mul_of_nonneg_left ?_ (by positivity)
  exact div_le_div₀ hD0 ((mul_le_of_le_one_left (cutOff_nonneg hacc l) ho.2.le).trans hD) hσ hs

/-- Strength of the IMS correction. -/
theorem ims_le (hacc : Accepted a) (hI : 0 < a.I0) {D σ : ℝ} (hσ : 0 < σ) (hD : ∀ l < a.tauArr.n, cutOff a l ≤ D) (hs : ∀ l < a.tauArr.n, σ ≤ scale a l)
    {x : ℝ} (hx : x ∈ Set.Icc (-1 : ℝ) 1) (ph : ℝ) : |imsStrength a x ph| ≤ a.I0 / (4 * Real.pi) * (3 * D / σ) := by
  obtain ⟨⟨h0, h1⟩, -⟩ := hacc.beamDir hI
  have hD0 := (cutOff_nonneg hacc 0).trans (hD 0 hacc.layers)
  have ht := tauArr_pos hacc
  set T := ∑ k ∈ range a.tauArr.n, a.tauArr.get k with hT
  have hT0 : 0 < T := sum_pos (fun k hk => ht k (mem_range.1 hk)) ⟨0, mem_range.2 hacc.layers⟩
  set p := avgPeak a with hp
  have hp1 : σ ≤ 1 - p := by
    have : T * σ ≤ T * (1 - p) := by
      rw [mul_sub, mul_one, hp, avgPeak, mul_div_cancel₀ _ hT0.ne', hT, sum_mul, weighted, ← sum_sub_distrib]
      refine sum_le_sum fun k hk => ?_
      have k1 := ht k (mem_range.1 hk)
      have k2 := hs k (mem_range.1 hk)
      unfold scale at k2
      nlinarith
    exact le_of_mul_le_mul_left this hT0
  have hp0 : 0 ≤ p := div_nonneg (sum_nonneg fun k hk => mul_nonneg (mul_nonneg (Args.peak_range hacc k).1 (hacc.omega k (mem_range.1 hk)).1) (ht k (mem_range.1 hk)).le) hT0.le
  set res : ℕ → ℕ → ℝ := fun k l => if k < nLeg a then peak a l else leg a l k with hres
  set q : ℕ → ℝ := fun k => weighted a (res k) / T with hq
  have hpq : ∀ k, p * (p * (2 * avgResidue a k - avgResidue a k ^ 2)) = 2 * p * q k - q k ^ 2 ∨ p = 0 := fun k => by
    by_cases hz : weighted a (peak a) = 0
    · right; rw [hp, avgPeak, hz, zero_div]
    · left
      have e : p * avgResidue a k = q k := by
        rw [hp, avgPeak, avgResidue, ← hT]
        show weighted a (peak a) / T * (weighted a (res k) / weighted a (peak a)) = weighted a (res k) / T
        field_simp
      calc p * (p * (2 * avgResidue a k - avgResidue a k ^ 2)) = 2 * p * (p * avgResidue a k) - (p * avgResidue a k) ^ 2 := by ring
        _ = _ := by rw [e]
  have hres1 : ∀ k < a.leg.c, ∀ l < a.tauArr.n, |res k l| ≤ 1 := fun k hk l hl => by
    simp only [hres]
    split_ifs with hkL
    · obtain ⟨f0, f1⟩ := Args.peak_range hacc l
      rw [abs_of_nonneg f0]; exact f1
    · unfold leg
      split_ifs with hk0
      · simp
      · obtain ⟨g1, g2⟩ := hacc.legVal l hl k hk (by omega)
        exact abs_le.2 ⟨g1.le, g2.le⟩
  have hqle : ∀ k, |q k| ≤ (∑ l ∈ range a.tauArr.n, |res k l| * a.omega.get l * a.tauArr.get l) / T := fun k => by
    rw [hq, abs_div, abs_of_pos hT0]
    refine div_le_div_of_nonneg_right ?_ hT0.le
    unfold weighted
    refine (abs_sum_le_sum_abs _ _).trans (sum_le_sum fun l hl => ?_)
    have hl := mem_range.1 hl
    rw [abs_mul, abs_mul, abs_of_nonneg (hacc.omega l hl).1, abs_of_pos (ht l hl)]
  have hq1 : ∀ k < a.leg.c, |q k| ≤ 1 := fun k hk => by
    refine (hqle k).trans ?_
    rw [div_le_one hT0, hT]
    refine sum_le_sum fun l hl => ?_
    have hl := mem_range.1 hl
    have o := hacc.omega l hl
    exact mul_le_of_le_one_left (ht l hl).le (mul_le_one₀ (hres1 k hk l hl) o.1 o.2.le)
  have hL : nLeg a ≤ a.leg.c := by
    have := hacc.legCols
    unfold nLeg
    omega
  have hcut : ∀ l < a.tauArr.n, ∑ k ∈ range a.leg.c, (2 * (k : ℝ) + 1) * |res k l| = cutOff a l := fun l hl => by
    rw [← sum_range_add_sum_Ico _ hL, cutOff]
    refine congrArg₂ (· + ·) ?_ (sum_congr rfl fun k hk => ?_)
    · rw [← sum_odd, mul_sum]
      refine sum_congr rfl fun k hk => ?_
      simp only [hres, if_pos (mem_range.1 hk)]
      rw [abs_of_nonneg (Args.peak_range hacc l).1, mul_comm]
    · have := (mem_Ico.1 hk).1
      simp only [hres, if_neg (show ¬ k < nLeg a by omega)]
  have hsum : ∑ k ∈ range a.leg.c, (2 * (k : ℝ) + 1) * |q k| ≤ D := by
    calc ∑ k ∈ range a.leg.c, (2 * (k : ℝ) + 1) * |q k|
        ≤ ∑ k ∈ range a.leg.c, (2 * (k : ℝ) + 1) * ((∑ l ∈ range a.tauArr.n, |res k l| * a.omega.get l * a.tauArr.get l) / T) :=
          sum_le_sum fun k _ => mul_le_mul_of_nonneg_left (hqle k) (by positivity)
      _ = (∑ l ∈ range a.tauArr.n, (∑ k ∈ range a.leg.c, (2 * (k : ℝ) + 1) * |res k l|) * a.omega.get l * a.tauArr.get l) / T := by
          simp only [mul_div_assoc', mul_sum, ← sum_div, sum_mul]
          rw [sum_comm]
          exact congrArg (· / T) (sum_congr rfl fun l _ => sum_congr rfl fun k _ => by ring)
      _ ≤ D := by
          rw [div_le_iff₀ hT0, hT, mul_sum]
          refine sum_le_sum fun l hl => ?_
          have hl := mem_range.1 hl
          rw [hcut l hl]
          have o := hacc.omega l hl
          exact mul_le_mul_of_nonneg_right ((mul_le_of_le_one_right (cutOff_nonneg hacc l) o.2.le).trans (hD l hl)) (ht l hl).le
  have hP : |p * (p * ∑ k ∈ range a.leg.c, (2 * (k : ℝ) + 1) * (2 * avgResidue a k - avgResidue a k ^ 2) * (legendreP k).eval (beamCos a x ph))| ≤ 3 * D := by
    by_cases hz : p = 0
    · rw [hz]; simp; linarith
    rw [mul_sum, mul_sum]
    refine (abs_sum_le_sum_abs _ _).trans ?_
    refine le_trans (sum_le_sum (g := fun k : ℕ => 3 * ((2 * (k : ℝ) + 1) * |q k|)) fun k hk => ?_) (by rw [← mul_sum]; linarith)
    have hk := mem_range.1 hk
    have e := (hpq k).resolve_right hz
    rw [show p * (p * ((2 * (k : ℝ) + 1) * (2 * avgResidue a k - avgResidue a k ^ 2) * (legendreP k).eval (beamCos a x ph)))
      = (2 * (k : ℝ) + 1) * (p * (p * (2 * avgResidue a k - avgResidue a k ^ 2))) * (legendreP k).eval (beamCos a x ph) by ring, e, abs_mul, abs_mul,
      abs_of_nonneg (by positivity : (0 : ℝ) ≤ 2 * k + 1)]
    refine (mul_le_of_le_one_right (by positivity) (abs_legendreP_le k (beamCos_mem h0 h1 hx ph))).trans ?_
    rw [mul_left_comm]
    refine mul_le_mul_of_nonneg_left ?_ (by positivity)
    rw [show 2 * p * q k - q k ^ 2 = (2 * p - q k) * q k by ring, abs_mul]
    refine mul_le_mul_of_nonneg_right ?_ (abs_nonneg _)
    have := abs_le.1 (hq1 k hk)
    rw [abs_le]
    constructor <;> linarith
  have hpp : 0 < 1 - p := hσ.trans_le hp1
  have e : imsStrength a x ph = a.I0 / (4 * Real.pi)
      * ((p * (p * ∑ k ∈ range a.leg.c, (2 * (k : ℝ) + 1) * (2 * avgResidue a k - avgResidue a k ^ 2) * (legendreP k).eval (beamCos a x ph))) / (1 - p)) := by
    unfold imsStrength
    rw [← hp]
    ring
  have hpi := Real.pi_pos
  rw [e, abs_mul, abs_of_pos (by positivity : 0 < a.I0 / (4 * Real.pi)), abs_div, abs_of_pos hpp]
  refine mul_le_mul_of_nonneg_left ?_ (by positivity)
  exact div_le_div₀ (by linarith) hP hσ hp1

/-- **C121.** The Nakajima-Tanaka corrections are at most `I₀ D / (π σ)` if `D` bounds what truncation and delta-M scaling cut off from the phase function of each layer and `σ` is a lower
bound of the factors `1 - ω f` by which depths are scaled. The other hypotheses exclude divisions by zero. -/
theorem C121_corrections_are_bounded (h : pydisort E J a = .ok R) (hc : Corrected a) (hg : GaussContract E (nHalf a)) (hpk : ∀ l < a.tauArr.n, peak a l < 1)
    (hp : ∃ l < a.tauArr.n, peak a l * a.omega.get l ≠ 0) (hsep : ∀ i < nHalf a, node E a i ≠ scaledMu0 a)
    {D σ : ℝ} (hσ : 0 < σ) (hD : ∀ l < a.tauArr.n, cutOff a l ≤ D) (hs : ∀ l < a.tauArr.n, σ ≤ scale a l)
    {tau phi : A1 ℝ} (ht : InRange a tau) (hne : tau.n ≠ 0) (hN : nHalf a ≠ 1 ∨ phi.n = 1) :
    ∃ A B : A3 ℝ, R.u tau phi false = .ok A ∧ R.uUncorrected tau phi false = .ok B ∧ A.d0 = 2 * nHalf a ∧ A.d1 = tau.n ∧ A.d2 = phi.n ∧
      ∀ i < 2 * nHalf a, ∀ t < tau.n, ∀ p < phi.n, |A.get i t p - B.get i t p| ≤ a.I0 * D / (Real.pi * σ) := by
  have hacc := (pydisort_ok h).1
  have hI := hc.2.2.1
  obtain ⟨⟨h0, h1⟩, -⟩ := hacc.beamDir hI
  have hpi := Real.pi_pos
  have hD0 := (cutOff_nonneg hacc 0).trans (hD 0 hacc.layers)
  have hlay : ∀ t < tau.n, R.I.layer (tau.get t) < a.tauArr.n ∧ (R.I.layer (tau.get t) = 0 ∨ a.tauArr.get (R.I.layer (tau.get t) - 1) < tau.get t)
      ∧ tau.get t ≤ a.tauArr.get (R.I.layer (tau.get t)) := fun t htt => (C21_layer_lookup h (ht t htt).2 _).1 rfl
  have hU := modes_val h
  obtain ⟨A, a1, a2, a3, a4, a5⟩ := corrected_returns h hc hp hU ht hne hN (lay := fun t => R.I.layer (tau.get t)) hlay
  obtain ⟨B, b1, -, -, -, b5⟩ := hU.u tau phi ht
  refine ⟨A, B, a1, b1, a2, a3, a4, fun i hi t htt p hpp => ?_⟩
  rw [a5 i hi t htt p hpp, b5 i hi t htt p hpp]
  beta_reduce
  rw [add_sub_cancel_left]
  obtain ⟨l1, l2, l3⟩ := hlay t htt
  set l := R.I.layer (tau.get t)
  obtain ⟨y1, y2⟩ := stream_mem (a := a) hg hi
  have hin : InLayer a l (tau.get t) := by
    refine ⟨?_, by rw [Spec.bdry_succ]; exact l3⟩
    unfold bdry
    split_ifs with hl0
    · exact (ht t htt).1
    · exact (l2.resolve_left hl0).le
  have hst0 : 0 ≤ tauStar a l (tau.get t) :=
    add_nonneg (bdryStar_nonneg hacc l1.le) (mul_nonneg (Args.scale_pos hacc (show l < a.NLayers from l1)).le (by linarith [hin.1]))
  have hst1 : tauStar a l (tau.get t) ≤ bdryStar a a.tauArr.n := by
    have k1 : tauStar a l (tau.get t) ≤ bdryStar a (l + 1) := by
      rw [bdryStar_succ]
      unfold tauStar
      have := mul_le_mul_of_nonneg_left (sub_le_sub_right hin.2 (bdry a.tauArr.get l)) (Args.scale_pos hacc (show l < a.NLayers from l1)).le
      linarith
    have k2 : bdryStar a (l + 1) ≤ bdryStar a a.tauArr.n := by
      unfold bdryStar
      refine sum_le_sum_of_subset_of_nonneg (range_mono (by omega)) fun k hk _ => ?_
      have hk := mem_range.1 hk
      exact mul_nonneg (Args.scale_pos hacc (show k < a.NLayers from hk)).le (sub_nonneg.2 (bdry_le hacc (Nat.le_succ k) (by omega)))
    exact k1.trans k2
  have ho := once_le hacc hI hσ l1 (hpk l l1) (hD l l1) (hs l l1) y1 (phi.get p)
  have htms : |tmsPart E a i l (tau.get t) (phi.get p)| ≤ a.I0 / (4 * Real.pi) * (D / σ) := by
    unfold tmsPart
    rw [mul_assoc, abs_mul]
    refine (mul_le_of_le_one_right (abs_nonneg _) ?_).trans ho
    by_cases hin' : i < nHalf a
    · rw [layerSum_up _ _ hin' l1, stream_up hin']
      exact once_up h0 (node_pos hg hin').1 hst0 hst1
    · rw [layerSum_down _ _ hin']
      have e : stream (nHalf a) (node E a) i = -node E a (i - nHalf a) := by rw [stream, if_neg hin']
      have hj : i - nHalf a < nHalf a := by omega
      have hne' := mu0_add_stream_ne h hc hg hi
      rw [e] at hne' ⊢
      rw [← sub_eq_add_neg] at hne' ⊢
      exact once_down h0 (node_pos hg hj).1 hst0 (sub_ne_zero.1 hne')
  have hq : 0 ≤ a.I0 / (4 * Real.pi) * (3 * D / σ) := by positivity
  have hims : |if i < nHalf a then 0 else imsStrength a (-node E a (i - nHalf a)) (phi.get p) * imsChi false (node E a (i - nHalf a)) (scaledMu0 a) (tau.get t)|
      ≤ a.I0 / (4 * Real.pi) * (3 * D / σ) := by
    by_cases hin' : i < nHalf a
    · rw [if_pos hin', abs_zero]; exact hq
    · have hj : i - nHalf a < nHalf a := by omega
      rw [if_neg hin', abs_mul]
      have hm := node_pos hg hj
      have hs0 : 0 < scaledMu0 a := div_pos h0 (by linarith [avgPeak_lt_one hacc])
      refine (mul_le_of_le_one_right (abs_nonneg _) (chi_le hm.1 hs0 (C43_chi hm.1 hs0 (hsep _ hj)) (ht t htt).1)).trans ?_
      exact ims_le hacc hI hσ hD hs ⟨by linarith [hm.2], by linarith [hm.1]⟩ _
  refine (abs_add_le _ _).trans ((add_le_add htms hims).trans (le_of_eq ?_))
  field_simp
  ring

/-- **C121, limitation.** Corrected intensities cannot be had with arbitrarily many streams: for every direction of the beam there is a number of streams from which on a quadrature angle is
within `1e-8` of it, and the call is refused. -/
theorem C121_too_fine_calls_are_refused {x : ℝ} (hx : x ∈ Set.Ioc (0 : ℝ) 1) : ∃ N₀ : ℕ, ∀ (E : Ext) (b : Args) (J : Junk), b.NTcor = true → b.mu0 = x → N₀ ≤ nHalf b →
    GaussContract E (nHalf b) → ∀ R, pydisort E J b ≠ .ok R := by
  obtain ⟨d, hd⟩ := rule_dense hx (show (0 : ℝ) < 1 / 10 ^ 8 by norm_num)
  refine ⟨d + 1, fun E b J hnt hmu hN hg R h => ?_⟩
  obtain ⟨i, hi, hlt⟩ := hd _ _ _ (rule_of_gauss hg hN)
  have := angles_of_ok h hnt i hi
  rw [hmu] at this
  linarith

section
variable {g : ℕ → ℕ → ℝ} {rho : ℕ → ℝ → ℝ → ℝ} {up down : ℝ → ℝ} {w : ℝ → ℝ → ℝ → ℝ}

/-- **C121, with C119.** The corrected intensities are as near to the exact ones as the uncorrected ones are shown to be in C119: with enough modes and small peaks the corrections do no harm. -/
theorem C121_corrected_intensities (hacc : Accepted a) (hgs : ∀ l < a.tauArr.n, PhaseSeries (g l)) (hpos : NonnegWhole a g) (hr : AbsorbingBDRF a rho)
    {κ ν : ℝ} (hκ : AbsorbsAtLeast a rho κ) (hν : NeglectsAtMost a g ν) (hνκ : ν < κ) (hw : WholeSolution a g rho up down w)
    {M : ℝ} (hM : ∀ t ∈ Set.Icc 0 (bottom a), ∀ y ∈ Set.Icc (-1 : ℝ) 1, y ≠ 0 → ∀ ph, |w t y ph| ≤ M) {ε : ℝ} (hε : 0 < ε) :
    ∃ N₀ : ℕ, ∃ η > 0, ∀ (E : Ext) (b : Args) (J : Junk) (R : Solved) (F : Fields), AsksForCorrected E a g rho up down b → N₀ ≤ nFourier b →
      (∀ l < a.tauArr.n, peak b l ≤ η / (nLeg b : ℝ) ^ 2) → pydisort E J b = .ok R → Evaluates b R F →
      ∀ t, 0 ≤ t → t ≤ bottom a → ∀ ph, ∀ i < 2 * nHalf b,
        |F.u t ph i - w t (stream (nHalf b) (node E b) i) ph| ≤ ε + ν * (M + a.I0 / (4 * Real.pi)) / (κ - ν) := by
  have hpi := Real.pi_pos
  have hI0 := hacc.beam
  obtain ⟨N₁, η₁, hη₁, key⟩ := C119_whole_phase_function hacc hgs hpos hr hκ hν hνκ hw hM (half_pos hε)
  set D := ε * Real.pi / (4 * (a.I0 + 1)) with hDd
  have hD0 : 0 < D := by positivity
  have hev : ∀ l, ∃ n : ℕ, ∀ k, n ≤ k → tailSum (g l) k ≤ D / 2 := fun l => by
    obtain ⟨n, hn⟩ := Filter.eventually_atTop.1 ((tailSum_tendsto (g l)).eventually (Iio_mem_nhds (half_pos hD0)))
    exact ⟨n, fun k hk => (hn k hk).le⟩
  choose n hn using hev
  refine ⟨max N₁ ((range a.tauArr.n).sup n), min η₁ (min (1 / 2) (D / 2)), lt_min hη₁ (lt_min (by norm_num) (half_pos hD0)), ?_⟩
  intro E b J R F hb hN hpk h hF t ht0 ht1 ph i hi
  have hbe : { b with NTcor := true } = b := by
    have := hb.corrected
    cases b
    simp_all
  have haccb := (pydisort_ok h).1
  have hT := hb.asks.truncates
  have htau : b.tauArr = a.tauArr := hT.tau
  have hof : b.onlyFlux = false := hb.asks.intensities
  obtain ⟨R', hR', -, -, -, -, huu, -⟩ := C42_fluxes_unaltered (a := b) (R := R) (by rw [hbe]; exact h)
  obtain ⟨F', hF'⟩ := evaluates_exists hR' hb.asks.sound hb.asks.rescalable
  have hL1 : (1 : ℝ) ≤ (nLeg b : ℝ) ^ 2 := by
    have : 0 < nLeg b := by
      have := haccb.nLeg.1
      unfold nLeg
      omega
    have : (1 : ℝ) ≤ (nLeg b : ℝ) := by exact_mod_cast this
    nlinarith
  have hL0 : (0 : ℝ) < (nLeg b : ℝ) ^ 2 := by linarith
  have hFL : nFourier b ≤ nLeg b := by
    have := (haccb.modes hof).2
    unfold nFourier nLeg
    rw [if_neg (by rw [hof]; simp)]
    omega
  have hmain : |F'.u t ph i - w t (stream (nHalf b) (node E b) i) ph| ≤ ε / 2 + ν * (M + a.I0 / (4 * Real.pi)) / (κ - ν) :=
    key E { b with NTcor := false } J R' F' hb.asks ((le_max_left _ _).trans hN)
      (fun l hl => (hpk l hl).trans (div_le_div_of_nonneg_right (min_le_left _ _) hL0.le)) hR' hF' t ht0 ht1 ph i hi
  have htb : InRange b ⟨1, fun _ => t⟩ := fun _ _ => ⟨ht0, by rw [htau]; exact ht1⟩
  have hcor : |F.u t ph i - F'.u t ph i| ≤ ε / 2 := by
    obtain ⟨A, a1, -, -, -, a5⟩ := hF.u hof ⟨1, fun _ => t⟩ ⟨1, fun _ => ph⟩ htb (fun _ => ⟨one_ne_zero, Or.inr rfl⟩)
    obtain ⟨B, b1, -, -, -, b5⟩ := hF'.u hof ⟨1, fun _ => t⟩ ⟨1, fun _ => ph⟩ htb (fun hh => by cases hh)
    rw [C02_returned_u hR' hof rfl] at b1
    have a6 : A.get i 0 0 = F.u t ph i := a5 i hi 0 Nat.one_pos 0 Nat.one_pos
    have b6 : B.get i 0 0 = F'.u t ph i := b5 i hi 0 Nat.one_pos 0 Nat.one_pos
    rw [← a6, ← b6]
    rw [← huu] at b1
    by_cases hc : Corrected b
    · have hp2 : ∀ l < b.tauArr.n, peak b l * (nLeg b : ℝ) ^ 2 ≤ min (1 / 2) (D / 2) := fun l hl => by
        have := (hpk l (by rwa [htau] at hl)).trans (div_le_div_of_nonneg_right (min_le_right _ _) hL0.le)
        rwa [le_div_iff₀ hL0] at this
      have hphalf : ∀ l < b.tauArr.n, peak b l ≤ 1 / 2 := fun l hl => by
        have k1 := (hp2 l hl).trans (min_le_left _ _)
        have k2 := (Args.peak_range haccb l).1
        nlinarith
      obtain ⟨A', B', e1, e2, -, -, -, hle⟩ := C121_corrections_are_bounded h hc hb.asks.sound.gauss (fun l hl => by linarith [hphalf l hl]) (hb.defined hc) hb.apart (D := D) (σ := 1 / 2)
        (by norm_num) (fun l hl => by
          have hl' : l < a.tauArr.n := by rwa [htau] at hl
          have k1 := (hp2 l hl).trans (min_le_right _ _)
          have k2 := hn l (nLeg b) (by
            have := le_sup (f := n) (mem_range.2 hl')
            have := (le_max_right N₁ _).trans hN
            omega)
          have k3 : ∑ k ∈ Ico (nLeg b) b.leg.c, (2 * (k : ℝ) + 1) * |leg b l k| ≤ tailSum (g l) (nLeg b) := by
            have hsm : Summable fun k : ℕ => (2 * ((k + nLeg b : ℕ) : ℝ) + 1) * |g l (k + nLeg b)| := (summable_nat_add_iff (nLeg b)).2 (hgs l hl').summable
            rw [sum_Ico_eq_sum_range]
            refine le_trans (le_of_eq (sum_congr rfl fun k hk => ?_)) (hsm.sum_le_tsum (range (b.leg.c - nLeg b)) fun _ _ => by positivity)
            have hk := mem_range.1 hk
            rw [add_comm (nLeg b) k]
            congr 2
            unfold leg
            have hL : 0 < nLeg b := by
              have := haccb.nLeg.1
              unfold nLeg
              omega
            rw [if_neg (by omega), hb.rest l hl' _ (by omega) (by omega)]
          unfold cutOff
          linarith)
        (fun l hl => by
          have o := haccb.omega l hl
          have := hphalf l hl
          have := (Args.peak_range haccb l).1
          unfold scale
          nlinarith) htb (phi := ⟨1, fun _ => ph⟩) (by simp) (Or.inr rfl)
      rw [e1] at a1
      rw [e2] at b1
      cases a1
      cases b1
      refine (hle i hi 0 Nat.one_pos 0 Nat.one_pos).trans ?_
      have hbI : b.I0 = a.I0 := hT.beam
      rw [hbI, hDd, div_le_iff₀ (by positivity)]
      have : a.I0 * (ε * Real.pi / (4 * (a.I0 + 1))) = ε / 2 * (Real.pi * (1 / 2)) * (a.I0 / (a.I0 + 1)) := by field_simp; ring
      rw [this]
      refine mul_le_of_le_one_right (by positivity) ?_
      rw [div_le_one (by linarith)]
      linarith
    · rw [C42_inactive h hof hc, b1] at a1
      cases a1
      rw [sub_self, abs_zero]
      exact (half_pos hε).le
  have := abs_sub_le (F.u t ph i) (F'.u t ph i) (w t (stream (nHalf b) (node E b) i) ph)
  linarith

end

/-! ### The hypotheses are met -/

/-- The atmosphere `demoGlow` with intensity corrections. -/
noncomputable def demoGlowNT (n : ℕ) (x : ℝ) : Args := { demoGlow n x with NTcor := true }

/-- One beam direction does for all numbers of streams below two thousand. -/
theorem demoGlowNT_beam : ∃ x : ℝ, 0 < x ∧ x ≤ 1 ∧ ∀ n < 1000, BeamRegular (demoHG n x) (node refExt (demoHG n x)) (weight refExt (demoHG n x))
    ∧ (∀ i < n, 1 / 10 ^ 8 ≤ |node refExt (demoGlowNT n x) i - x|) ∧ ∀ i < n, node refExt (demoGlowNT n x) i ≠ scaledMu0 (demoGlowNT n x) := by
  set bad : ℕ → Set ℝ := fun n => {x | x ∈ Set.Ioc (0 : ℝ) 1 ∧ ¬ BeamRegular (demoHG n x) (node refExt (demoHG n x)) (weight refExt (demoHG n x))} with hbad
  have hfin : ∀ n, (bad n).Finite := by
    intro n
    by_contra hinf
    obtain ⟨x, hx, hb⟩ := exists_beamRegular_in (demoHG n 1) (node refExt (demoHG n 1)) (weight refExt (demoHG n 1)) (S := bad n) (fun _ h => h.1) hinf
    exact hx.2 hb
  set res : ℕ → ℕ → ℝ := fun n i => node refExt (demoGlowNT n 1) i * (1 - avgPeak (demoGlowNT n 1)) with hres
  have hf1 : (⋃ n ∈ range 1000, bad n).Finite := Set.Finite.biUnion (finite_toSet _) fun n _ => hfin n
  have hf2 : (Set.range fun p : Fin 1000 × Fin 1000 => res p.1 p.2).Finite := Set.finite_range _
  obtain ⟨x, hx, hx2⟩ := ((away_infinite (n := 10 ^ 6) (by norm_num) fun j => node refExt (demoGlowNT (j / 1000) 1) (j % 1000)).diff (hf1.union hf2)).nonempty
  obtain ⟨⟨h0, h1⟩, haway⟩ := hx
  refine ⟨x, h0, h1, fun n hn => ⟨?_, fun i hi => ?_, fun i hi he => ?_⟩⟩
  · by_contra h
    exact hx2 (Or.inl (Set.mem_biUnion (mem_coe.2 (mem_range.2 hn)) ⟨⟨h0, h1⟩, h⟩))
  · have := haway (1000 * n + i) (by omega)
    rw [show (1000 * n + i) / 1000 = n by omega, show (1000 * n + i) % 1000 = i by omega] at this
    exact this
  · refine hx2 (Or.inr ⟨(⟨n, hn⟩, ⟨i, by omega⟩), ?_⟩)
    have hp : avgPeak (demoGlowNT n x) < 1 := by
      have hn0 : 0 < n := by omega
      exact avgPeak_lt_one (a := demoGlowNT n x) { demoGlow_accepted hn0 h0 h1 with }
    have he' : node refExt (demoGlowNT n 1) i = x / (1 - avgPeak (demoGlowNT n 1)) := he
    have hp' : avgPeak (demoGlowNT n 1) < 1 := hp
    simp only [hres]
    rw [he', div_mul_cancel₀ _ (by linarith)]

theorem demoGlowNT_wellPosed {n : ℕ} (hn : 0 < n) {x : ℝ} (h0 : 0 < x) (h1 : x ≤ 1) (hb : BeamRegular (demoHG n x) (node refExt (demoHG n x)) (weight refExt (demoHG n x)))
    (haway : ∀ i < n, 1 / 10 ^ 8 ≤ |node refExt (demoGlowNT n x) i - x|) : WellPosed refExt (demoGlowNT n x) := by
  have h := demoGlow_wellPosed hn h0 h1 hb
  exact ⟨{ demoGlow_accepted hn h0 h1 with }, h.gauss, h.eig, h.peak, h.dissipates, h.beam, h.surface, h.bottomBC, h.topBC, h.sourceShape, h.degree,
    fun _ i hi => haway i (by rw [← demoGlow_nHalf (n := n) x]; exact hi)⟩

theorem demoGlowNT_peak {n : ℕ} (x : ℝ) {l : ℕ} (hl : l < (demoGlowNT n x).tauArr.n) : peak (demoGlowNT n x) l = hg n := demoGlow_peak (n := n) x hl

theorem demoGlowNT_corrected {n : ℕ} (hn : 0 < n) (x : ℝ) : Corrected (demoGlowNT n x) :=
  ⟨rfl, rfl, one_pos, ⟨0, Nat.succ_pos 1, by show 0 < hg n; unfold hg; positivity⟩, by
    have : nLeg (demoGlowNT n x) = n := demoGlow_nLeg (n := n) x
    rw [this]
    show n < 2 * n
    omega, ⟨0, Nat.succ_pos 1, by simp [demoGlowNT, demoGlow, demoHG, demo]⟩⟩

theorem demoGlowNT_defined {n : ℕ} (x : ℝ) : ∃ l < (demoGlowNT n x).tauArr.n, peak (demoGlowNT n x) l * (demoGlowNT n x).omega.get l ≠ 0 := by
  refine ⟨0, Nat.succ_pos 1, ?_⟩
  rw [demoGlowNT_peak (n := n) x (Nat.succ_pos 1)]
  refine mul_ne_zero (by unfold hg; positivity) ?_
  simp [demoGlowNT, demoGlow, demoHG, demo]

/-- The hypotheses of C121 are met by corrected calls with up to 1998 streams that describe one atmosphere. -/
example : ∃ (a : Args) (g : ℕ → ℕ → ℝ) (rho : ℕ → ℝ → ℝ → ℝ) (up down : ℝ → ℝ) (w : ℝ → ℝ → ℝ → ℝ), Accepted a ∧ (∀ l < a.tauArr.n, PhaseSeries (g l)) ∧ NonnegWhole a g
    ∧ AbsorbingBDRF a rho ∧ AbsorbsAtLeast a rho (1 / 4) ∧ NeglectsAtMost a g (1 / 10 ^ 6) ∧ WholeSolution a g rho up down w
    ∧ ∀ m, 0 < m → m < 1000 → ∀ J, ∃ b R F, AsksForCorrected refExt a g rho up down b ∧ Corrected b ∧ nFourier b = m ∧ nLeg b = m ∧ nHalf b = m
      ∧ (∀ l < a.tauArr.n, peak b l = (1 / 5) ^ m) ∧ (∃ σ > 0, ∀ l < b.tauArr.n, σ ≤ scale b l) ∧ pydisort refExt J b = .ok R ∧ Evaluates b R F := by
  obtain ⟨x, h0, h1, hb⟩ := demoGlowNT_beam
  obtain ⟨w, hw⟩ := (C117_whole_solution_exists (demoGlow_accepted one_pos h0 h1) (fun _ _ => hg_phase) (demoGlow_nonneg x) (demoGlow_absorbs x) tame_one tame_one).1
  refine ⟨demoGlow 1 x, fun _ => hg, fullRho, fun _ => 1, fun _ => 1, w, demoGlow_accepted one_pos h0 h1, fun _ _ => hg_phase, demoGlow_nonneg x, demoGlow_absorbs x,
    demoGlow_absorbsAtLeast x, demoGlow_neglects x, hw, fun m hm hm' J => ?_⟩
  obtain ⟨b1, b2, b3⟩ := hb m hm'
  have hW := demoGlowNT_wellPosed hm h0 h1 b1 b2
  have hW0 := demoGlow_wellPosed hm h0 h1 b1
  have hr : Rescalable (demoGlow m x) := demo_rescalable x
  have hr' : Rescalable (demoGlowNT m x) := demo_rescalable x
  obtain ⟨R, e⟩ := pydisort_isOk hW J
  obtain ⟨F, f⟩ := evaluates_exists e hW.sound hr'
  have hacc : Accepted (demoGlowNT m x) := hW.accepted
  refine ⟨demoGlowNT m x, R, F, ⟨⟨⟨rfl, rfl, rfl, rfl, rfl, Iff.rfl, fun _ _ _ _ _ => rfl⟩, rfl, rfl, rfl, rfl, demoGlow_rho x, ⟨(demoHG_sampled x).1, (demoHG_sampled x).2⟩,
    trivial, trivial, hr, hW0.sound⟩, rfl, fun _ _ _ _ _ => rfl, fun _ => demoGlowNT_defined x, fun i hi => b3 i (by rw [← demoGlow_nHalf (n := m) x]; exact hi)⟩,
    demoGlowNT_corrected hm x, by simp [nFourier, demoGlowNT, demoGlow, demoHG, demo], demoGlow_nLeg x, demoGlow_nHalf x, fun l hl => demoGlowNT_peak (n := m) x hl,
    ⟨1 / 5, by norm_num, fun l hl => ?_⟩, e, f⟩
  have o := hacc.omega l hl
  unfold scale
  rw [demoGlowNT_peak (n := m) x hl]
  have : hg m ≤ 1 / 5 := by
    unfold hg
    exact pow_le_of_le_one (by norm_num) (by norm_num) (by omega)
  have h2 : 0 < hg m := by unfold hg; positivity
  nlinarith

end Pydisort

import Verif.Model.Rounded
import Verif.Spec.Rounded
import Verif.RoundingLemmas
import Verif.Props.Bounds

/-!
# C107: delta-M scaling and rounding

Specification used: `Spec.Format`, `Spec.Rounding`, `Spec.Representable`, `Spec.Accepted`.
-/

namespace Pydisort
open Finset Spec

variable {F : Format} (r : Rounding F) {a : Args}

/-! ### Without rounding it is the exact model -/

theorem bind_ok {α β : Type} {x : Py α} {f : α → Py β} {y : β} (h : (x >>= f) = .ok y) : ∃ v, x = .ok v ∧ f v = .ok y := by
  rcases x with e | v
  · cases h
  · exact ⟨v, rfl, h⟩

theorem cumsumR_id (v : Vec) (k : ℕ) : cumsumR id v k = cumsum v k := by
  induction k with
  | zero => simp [cumsumR, cumsum]
  | succ k ih => rw [cumsumR, id, ih]; unfold cumsum; rw [sum_range_succ _ (k + 1)]

/-- With exact arithmetic the rounded model gives what `Args.optics` gives. -/
theorem opticsR_id {O : Optics} (h : a.optics = .ok O) : (a.opticsR id).scale = O.scale ∧ (a.opticsR id).tau0 = O.tau0
    ∧ (a.opticsR id).omega = O.omega ∧ (a.opticsR id).wLeg = O.wLeg := by
  have ht : a.thickR id = a.thick := rfl
  have hl : a.legFixR id = a.legFix := rfl
  have hs : a.scaleR id = a.scale := rfl
  unfold Args.optics at h
  unfold Args.opticsR
  split_ifs at h ⊢ with hf
  · obtain ⟨s1, -, h⟩ := bind_ok h
    obtain ⟨s2, -, h⟩ := bind_ok h
    obtain ⟨s3, -, h⟩ := bind_ok h
    cases h
    refine ⟨hs, ?_, rfl, ?_⟩
    · funext k
      simp only [cumsumR_id]
      rfl
    · rw [hl]; rfl
  · obtain ⟨s3, -, h⟩ := bind_ok h
    cases h
    exact ⟨rfl, rfl, rfl, by rw [hl]; rfl⟩

/-- With exact arithmetic the rounded model locates a depth as the evaluation functions do. -/
theorem scaledTauR_id {E : Ext} {J : Junk} {R : Solved} (h : pydisort E J a = .ok R) (t : ℝ) :
    R.I.scaledTau t = a.scaledTauR id (R.I.layer t) t := by
  obtain ⟨hacc, O, q, hO, hr, hI, -⟩ := pydisort_ok h
  obtain ⟨e1, e2, -⟩ := opticsR_id hO
  unfold AsmIn.scaledTau Args.scaledTauR
  rw [e1, e2]
  have i1 : R.I.scale = O.scale := by rw [hI]; rfl
  have i2 : R.I.tau0 = O.tau0 := by rw [hI]; rfl
  have i3 : R.I.tauArr = a.tauArr.get := by rw [hI]; rfl
  have i4 : R.I.NLayers = a.NLayers := by rw [hI]; rfl
  rw [i1, i2, i3, i4]
  rfl

/-! ### C107 -/

/-- **C107, validation.** With gradual underflow the rounded thickness of a layer is positive exactly if the optical depths increase: the check on line 225 is exact. -/
theorem C107_thickness (hR : Representable F a) {k : ℕ} (hk : k + 1 < a.tauArr.n) :
    0 < a.thickR r.rnd (k + 1) ↔ a.tauArr.get k < a.tauArr.get (k + 1) := by
  have e : a.thickR r.rnd (k + 1) = r.rnd (a.tauArr.get (k + 1) - a.tauArr.get k) := rfl
  rw [e]
  constructor
  · intro h
    by_contra hc
    push Not at hc
    exact absurd h (not_lt.2 (r.nonpos (by linarith)))
  · intro h
    exact lt_of_lt_of_le (by positivity) (r.sub_pos (hR.tau k (by omega)) (hR.tau (k + 1) hk) h)

theorem thickR_pos (hacc : Accepted a) (hR : Representable F a) {l : ℕ} (hl : l < a.tauArr.n) : 0 < a.thickR r.rnd l := by
  rcases l with _ | l
  · exact hacc.top
  · exact (C107_thickness r hR hl).2 (hacc.increasing l hl)

theorem fLen (hacc : Accepted a) (hf : ∃ k < a.fArr.n, 0 < a.fArr.get k) : a.fArr.n = a.tauArr.n := by
  rcases hacc.peakLen with h | h
  · obtain ⟨k, hk, hk'⟩ := hf
    rw [h k hk] at hk'
    exact absurd hk' (lt_irrefl _)
  · exact h

/-- The rounded scale factor: between `2^-p` and one, and not below `1 - f`. -/
theorem scaleR_range (hacc : Accepted a) (hR : Representable F a) {l : ℕ} (hl : l < a.tauArr.n) (hfl : l < a.fArr.n) :
    (2 : ℝ) ^ (-(F.p : ℤ)) ≤ a.scaleR r.rnd l ∧ a.scaleR r.rnd l ≤ 1 ∧ r.rnd (1 - a.fArr.get l) ≤ a.scaleR r.rnd l := by
  have ho := hacc.omega l hl
  have hf := hacc.peak l hfl
  have h0 : 0 ≤ r.rnd (a.omega.get l * a.fArr.get l) := r.nonneg (mul_nonneg ho.1 hf.1)
  have h1 : r.rnd (a.omega.get l * a.fArr.get l) ≤ a.omega.get l := r.le_of_rep (hR.omega l hl) (mul_le_of_le_one_right ho.1 hf.2)
  have h2 : r.rnd (a.omega.get l * a.fArr.get l) ≤ a.fArr.get l := r.le_of_rep (hR.peak l hfl) (mul_le_of_le_one_left hf.1 ho.2.le)
  unfold Args.scaleR
  exact ⟨r.one_sub (r.rep _) (by linarith [ho.2]), r.le_one (by linarith), r.mono (by linarith)⟩

/-- **C107, scaled optics.** With floating-point inputs and whatever way of rounding, an accepted call has in every layer: a scale factor in `[2^-p, 1]`, so that nothing is divided by
zero; a scaled albedo that is at most the albedo and hence below one; a scaled zeroth Legendre coefficient that is exactly one (if the caller's is), and other coefficients of at most
one; and scaled boundaries that do not decrease. -/
theorem C107_scaled_optics (hacc : Accepted a) (hR : Representable F a) {l : ℕ} (hl : l < a.tauArr.n) (hf1 : peak a l < 1)
    (hleg : ∀ l < a.tauArr.n, a.leg.get l 0 = 1) :
    (2 : ℝ) ^ (-(F.p : ℤ)) ≤ (a.opticsR r.rnd).scale l ∧ (a.opticsR r.rnd).scale l ≤ 1 ∧
    0 ≤ (a.opticsR r.rnd).omega l ∧ (a.opticsR r.rnd).omega l ≤ a.omega.get l ∧ a.omega.get l < 1 ∧
    (a.opticsR r.rnd).leg l 0 = 1 ∧ (∀ k < a.leg.c, (a.opticsR r.rnd).leg l k ≤ 1) ∧
    0 ≤ (a.opticsR r.rnd).tau0 l ∧ (a.opticsR r.rnd).tau0 l ≤ (a.opticsR r.rnd).tau0 (l + 1) := by
  have ho := hacc.omega l hl
  have hp1 : (2 : ℝ) ^ (-(F.p : ℤ)) ≤ 1 := by
    have : (2 : ℝ) ^ (-(F.p : ℤ)) ≤ (2 : ℝ) ^ (0 : ℤ) := zpow_le_zpow_right₀ (by norm_num) (by omega)
    simpa using this
  have hfix : ∀ l < a.tauArr.n, ∀ k, a.legFixR r.rnd l k = a.leg.get l k := by
    intro l hl k
    unfold Args.legFixR
    rw [if_neg]
    rintro ⟨h, -⟩
    refine h fun l hl => ?_
    rw [hleg l hl, mul_one, r.fix _ (hR.omega l hl)]
  have hle1 : ∀ k < a.leg.c, a.leg.get l k ≤ 1 := by
    intro k hk
    rcases Nat.eq_zero_or_pos k with rfl | h
    · exact (hleg l hl).le
    · exact (hacc.legVal l hl k hk h).2.le
  unfold Args.opticsR
  split_ifs with hf
  · have hn := fLen hacc hf
    have hfl : l < a.fArr.n := by rw [hn]; exact hl
    have hpk : peak a l = a.fArr.get l := by unfold peak; rw [if_pos hfl]
    rw [hpk] at hf1
    obtain ⟨s1, s2, s3⟩ := scaleR_range r hacc hR hl hfl
    have s0 : 0 < a.scaleR r.rnd l := lt_of_lt_of_le (by positivity) s1
    have g0 : 0 < r.rnd (1 - a.fArr.get l) := lt_of_lt_of_le (by positivity) (r.one_sub (hR.peak l hfl) hf1)
    have q0 : 0 ≤ r.rnd (r.rnd (1 - a.fArr.get l) / a.scaleR r.rnd l) := r.nonneg (div_nonneg g0.le s0.le)
    have q1 : r.rnd (r.rnd (1 - a.fArr.get l) / a.scaleR r.rnd l) ≤ 1 := r.le_one ((div_le_one s0).2 s3)
    have hx : ∀ j < a.tauArr.n, 0 ≤ r.rnd (a.scaleR r.rnd j * a.thickR r.rnd j) := by
      intro j hj
      have := (scaleR_range r hacc hR hj (by rw [hn]; exact hj)).1
      exact r.nonneg (mul_nonneg (le_trans (by positivity) this) (thickR_pos r hacc hR hj).le)
    have hc : ∀ k < a.tauArr.n, F.Rep (cumsumR r.rnd (fun j => r.rnd (a.scaleR r.rnd j * a.thickR r.rnd j)) k)
        ∧ 0 ≤ cumsumR r.rnd (fun j => r.rnd (a.scaleR r.rnd j * a.thickR r.rnd j)) k := by
      intro k
      induction k with
      | zero => exact fun hk => ⟨r.rep _, hx 0 hk⟩
      | succ k ih => exact fun hk => ⟨r.rep _, r.nonneg (add_nonneg (ih (by omega)).2 (hx (k + 1) hk))⟩
    refine ⟨s1, s2, r.nonneg (mul_nonneg q0 ho.1), r.le_of_rep (hR.omega l hl) (mul_le_of_le_one_left ho.1 q1), ho.2, ?_, fun k hk => ?_, ?_, ?_⟩
    · dsimp only
      rw [hfix l hl, hleg l hl, div_self g0.ne', r.one]
    · dsimp only
      rw [hfix l hl]
      exact r.le_one ((div_le_one g0).2 (r.mono (by linarith [hle1 k hk])))
    · dsimp only
      split_ifs
      · exact le_rfl
      · exact (hc _ (by omega)).2
    · dsimp only
      rw [if_neg (Nat.succ_ne_zero l), Nat.add_sub_cancel]
      rcases l with _ | l
      · rw [if_pos rfl]; exact (hc 0 hl).2
      · rw [if_neg (Nat.succ_ne_zero l), Nat.add_sub_cancel]
        exact r.rep_le (hc l (by omega)).1 (le_add_of_nonneg_right (hx (l + 1) hl))
  · have hb : ∀ k < a.tauArr.n, 0 < a.tauArr.get k := by
      intro k
      induction k with
      | zero => exact fun _ => hacc.top
      | succ k ih => exact fun hk => (ih (by omega)).trans (hacc.increasing k hk)
    refine ⟨hp1, le_rfl, ho.1, le_rfl, ho.2, by dsimp only; rw [hfix l hl, hleg l hl], fun k hk => by dsimp only; rw [hfix l hl]; exact hle1 k hk, ?_, ?_⟩
    · dsimp only
      split_ifs
      · exact le_rfl
      · exact (hb _ (by omega)).le
    · dsimp only
      rw [if_neg (Nat.succ_ne_zero l), Nat.add_sub_cancel]
      split_ifs with h0
      · exact (hb l hl).le
      · have := hacc.increasing (l - 1) (by omega)
        rw [Nat.sub_add_cancel (by omega)] at this
        exact this.le

theorem ulp_le (F : Format) : F.ulp ≤ 1 / 2 := by
  have : (2 : ℝ) ^ (1 - (F.p : ℤ)) ≤ (2 : ℝ) ^ (-1 : ℤ) := zpow_le_zpow_right₀ (by norm_num) (by have := F.two_le; omega)
  exact this.trans (le_of_eq (by norm_num))

theorem ulp_pos (F : Format) : 0 < F.ulp := by unfold Format.ulp; positivity
theorem tiny_pos (F : Format) : 0 < F.tiny := by unfold Format.tiny; positivity

theorem err' (x : ℝ) : |r.rnd x - x| ≤ F.ulp * |x| + F.tiny := r.err x

/-- The rounded scaled depth lies above the lower boundary of the layer and, up to rounding, below the upper one. -/
theorem scaledTauR_range (hacc : Accepted a) (hR : Representable F a) {l : ℕ} (hl : l < a.tauArr.n) {t : ℝ}
    (ht0 : bdry a.tauArr.get l ≤ t) (ht1 : t ≤ a.tauArr.get l) (hs : ∃ k < a.tauArr.n, (a.opticsR r.rnd).scale k ≠ 1) :
    a.scaledTauR r.rnd l t ≤ (a.opticsR r.rnd).tau0 (l + 1) ∧ 0 ≤ (a.opticsR r.rnd).tau0 (l + 1) ∧
    (a.opticsR r.rnd).tau0 l - (3 * F.ulp * (a.opticsR r.rnd).tau0 (l + 1) + 3 * F.tiny) ≤ a.scaledTauR r.rnd l t := by
  have hst : a.scaledTauR r.rnd l t
      = r.rnd ((a.opticsR r.rnd).tau0 (l + 1) - r.rnd (r.rnd (a.tauArr.get l - t) * (a.opticsR r.rnd).scale l)) := by
    unfold Args.scaledTauR
    exact if_pos hs
  rw [hst]
  have hf : ∃ k < a.fArr.n, 0 < a.fArr.get k := by
    by_contra hc
    obtain ⟨k, -, hk⟩ := hs
    unfold Args.opticsR at hk
    rw [if_neg hc] at hk
    exact hk rfl
  have hn := fLen hacc hf
  have hO : a.opticsR r.rnd = ⟨a.scaleR r.rnd, fun k => if k = 0 then 0 else cumsumR r.rnd (fun j => r.rnd (a.scaleR r.rnd j * a.thickR r.rnd j)) (k - 1),
      (a.opticsR r.rnd).omega, (a.opticsR r.rnd).leg, (a.opticsR r.rnd).wLeg⟩ := by
    unfold Args.opticsR
    rw [if_pos hf]
  have e1 : (a.opticsR r.rnd).scale l = a.scaleR r.rnd l := by rw [hO]
  set w : ℝ := r.rnd (a.scaleR r.rnd l * a.thickR r.rnd l) with hw
  have hx : ∀ j < a.tauArr.n, 0 ≤ r.rnd (a.scaleR r.rnd j * a.thickR r.rnd j) := by
    intro j hj
    have := (scaleR_range r hacc hR hj (by rw [hn]; exact hj)).1
    exact r.nonneg (mul_nonneg (le_trans (by positivity) this) (thickR_pos r hacc hR hj).le)
  have hc : ∀ k < a.tauArr.n, 0 ≤ cumsumR r.rnd (fun j => r.rnd (a.scaleR r.rnd j * a.thickR r.rnd j)) k := by
    intro k
    induction k with
    | zero => exact fun hk => hx 0 hk
    | succ k ih => exact fun hk => r.nonneg (add_nonneg (ih (by omega)) (hx (k + 1) hk))
  have e2 : (a.opticsR r.rnd).tau0 (l + 1) = r.rnd ((a.opticsR r.rnd).tau0 l + w) := by
    rw [hO]
    dsimp only
    rw [if_neg (Nat.succ_ne_zero l), Nat.add_sub_cancel]
    rcases l with _ | l
    · rw [if_pos rfl, zero_add, hw, r.fix _ (r.rep _)]; rfl
    · rw [if_neg (Nat.succ_ne_zero l), Nat.add_sub_cancel]; rfl
  have e0 : 0 ≤ (a.opticsR r.rnd).tau0 l := by
    rw [hO]
    dsimp only
    split_ifs
    · exact le_rfl
    · exact hc _ (by omega)
  obtain ⟨s1, s2, -⟩ := scaleR_range r hacc hR hl (by rw [hn]; exact hl)
  have s0 : 0 ≤ a.scaleR r.rnd l := le_trans (by positivity) s1
  set d : ℝ := r.rnd (a.tauArr.get l - t) with hd
  have d0 : 0 ≤ d := r.nonneg (by linarith)
  have d1 : d ≤ a.thickR r.rnd l := by
    rcases l with _ | l
    · have h0 : bdry a.tauArr.get 0 = 0 := rfl
      have h1 : a.thickR r.rnd 0 = a.tauArr.get 0 := rfl
      rw [h1]
      exact r.le_of_rep (hR.tau 0 hl) (by linarith)
    · refine r.mono ?_
      have : bdry a.tauArr.get (l + 1) = a.tauArr.get l := rfl
      rw [this] at ht0
      simp only [Nat.add_sub_cancel]
      linarith
  rw [e1]
  set e : ℝ := r.rnd (d * a.scaleR r.rnd l) with he
  have f0 : 0 ≤ e := r.nonneg (mul_nonneg d0 s0)
  have f1 : e ≤ w := r.mono (by rw [mul_comm]; exact mul_le_mul_of_nonneg_left d1 s0)
  set A : ℝ := (a.opticsR r.rnd).tau0 l with hA
  set B : ℝ := (a.opticsR r.rnd).tau0 (l + 1) with hB
  have hu0 := ulp_pos F
  have hu1 := ulp_le F
  have hη := tiny_pos F
  have w0 : 0 ≤ w := f0.trans f1
  have hwB : w ≤ B := by rw [e2]; exact r.rep_le (r.rep _) (by linarith)
  have hB0 : 0 ≤ B := w0.trans hwB
  have hBrep : F.Rep B := by rw [e2]; exact r.rep _
  have b1 := abs_le.1 (err' r (A + w))
  rw [← e2, abs_of_nonneg (by linarith : 0 ≤ A + w)] at b1
  have b2 := abs_le.1 (err' r (B - e))
  rw [abs_of_nonneg (by linarith : 0 ≤ B - e)] at b2
  have c1 : F.ulp * (A + w) ≤ F.ulp * (2 * (B + F.tiny)) := mul_le_mul_of_nonneg_left (by nlinarith) hu0.le
  have c2 : F.ulp * (B - e) ≤ F.ulp * B := mul_le_mul_of_nonneg_left (by linarith) hu0.le
  have c3 : F.ulp * F.tiny ≤ 1 / 2 * F.tiny := mul_le_mul_of_nonneg_right hu1 hη.le
  refine ⟨r.le_of_rep hBrep (by linarith), hB0, ?_⟩
  nlinarith [b1.1, b1.2, b2.1, b2.2]

/-- **C107, exponents.** For a depth in layer `l` (the comparisons that find the layer are exact) and an eigenvalue pair `±K`, if the depths are rescaled: the exponents measured from
the lower boundary are not positive, and those measured from the upper boundary exceed zero at most by rounding. Without any forward peak none of them is positive. Not covered: peak fractions so small that
every rounded scale factor is one. -/
theorem C107_exponents (hacc : Accepted a) (hR : Representable F a) {l : ℕ} (hl : l < a.tauArr.n) {t K : ℝ} (hK : 0 ≤ K)
    (ht0 : bdry a.tauArr.get l ≤ t) (ht1 : t ≤ a.tauArr.get l) :
    ((∃ k < a.tauArr.n, (a.opticsR r.rnd).scale k ≠ 1) →
      a.exponentR r.rnd K false l t ≤ 0 ∧
      a.exponentR r.rnd (-K) true l t ≤ 9 * K * (F.ulp * (a.opticsR r.rnd).tau0 (l + 1) + F.tiny) + F.tiny) ∧
    ((∀ k < a.fArr.n, a.fArr.get k = 0) → a.exponentR r.rnd K false l t ≤ 0 ∧ a.exponentR r.rnd (-K) true l t ≤ 0) := by
  refine ⟨fun hs => ?_, fun hf => ?_⟩
  · obtain ⟨h1, h0, h2⟩ := scaledTauR_range r hacc hR hl ht0 ht1 hs
    refine ⟨r.nonpos (mul_nonpos_of_nonneg_of_nonpos hK (r.nonpos ?_)), ?_⟩
    · rw [if_neg (by decide)]; linarith
    · unfold Args.exponentR
      rw [if_pos rfl]
      set A : ℝ := (a.opticsR r.rnd).tau0 l with hA
      set B : ℝ := (a.opticsR r.rnd).tau0 (l + 1) with hB
      set T : ℝ := a.scaledTauR r.rnd l t with hT
      have hu0 := ulp_pos F
      have hu1 := ulp_le F
      have hη := tiny_pos F
      set D : ℝ := 3 * F.ulp * B + 3 * F.tiny with hD
      have hD0 : 0 ≤ D := by positivity
      have m1 : r.rnd (-D) ≤ r.rnd (T - A) := r.mono (by linarith)
      have m2 := (abs_le.1 (err' r (-D))).1
      rw [abs_neg, abs_of_nonneg hD0] at m2
      have m3 : -(3 / 2 * D + F.tiny) ≤ r.rnd (T - A) := by nlinarith
      have m4 : -K * r.rnd (T - A) ≤ K * (3 / 2 * D + F.tiny) := by nlinarith
      have m5 := (abs_le.1 (err' r (K * (3 / 2 * D + F.tiny)))).2
      have hX : 0 ≤ K * (3 / 2 * D + F.tiny) := by positivity
      rw [abs_of_nonneg hX] at m5
      refine (r.mono m4).trans ?_
      have m6 : F.ulp * (K * (3 / 2 * D + F.tiny)) ≤ 1 / 2 * (K * (3 / 2 * D + F.tiny)) := mul_le_mul_of_nonneg_right hu1 hX
      have m7 : 3 / 2 * (K * (3 / 2 * D + F.tiny)) ≤ 9 * K * (F.ulp * B + F.tiny) := by
        have : 0 ≤ K * (F.ulp * B) := by positivity
        have : 0 ≤ K * F.tiny := by positivity
        rw [hD]; nlinarith
      linarith
  · have hnf : ¬ ∃ k < a.fArr.n, 0 < a.fArr.get k := by
      rintro ⟨k, hk, hk'⟩
      rw [hf k hk] at hk'
      exact lt_irrefl _ hk'
    have e1 : (a.opticsR r.rnd).tau0 = bdry a.tauArr.get := by
      unfold Args.opticsR
      rw [if_neg hnf]
      rfl
    have e2 : a.scaledTauR r.rnd l t = t := by
      unfold Args.scaledTauR
      rw [if_neg]
      rintro ⟨k, -, hk⟩
      unfold Args.opticsR at hk
      rw [if_neg hnf] at hk
      exact hk rfl
    unfold Args.exponentR
    rw [e1, e2, if_neg (by decide), if_pos rfl]
    refine ⟨r.nonpos (mul_nonpos_of_nonneg_of_nonpos hK (r.nonpos ?_)), r.nonpos (mul_nonpos_of_nonpos_of_nonneg (neg_nonpos.2 hK) (r.nonneg (by linarith)))⟩
    have : bdry a.tauArr.get (l + 1) = a.tauArr.get l := rfl
    linarith

/-- **C107, quadrature nodes.** A node of Gauss-Legendre quadrature strictly inside `(-1, 1)` is moved into `(0, 1]`, so that the stream cosines and their reciprocals are positive. -/
theorem C107_nodes {x : ℝ} (hx : F.Rep x) (h0 : -1 < x) (h1 : x < 1) : 0 < nodeR r.rnd x ∧ nodeR r.rnd x ≤ 1 := by
  unfold nodeR
  have e1 : r.rnd (1 - 0) = 1 := by rw [sub_zero, r.one]
  have e2 : r.rnd (1 - -1) = 2 := by rw [show (1 : ℝ) - -1 = 2 by norm_num, r.two]
  rw [e1, e2, mul_one, add_zero, r.fix (r.rnd (x - -1)) (r.rep _), r.fix _ (r.rep _)]
  have hF := emin_neg F
  have g1 : (2 : ℝ) ^ (-(F.p : ℤ)) ≤ r.rnd (x - -1) := by
    have := r.one_sub (rep_neg hx) (by linarith)
    rwa [show x - -1 = 1 - -x by ring]
  have g2 : r.rnd (x - -1) ≤ 2 := r.le_of_rep rep_two (by linarith)
  constructor
  · refine lt_of_lt_of_le (show (0 : ℝ) < (2 : ℝ) ^ (-(F.p : ℤ) - 1) by positivity) (r.rep_le (rep_zpow (by omega)) ?_)
    rw [zpow_sub₀ (by norm_num), zpow_one]
    linarith
  · exact r.le_one (by linarith)

/-- **C107, rescaling.** Sources divided by the rescale factor are at most one, and the largest one becomes exactly one. -/
theorem C107_rescaled {x m : ℝ} (hm : 0 < m) (hx : x ≤ m) : rescaledR r.rnd x m ≤ 1 ∧ rescaledR r.rnd m m = 1 := by
  unfold rescaledR
  exact ⟨r.le_one ((div_le_one hm).2 hx), by rw [div_self hm.ne', r.one]⟩

/-! ### Rounding does violate the sign of an exponent -/

/-- Nearest to a number close to one is one. -/
theorem nearest_one {even : ℝ → Prop} {x : ℝ} (h0 : |x - 1| < (2 : ℝ) ^ (-(F.p : ℤ)) / 2) : (nearest F even).rnd x = 1 := by
  refine nearest_eq rep_one fun y hy hne => ?_
  have hp : (2 : ℝ) ^ (1 - (F.p : ℤ)) = 2 * (2 : ℝ) ^ (-(F.p : ℤ)) := by rw [sub_eq_add_neg, zpow_add₀ (by norm_num), zpow_one]
  have hd : (2 : ℝ) ^ (-(F.p : ℤ)) ≤ |1 - y| := by
    rcases lt_or_gt_of_ne hne with h | h
    · rw [abs_of_pos (by linarith)]
      exact rep_below hy h
    · have := rep_gap hy h
      rw [abs_of_neg (by linarith)]
      have : (0 : ℝ) < (2 : ℝ) ^ (-(F.p : ℤ)) := by positivity
      linarith
  have ht : |1 - y| ≤ |1 - x| + |x - y| := abs_sub_le 1 x y
  rw [abs_sub_comm 1 x] at ht
  linarith

/-- Two layers, the upper one very thin and with a forward peak, the lower one without. -/
noncomputable def demoThin (n : ℕ) (x : ℝ) : Args :=
  { demo n x with
    tauArr := ⟨2, fun k => if k = 0 then (2 : ℝ) ^ (-60 : ℤ) else 1⟩
    omega := ⟨2, fun _ => 1 / 2⟩
    leg := ⟨2, 2 * n, fun _ k => if k = 0 then 1 else 1 / 8⟩
    fArr := ⟨2, fun k => if k = 0 then 1 / 2 else 0⟩ }

theorem demoThin_accepted {n : ℕ} (hn : 0 < n) {x : ℝ} (h0 : 0 < x) (h1 : x ≤ 1) : Accepted (demoThin n x) :=
  { demo_accepted hn h0 h1 with
    layers := by simp [demoThin]
    top := by simp [demoThin]
    increasing := by
      intro k hk
      have : k = 0 := by simp only [demoThin] at hk; omega
      subst this
      simp only [demoThin]
      norm_num
    omegaLen := rfl
    omega := by intro k _; simp only [demoThin]; norm_num
    legRows := rfl
    legCols := by simp only [demoThin, demo, Option.getD_some]; push_cast; omega
    legVal := by
      intro l _ k _ hk
      simp only [demoThin]
      rw [if_neg (by omega)]
      norm_num
    peakLen := Or.inr rfl
    peak := by intro k _; simp only [demoThin]; split_ifs <;> norm_num
    sourceRows := Or.inr rfl }

theorem rep_half : binary64.Rep (1 / 2) := by
  have := rep_zpow (F := binary64) (e := -1) (by simp [binary64])
  rwa [show (2 : ℝ) ^ (-1 : ℤ) = 1 / 2 by norm_num] at this

theorem demoThin_representable (n : ℕ) (x : ℝ) : Representable binary64 (demoThin n x) where
  tau := by
    intro l _
    simp only [demoThin]
    split_ifs
    · exact rep_zpow (by simp [binary64])
    · exact rep_one
  omega := fun l _ => rep_half
  peak := by
    intro l _
    simp only [demoThin]
    split_ifs
    · exact rep_half
    · exact rep_zero
  leg := by
    intro l _ k _
    simp only [demoThin]
    split_ifs
    · exact rep_one
    · have := rep_zpow (F := binary64) (e := -3) (by simp [binary64])
      rwa [show (2 : ℝ) ^ (-3 : ℤ) = 1 / 8 by norm_num] at this

/-- With rounding to nearest in double precision (ties broken in any way), an exponent that is measured from the upper boundary can be positive: the depth, which is inside the layer, is scaled to one above it. -/
theorem C107_exponent_positive (n : ℕ) (hn : 0 < n) (even : ℝ → Prop) : ∃ a, Accepted a ∧ Representable binary64 a ∧ (∀ l < a.tauArr.n, peak a l < 1) ∧
    ∃ l < a.tauArr.n, ∃ t, binary64.Rep t ∧ bdry a.tauArr.get l < t ∧ t < a.tauArr.get l ∧
      a.scaledTauR (nearest binary64 even).rnd l t < (a.opticsR (nearest binary64 even).rnd).tau0 l ∧
      0 < a.exponentR (nearest binary64 even).rnd (-1) true l t := by
  set r := nearest binary64 even with hr
  have hacc := demoThin_accepted hn (x := 1) one_pos le_rfl
  have hf : ∃ k < (demoThin n 1).fArr.n, 0 < (demoThin n 1).fArr.get k := ⟨0, by simp [demoThin], by simp [demoThin]⟩
  have one : ∀ y : ℝ, |y - 1| < (2 : ℝ) ^ (-(53 : ℤ)) / 2 → r.rnd y = 1 := fun y hy => nearest_one (F := binary64) hy
  have r34 : binary64.Rep (3 / 4) := ⟨3, -2, by norm_num [binary64], by simp [binary64], by norm_num⟩
  have r14 : binary64.Rep (1 / 4) := ⟨1, -2, by norm_num [binary64], by simp [binary64], by norm_num⟩
  have rq : binary64.Rep (3 / 4 * (2 : ℝ) ^ (-60 : ℤ)) := ⟨3, -62, by norm_num [binary64], by simp [binary64], by norm_num⟩
  have s0 : (demoThin n 1).scaleR r.rnd 0 = 3 / 4 := by
    simp only [Args.scaleR, demoThin, if_true]
    rw [show (1 / 2 * (1 / 2) : ℝ) = 1 / 4 by norm_num, r.fix _ r14, show (1 - 1 / 4 : ℝ) = 3 / 4 by norm_num, r.fix _ r34]
  have s1 : (demoThin n 1).scaleR r.rnd 1 = 1 := by
    simp only [Args.scaleR, demoThin, one_ne_zero, if_false]
    rw [mul_zero, r.zero, sub_zero, r.one]
  have h0 : (demoThin n 1).thickR r.rnd 0 = (2 : ℝ) ^ (-60 : ℤ) := by simp [Args.thickR, demoThin]
  have h1 : (demoThin n 1).thickR r.rnd 1 = 1 := by
    simp only [Args.thickR, demoThin, one_ne_zero, if_false, Nat.sub_self, zero_add, if_true]
    exact one _ (by norm_num)
  have hO : ∀ k, ((demoThin n 1).opticsR r.rnd).tau0 k
      = if k = 0 then 0 else cumsumR r.rnd (fun j => r.rnd ((demoThin n 1).scaleR r.rnd j * (demoThin n 1).thickR r.rnd j)) (k - 1) := by
    intro k
    unfold Args.opticsR
    rw [if_pos hf]
  have hS : ((demoThin n 1).opticsR r.rnd).scale = (demoThin n 1).scaleR r.rnd := by
    unfold Args.opticsR
    rw [if_pos hf]
  have t1 : ((demoThin n 1).opticsR r.rnd).tau0 1 = 3 / 4 * (2 : ℝ) ^ (-60 : ℤ) := by
    rw [hO, if_neg one_ne_zero, Nat.sub_self, cumsumR, s0, h0, r.fix _ rq]
  have t2 : ((demoThin n 1).opticsR r.rnd).tau0 2 = 1 := by
    rw [hO, if_neg two_ne_zero, show 2 - 1 = 0 + 1 from rfl, cumsumR, cumsumR, zero_add, s0, h0, s1, h1, r.fix _ rq, mul_one, r.one]
    exact one _ (by norm_num)
  have st : (demoThin n 1).scaledTauR r.rnd 1 ((2 : ℝ) ^ (-59 : ℤ)) = 0 := by
    unfold Args.scaledTauR
    have hne : ∃ k < (demoThin n 1).NLayers, ((demoThin n 1).opticsR r.rnd).scale k ≠ 1 :=
      ⟨0, by simp [Args.NLayers, demoThin], by rw [hS, s0]; norm_num⟩
    rw [if_pos hne, t2, hS, s1, mul_one]
    have : r.rnd ((demoThin n 1).tauArr.get 1 - (2 : ℝ) ^ (-59 : ℤ)) = 1 := by
      simp only [demoThin, one_ne_zero, if_false]
      exact one _ (by norm_num)
    rw [this, r.one, sub_self, r.zero]
  refine ⟨demoThin n 1, hacc, demoThin_representable n 1, fun l hl => ?_, 1, by simp [demoThin], (2 : ℝ) ^ (-59 : ℤ), rep_zpow (by simp [binary64]), ?_, ?_, ?_, ?_⟩
  · unfold peak
    rw [if_pos (show l < (demoThin n 1).fArr.n from hl)]
    simp only [demoThin]
    split_ifs <;> norm_num
  · simp only [bdry, demoThin, one_ne_zero, if_false, Nat.sub_self, if_true]; norm_num
  · simp only [demoThin, one_ne_zero, if_false]; norm_num
  · rw [st, t1]; positivity
  · unfold Args.exponentR
    rw [if_pos rfl, st, t1, zero_sub, r.fix _ (rep_neg rq), neg_one_mul, neg_neg, r.fix _ rq]
    positivity

/-- The hypotheses of C107 are met, for every rounding of double precision. -/
example (r : Rounding binary64) (n : ℕ) (hn : 0 < n) : Accepted (demoThin n 1) ∧ Representable binary64 (demoThin n 1) ∧
    (∀ l < (demoThin n 1).tauArr.n, (demoThin n 1).leg.get l 0 = 1) ∧ ((demoThin n 1).opticsR r.rnd).omega 0 < 1 :=
  have h := demoThin_accepted hn (x := 1) one_pos le_rfl
  have hl : ∀ l < (demoThin n 1).tauArr.n, (demoThin n 1).leg.get l 0 = 1 := fun l _ => by simp [demoThin]
  have hp : peak (demoThin n 1) 0 < 1 := by unfold peak; simp only [demoThin]; norm_num
  have c := C107_scaled_optics r h (demoThin_representable n 1) (l := 0) (by simp [demoThin]) hp hl
  ⟨h, demoThin_representable n 1, hl, lt_of_le_of_lt c.2.2.2.1 c.2.2.2.2.1⟩

end Pydisort

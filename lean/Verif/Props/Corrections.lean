import Verif.CorrLemmas
import Verif.WitnessNT
import Verif.SplitLemmas
import Verif.Props.Estimate

/-!
# Properties C40 - C45: the Nakajima-Tanaka corrections of the intensity
-/

namespace Pydisort
open Finset Spec

variable {E : Ext} {J : Junk} {a : Args} {R : Solved}

/-- With corrections requested no quadrature angle is near the beam. -/
theorem angles_of_ok (h : pydisort E J a = .ok R) (hnt : a.NTcor = true) : ∀ i < nHalf a, 1 / 10 ^ 8 ≤ |node E a i - a.mu0| := by
  unfold pydisort prepare at h
  rcases h1 : a.validate with e | _
  · rw [h1] at h; cases h
  rw [h1] at h; simp only [bind, Except.bind] at h
  rcases h2 : a.quad E with e | q
  · rw [h2] at h; cases h
  unfold Args.quad gaussLegendreQuad at h2
  split_ifs at h2 with h5
  · cases h2
  · simp only [bind, Except.bind] at h2
    split_ifs at h2 with h6
    intro i hi
    by_contra hlt
    refine h6 ⟨hnt, i, hi, ?_⟩
    have e : (transformInterval ⟨a.N, (E.leggauss a.N).1⟩ 0 1 (-1) 1).get i = node E a i := by
      simp only [transformInterval, A1.map]
      have hn : a.N = nHalf a := rfl
      unfold node; rw [hn]; ring
    rw [e]
    exact not_le.1 hlt

theorem mu0_pos_of (h : pydisort E J a = .ok R) (hc : Corrected a) : 0 < a.mu0 :=
  ((pydisort_ok h).1.beamDir hc.2.2.1).1.1

/-- The factors `μ₀ ± μ` by which the corrections are divided do not vanish. -/
theorem mu0_add_stream_ne (h : pydisort E J a = .ok R) (hc : Corrected a) (hg : GaussContract E (nHalf a)) {i : ℕ}
    (hi : i < 2 * nHalf a) : a.mu0 + stream (nHalf a) (node E a) i ≠ 0 := by
  have h0 := mu0_pos_of h hc
  by_cases hin : i < nHalf a
  · rw [stream_up hin]
    have := (node_pos hg hin).1
    linarith
  · have e : i = nHalf a + (i - nHalf a) := by omega
    rw [e, stream_down]
    intro h3
    have := angles_of_ok h hc.1 (i - nHalf a) (by omega)
    rw [show node E a (i - nHalf a) - a.mu0 = 0 by linarith, abs_zero] at this
    norm_num at this

/-- The TMS part of the corrected intensity. -/
noncomputable def tmsPart (E : Ext) (a : Args) (i l : ℕ) (t ph : ℝ) : ℝ :=
  onceScattered a l (stream (nHalf a) (node E a) i) ph * (a.mu0 / (a.mu0 + stream (nHalf a) (node E a) i))
    * layerSum a (node E a) i l (tauStar a l t)

/-! IMS averages. -/

section
variable {r : ℝ} {n : NTIn} (H : NTSpec E a r n)
include H

theorem sum2_eq : n.sum2 = weighted a (peak a) := by
  unfold NTIn.sum2 weighted
  rw [H.NLayers]
  exact sum_congr rfl fun k hk => by rw [H.f k (mem_range.1 hk), H.omega, H.tauArr]

theorem sum1_pos (hacc : Accepted a) (hc : Corrected a) : 0 < n.sum1 := by
  unfold NTIn.sum1
  rw [H.NLayers, H.omega, H.tauArr]
  obtain ⟨l, hl, hw⟩ := hc.2.2.2.2.2
  rw [hacc.omegaLen] at hl
  have ht : ∀ k < a.tauArr.n, 0 < a.tauArr.get k := fun k hk => by
    have hp : ∀ k, k < a.tauArr.n → 0 < a.tauArr.get k := by
      intro k
      induction k with
      | zero => intro _; exact hacc.top
      | succ k ih => intro hk; exact (ih (by omega)).trans (hacc.increasing k hk)
    exact hp k hk
  refine sum_pos' (fun k hk => ?_) ⟨l, mem_range.2 hl, mul_pos hw (ht l hl)⟩
  have hk := mem_range.1 hk
  exact mul_nonneg (hacc.omega k hk).1 (ht k hk).le

theorem avg_eq (hacc : Accepted a) (hc : Corrected a) : n.omegaAvg * n.fAvg = avgPeak a := by
  have := (sum1_pos H hacc hc).ne'
  unfold NTIn.omegaAvg NTIn.fAvg avgPeak
  rw [sum2_eq H, H.NLayers, H.tauArr]
  field_simp

theorem scaledMu0_eq (hacc : Accepted a) (hc : Corrected a) : n.scaledMu0 = scaledMu0 a := by
  unfold NTIn.scaledMu0 scaledMu0
  rw [avg_eq H hacc hc, H.mu0]

theorem residue_eq : n.residueAvg = avgResidue a := by
  funext j
  unfold NTIn.residueAvg avgResidue
  rw [sum2_eq H]
  congr 1
  unfold weighted
  rw [H.NLayers]
  refine sum_congr rfl fun k hk => ?_
  have hk := mem_range.1 hk
  rw [H.NLeg, H.f k hk, H.omega, H.tauArr]
  by_cases hw : a.omega.get k = 0
  · rw [hw]; ring
  · rw [H.legAll k hk j hw]

theorem imsFac_eq (hacc : Accepted a) (hc : Corrected a) (x ph : ℝ) :
    r * n.imsFac (nuVal x ph (-n.mu0) n.phi0) = imsStrength a x ph := by
  unfold NTIn.imsFac imsStrength legSeries
  rw [H.nu_eq, avg_eq H hacc hc, residue_eq H, H.NLegAll, ← H.I0]
  ring

end

/-- What `u` returns when the corrections are active: Fourier series, TMS correction and, for downward streams, IMS correction. The
last hypothesis excludes the case in which the code divides zero by zero (C44). -/
theorem corrected_returns (h : pydisort E J a = .ok R) (hc : Corrected a)
    (_hp : ∃ l < a.tauArr.n, peak a l * a.omega.get l ≠ 0)
    {U : ℕ → ℝ → ℕ → ℝ} (hU : IsModes a R U) {tau phi : A1 ℝ} (ht : InRange a tau) (hne : tau.n ≠ 0)
    (hN : nHalf a ≠ 1 ∨ phi.n = 1) {lay : ℕ → ℕ} (hlay : ∀ t < tau.n, lay t < a.tauArr.n ∧
      (lay t = 0 ∨ a.tauArr.get (lay t - 1) < tau.get t) ∧ tau.get t ≤ a.tauArr.get (lay t)) :
    Returns3 (R.u tau phi false) (2 * nHalf a) tau.n phi.n (fun i t p =>
      ∑ m ∈ range (nFourier a), U m (tau.get t) i * Real.cos (m * (a.phi0 - phi.get p))
        + (tmsPart E a i (lay t) (tau.get t) (phi.get p)
          + if i < nHalf a then 0 else imsStrength a (-node E a (i - nHalf a)) (phi.get p)
              * imsChi false (node E a (i - nHalf a)) (scaledMu0 a) (tau.get t))) := by
  obtain ⟨n, hn, H⟩ := ntSpec h hc
  have hacc := (pydisort_ok h).1
  obtain ⟨A, h1, h2, h3, h4, h5⟩ := u_returns h hc.2.1 ht (phi := phi) (fun _ => ⟨hne, hN⟩)
  refine ⟨A, h1, h2, h3, h4, fun i hi t htt p hp => ?_⟩
  rw [h5 i hi t htt p hp]
  beta_reduce
  have hlayer : R.I.layer (tau.get t) = lay t := (C21_layer_lookup h (ht t htt).2 (lay t)).2 (hlay t htt)
  refine congrArg₂ (· + ·) (sum_congr rfl fun m hm => ?_) ?_
  · rw [C02_modes_unique hU (modes_val h) m (mem_range.1 hm) (tau.get t) (ht t htt).1 (ht t htt).2 i hi]
  · rw [hn, hlayer]
    simp only
    unfold NTIn.corrVal tmsPart
    rw [mul_add, H.tmsVal_eq hi (hlay t htt).1, H.N]
    refine congrArg₂ (· + ·) rfl ?_
    split_ifs with hin
    · ring
    · rw [← mul_assoc, imsFac_eq H hacc hc, scaledMu0_eq H hacc hc, H.mu]

/-! ## C40 -/

theorem tauStar_hasDeriv (a : Args) (l : ℕ) (t : ℝ) : HasDerivAt (fun t => tauStar a l t) (scale a l) t := by
  unfold tauStar
  have := (((hasDerivAt_id t).sub_const (bdry a.tauArr.get l)).const_mul (scale a l)).const_add (bdryStar a l)
  simpa using this

theorem tmsPart_singleScattering (h : pydisort E J a = .ok R) (hc : Corrected a) (hg : GaussContract E (nHalf a)) :
    SingleScattering a (node E a) (tmsPart E a) where
  ode := by
    intro i hi l hl t ph
    have h0 := mu0_pos_of h hc
    have hne := mu0_add_stream_ne h hc hg hi
    set k := onceScattered a l (stream (nHalf a) (node E a) i) ph
    set s := stream (nHalf a) (node E a) i with hs
    have hd := tauStar_hasDeriv a l t
    have e0 : HasDerivAt (fun t => Real.exp (-tauStar a l t / a.mu0)) (Real.exp (-tauStar a l t / a.mu0) * (-scale a l / a.mu0)) t :=
      (hd.fun_neg.div_const a.mu0).exp
    by_cases hin : i < nHalf a
    · have hsu : s = node E a i := stream_up hin
      have hmu := (node_pos hg hin).1
      set b := bdryStar a a.tauArr.n
      have e1 : HasDerivAt (fun t => Real.exp (-(b - tauStar a l t) / s)) (Real.exp (-(b - tauStar a l t) / s) * (scale a l / s)) t := by
        have := ((hd.const_sub b).fun_neg.div_const s).exp
        rw [neg_neg] at this
        exact this
      have e2 := ((e0.sub (e1.mul_const (Real.exp (-b / a.mu0)))).const_mul (k * (a.mu0 / (a.mu0 + s))))
      refine ⟨_, (e2.congr_deriv rfl).congr_of_eventuallyEq (Filter.Eventually.of_forall fun x => ?_), ?_⟩
      · show tmsPart E a i l x ph = _
        unfold tmsPart
        rw [layerSum_up a _ hin hl]
        unfold emitUp atten
        rw [← hsu]
        rfl
      · have e3 : tmsPart E a i l t ph = k * (a.mu0 / (a.mu0 + s)) * (Real.exp (-tauStar a l t / a.mu0)
            - Real.exp (-(b - tauStar a l t) / s) * Real.exp (-b / a.mu0)) := by
          unfold tmsPart
          rw [layerSum_up a _ hin hl]
          unfold emitUp atten
          rw [← hsu]
        rw [e3]
        have hs0 : s ≠ 0 := by rw [hsu]; exact hmu.ne'
        field_simp
        ring
    · have hsd : s = -node E a (i - nHalf a) := by rw [hs, show i = nHalf a + (i - nHalf a) by omega, stream_down]; congr 2; omega
      have hmu := (node_pos hg (show i - nHalf a < nHalf a by omega)).1
      set x := node E a (i - nHalf a)
      have e1 : HasDerivAt (fun t => Real.exp (-(tauStar a l t - 0) / x)) (Real.exp (-(tauStar a l t - 0) / x) * (-scale a l / x)) t :=
        ((hd.sub_const 0).fun_neg.div_const x).exp
      have e2 := ((e0.sub (e1.mul_const (Real.exp (-0 / a.mu0)))).const_mul (k * (a.mu0 / (a.mu0 + s))))
      refine ⟨_, (e2.congr_deriv rfl).congr_of_eventuallyEq (Filter.Eventually.of_forall fun y => ?_), ?_⟩
      · show tmsPart E a i l y ph = _
        unfold tmsPart
        rw [layerSum_down a _ hin]
        rfl
      · have e3 : tmsPart E a i l t ph = k * (a.mu0 / (a.mu0 + s)) * (Real.exp (-tauStar a l t / a.mu0)
            - Real.exp (-(tauStar a l t - 0) / x) * Real.exp (-0 / a.mu0)) := by
          unfold tmsPart
          rw [layerSum_down a _ hin]
          rfl
        rw [e3]
        rw [hsd] at hne ⊢
        field_simp
        ring
  top := by
    intro i hi ph
    unfold tmsPart
    rw [layerSum_down a _ (by omega)]
    simp [emitDown, atten, tauStar, bdryStar, bdry]
  bottom := by
    intro i hi ph
    have hL := (pydisort_ok h).1.layers
    have e : tauStar a (a.tauArr.n - 1) (bottom a) = bdryStar a a.tauArr.n := by
      have := bdryStar_eq a (a.tauArr.n - 1)
      rw [show a.tauArr.n - 1 + 1 = a.tauArr.n by omega] at this
      rw [this]; unfold bottom bdry
      rw [if_neg (by omega)]
    unfold tmsPart
    rw [layerSum_up a _ hi (by omega), e]
    simp [emitUp, atten]

theorem tmsPart_noJumps (hu : SameStrength a) : NoJumps a (tmsPart E a) := by
  intro i hi l hl ph
  have e : tauStar a l (a.tauArr.get l) = tauStar a (l + 1) (a.tauArr.get l) := by
    have := bdryStar_eq a l
    rw [Spec.bdry_succ] at this
    rw [← this]
    unfold tauStar
    rw [Spec.bdry_succ]; ring
  unfold tmsPart
  rw [e, hu l (by omega) (l + 1) hl]
  congr 1
  by_cases hin : i < nHalf a
  · rw [layerSum_up a _ hin (by omega), layerSum_up a _ hin hl]
  · rw [layerSum_down a _ hin, layerSum_down a _ hin]

/-- **C40 (partial).** The corrected intensity is the Fourier series plus a TMS correction `w` that obeys in every layer the equation
of single scattering with the difference of the exact and the truncated phase function of that layer as source, and lets no light in
at the top and the bottom, plus the IMS correction `v` of the downward streams. Missing: the correction is continuous across layer
boundaries only if the once scattered light has the same strength in all layers (see `C40_false`). -/
theorem C40_tms_partial (h : pydisort E J a = .ok R) (hc : Corrected a) (hg : GaussContract E (nHalf a))
    (hp : ∃ l < a.tauArr.n, peak a l * a.omega.get l ≠ 0) :
    ∃ (w : ℕ → ℕ → ℝ → ℝ → ℝ) (v : ℕ → ℝ → ℝ → ℝ),
      SingleScattering a (node E a) w ∧ (SameStrength a → NoJumps a w) ∧ (∀ i < nHalf a, ∀ t ph, v i t ph = 0) ∧
      ∀ U, IsModes a R U → ∀ tau phi : A1 ℝ, InRange a tau → tau.n ≠ 0 → (nHalf a ≠ 1 ∨ phi.n = 1) →
        ∀ lay : ℕ → ℕ, (∀ t < tau.n, lay t < a.tauArr.n ∧
          (lay t = 0 ∨ a.tauArr.get (lay t - 1) < tau.get t) ∧ tau.get t ≤ a.tauArr.get (lay t)) →
        Returns3 (R.u tau phi false) (2 * nHalf a) tau.n phi.n (fun i t p =>
          ∑ m ∈ range (nFourier a), U m (tau.get t) i * Real.cos (m * (a.phi0 - phi.get p))
            + (w i (lay t) (tau.get t) (phi.get p) + v i (tau.get t) (phi.get p))) := by
  refine ⟨tmsPart E a, fun i t ph => if i < nHalf a then 0 else imsStrength a (-node E a (i - nHalf a)) ph
    * imsChi false (node E a (i - nHalf a)) (scaledMu0 a) t, tmsPart_singleScattering h hc hg, tmsPart_noJumps, ?_, ?_⟩
  · intro i hi t ph; beta_reduce; rw [if_pos hi]
  · intro U hU tau phi ht hne hN lay hlay
    exact corrected_returns h hc hp hU ht hne hN hlay

/-- **C41.** The correction computed with cumulative sums is the explicit sum over the layers: strength of the once scattered light
times `μ₀ / (μ₀ ± μ)` times what the rest of the layer emits plus what the layers behind emit, each attenuated. The result is stated
for `TMS_correction` as the code calls it. -/
theorem C41_layer_sums (h : pydisort E J a = .ok R) (hc : Corrected a) :
    ∃ n, R.nt = some n ∧ ∀ (tau phi : A1 ℝ), tau.n ≠ 0 → ∀ lay : ℕ → ℕ, (∀ t < tau.n, lay t < a.tauArr.n) → ∃ A : A3 ℝ,
      n.tms tau phi false lay = .ok A ∧ A.d0 = 2 * nHalf a ∧ A.d1 = tau.n ∧ A.d2 = phi.n ∧
      ∀ i < 2 * nHalf a, ∀ t < tau.n, ∀ p < phi.n, R.I.rescale * A.get i t p =
        onceScattered a (lay t) (stream (nHalf a) (node E a) i) (phi.get p)
          * (a.mu0 / (a.mu0 + stream (nHalf a) (node E a) i))
          * layerSum a (node E a) i (lay t) (tauStar a (lay t) (tau.get t)) := by
  obtain ⟨n, hn, H⟩ := ntSpec h hc
  refine ⟨n, hn, fun tau phi hne lay hlay => ?_⟩
  have hN : 0 < n.N := by
    rw [H.N]
    have := (pydisort_ok h).1.streams.1
    unfold nHalf; omega
  obtain ⟨A, h1, h2, h3, h4, h5⟩ := n.tms_returns hN phi false lay hne
  refine ⟨A, h1, by rw [h2, H.N], h3, h4, fun i hi t htt p hp => ?_⟩
  rw [h5 i (by rw [H.N]; exact hi) t htt p hp, H.tmsVal_eq hi (hlay t htt)]

/-- **C41, the masked term.** Both branches of the term of the downward streams are the light emitted by a whole layer. -/
theorem C41_masked_term (h : pydisort E J a = .ok R) (hc : Corrected a) :
    ∃ n, R.nt = some n ∧ ∀ i < nHalf a, ∀ l < a.tauArr.n,
      n.termNeg false i l = emitDown a (node E a i) (bdryStar a l) (bdryStar a (l + 1)) := by
  obtain ⟨n, hn, H⟩ := ntSpec h hc
  refine ⟨n, hn, fun i hi l hl => ?_⟩
  rw [NTIn.termNeg_eq H.geo i (by rw [H.NLayers]; exact hl), H.tau0 _ hl, H.tau0 _ hl.le, H.mu, H.mu0]
  rfl

theorem bdryStar_nonneg (hacc : Accepted a) {l : ℕ} (hl : l ≤ a.tauArr.n) : 0 ≤ bdryStar a l := by
  unfold bdryStar
  refine sum_nonneg fun k hk => mul_nonneg (Args.scale_pos hacc (show k < a.NLayers from ?_)).le ?_
  · have := mem_range.1 hk
    change k < a.tauArr.n
    omega
  · have hk' := mem_range.1 hk
    unfold bdry
    rw [if_neg (by omega)]
    split_ifs with h1
    · subst h1; simpa using hacc.top.le
    · have := hacc.increasing (k - 1) (by omega)
      rw [show k - 1 + 1 = k by omega] at this
      simp only [Nat.add_sub_cancel]
      linarith

/-- **C41, exponents.** Every argument that `TMS_correction` passes to `exp` or `expm1` is at most zero, for depths in the layer. -/
theorem C41_no_positive_exponents (h : pydisort E J a = .ok R) (hc : Corrected a) (hg : GaussContract E (nHalf a)) :
    ∃ n, R.nt = some n ∧ ∀ i < nHalf a, ∀ l < a.tauArr.n,
      -- lines 500, 512, 522, 550, 557, 562
      -n.tau0 l * (1 / n.mu0) ≤ 0 ∧ cumsum (n.logDecay i) l ≤ 0 ∧ -(n.thick l * (n.M_inv i + 1 / n.mu0)) ≤ 0 ∧
      n.logDecay i l ≤ 0 ∧ -n.tau0 (l + 1) * (1 / n.mu0) ≤ 0 ∧ -|n.thick l * (n.M_inv i - 1 / n.mu0)| ≤ 0 ∧
      -- lines 461-479, 540, 583
      ∀ t, bdry a.tauArr.get l ≤ t → t ≤ bdry a.tauArr.get (l + 1) →
        -n.st l t / n.mu0 ≤ 0 ∧ (n.st l t - n.tau0 (l + 1)) / n.mu i - n.tau0 (l + 1) / n.mu0 ≤ 0 ∧
        (n.tau0 l - n.st l t) / n.mu i - n.tau0 l / n.mu0 ≤ 0 ∧
        n.M_inv i * (n.st l t - n.tau0 (l + 1)) ≤ 0 ∧ n.M_inv i * (n.tau0 l - n.st l t) ≤ 0 := by
  obtain ⟨n, hn, H⟩ := ntSpec h hc
  have hacc := (pydisort_ok h).1
  refine ⟨n, hn, fun i hi l hl => ?_⟩
  have h0 : 0 < n.mu0 := by rw [H.mu0]; exact mu0_pos_of h hc
  have hm : 0 < n.mu i := by rw [H.mu]; exact (node_pos hg hi).1
  have hb := bdryStar_nonneg hacc hl.le
  have hb' := bdryStar_nonneg hacc (show l + 1 ≤ a.tauArr.n from hl)
  have hlay : l < n.NLayers := by rw [H.NLayers]; exact hl
  have hth : 0 ≤ n.thick l := by
    have e := H.geo.step l hlay
    rw [H.tau0 _ hl, H.tau0 _ hl.le, bdryStar_succ] at e
    have h1 := (Args.scale_pos hacc (show l < a.NLayers from hl)).le
    have h2 : 0 ≤ bdry a.tauArr.get (l + 1) - bdry a.tauArr.get l := by
      have := (depthOK_of h).1.le (show l ≤ l + 1 by omega) (by rw [(depthOK_of h).2.2]; exact hl)
      rw [(depthOK_of h).2.1] at this
      linarith
    nlinarith [mul_nonneg h1 h2]
  have hi1 : 0 < 1 / n.mu i := by positivity
  have hi0 : 0 < 1 / n.mu0 := by positivity
  rw [NTIn.cumsum_logDecay H.geo i hlay, H.tau0 _ hl, H.tau0 _ hl.le]
  unfold NTIn.logDecay
  rw [H.geo.minv]
  refine ⟨by nlinarith [mul_nonneg hb hi0.le], ?_, ?_, by nlinarith [mul_nonneg hth hi1.le], by nlinarith [mul_nonneg hb' hi0.le],
    neg_nonpos.2 (abs_nonneg _), fun t h1 h2 => ?_⟩
  · rw [neg_div]; exact neg_nonpos.2 (div_nonneg hb' hm.le)
  · exact neg_nonpos.2 (mul_nonneg hth (add_pos hi1 hi0).le)
  · have hsc := (Args.scale_pos hacc (show l < a.NLayers from hl)).le
    have e1 : bdryStar a l ≤ tauStar a l t := by unfold tauStar; nlinarith [mul_nonneg hsc (sub_nonneg.2 h1)]
    have e2 : tauStar a l t ≤ bdryStar a (l + 1) := by
      rw [bdryStar_succ]; unfold tauStar; nlinarith [mul_nonneg hsc (sub_nonneg.2 h2)]
    rw [H.st_eq hl]
    refine ⟨?_, ?_, ?_, by nlinarith, by nlinarith⟩
    · rw [neg_div]; exact neg_nonpos.2 (div_nonneg (hb.trans e1) h0.le)
    · have := div_nonneg (sub_nonneg.2 e2) hm.le
      have e3 := div_nonneg hb' h0.le
      have e4 : (tauStar a l t - bdryStar a (l + 1)) / n.mu i = -((bdryStar a (l + 1) - tauStar a l t) / n.mu i) := by ring
      rw [e4]; linarith
    · have := div_nonneg (sub_nonneg.2 e1) hm.le
      have e3 := div_nonneg hb h0.le
      have e4 : (bdryStar a l - tauStar a l t) / n.mu i = -((tauStar a l t - bdryStar a l) / n.mu i) := by ring
      rw [e4]; linarith

/-! ## C42 -/

/-- **C42, inactive.** Without a beam, a cut-off peak, unused Legendre coefficients or scattering (or if not requested) `u` is the
uncorrected intensity. -/
theorem C42_inactive (h : pydisort E J a = .ok R) (hof : a.onlyFlux = false) (hc : ¬ Corrected a) (tau phi : A1 ℝ) (anti : Bool) :
    R.u tau phi anti = R.uUncorrected tau phi anti := by
  obtain ⟨hacc, O, r, hO, hr, hI, hsol, hof', hg1, hg2⟩ := pydisort_ok h
  unfold Solved.u
  rw [hof', hof, hg2 (fun hg => hc ((corrected_iff hacc).1 hg))]
  simp

/-- **C42, fluxes.** Asking for corrections changes neither the fluxes nor `u0` nor the uncorrected intensity, whatever the
arguments: the call without corrections succeeds too and has the same functions. -/
theorem C42_fluxes_unaltered (h : pydisort E J { a with NTcor := true } = .ok R) :
    ∃ R', pydisort E J { a with NTcor := false } = .ok R' ∧ R'.nt = none ∧ R.u0 = R'.u0 ∧ R.fluxUp = R'.fluxUp
      ∧ R.fluxDown = R'.fluxDown ∧ R.uUncorrected = R'.uUncorrected ∧ R.muArr = R'.muArr := by
  unfold pydisort prepare at h ⊢
  rcases h1 : Args.validate { a with NTcor := true } with e | _
  · rw [h1] at h; cases h
  have h1' : Args.validate { a with NTcor := false } = Args.validate { a with NTcor := true } := rfl
  rw [h1', h1]
  rw [h1] at h; simp only [bind, Except.bind] at h ⊢
  rcases h2 : Args.quad { a with NTcor := true } E with e | q
  · rw [h2] at h; cases h
  have h2' : Args.quad { a with NTcor := false } E = .ok q := by
    unfold Args.quad at h2 ⊢
    rcases h3 : gaussLegendreQuad E (Args.N { a with NTcor := true }) 0 1 with e | q'
    · rw [h3] at h2; cases h2
    have h3' : gaussLegendreQuad E (Args.N { a with NTcor := false }) 0 1 = .ok q' := h3
    rw [h3] at h2
    rw [h3']
    simp only [bind, Except.bind] at h2 ⊢
    split_ifs at h2 with h4
    rw [if_neg (by simp)]
    exact h2
  rw [h2] at h; rw [h2']; simp only at h ⊢
  have h5 : Args.optics { a with NTcor := false } = Args.optics { a with NTcor := true } := rfl
  rw [h5]
  rcases h6 : Args.optics { a with NTcor := true } with e | O
  · rw [h6] at h; cases h
  rw [h6] at h; simp only at h ⊢
  have h7 : Args.rescaleFactor { a with NTcor := false } O = Args.rescaleFactor { a with NTcor := true } O := rfl
  rw [h7]
  rcases h8 : Args.rescaleFactor { a with NTcor := true } O with e | r
  · rw [h8] at h; cases h
  rw [h8] at h; simp only [pure, Except.pure] at h ⊢
  have h9 : Args.asmIn { a with NTcor := false } q.1.get q.2.get O r = Args.asmIn { a with NTcor := true } q.1.get q.2.get O r := rfl
  rw [h9]
  rcases h10 : solveAll E J (Args.asmIn { a with NTcor := true } q.1.get q.2.get O r) with e | S
  · rw [h10] at h; cases h
  rw [h10] at h
  simp only at h ⊢
  cases h
  refine ⟨_, rfl, ?_, rfl, rfl, rfl, rfl, rfl⟩
  exact if_neg (fun hg => by cases hg.1)

/-! ## C43 -/

/-- **C43.** The depth function of the IMS correction. -/
theorem C43_chi {mu s : ℝ} (hmu : 0 < mu) (hs : 0 < s) (hne : mu ≠ s) : IsChi mu s (imsChi false mu s) := by
  have hx : 1 / mu - 1 / s ≠ 0 := by
    intro h
    apply hne
    field_simp at h
    linarith
  refine ⟨?_, fun t => ?_⟩
  · simp only [imsChi, Bool.false_eq_true, if_false]
    norm_num
  · simp only [imsChi, Bool.false_eq_true, if_false]
    set x := 1 / mu - 1 / s with hxd
    have e1 : HasDerivAt (fun t : ℝ => Real.exp (-t / s)) (Real.exp (-t / s) * (-1 / s)) t := ((hasDerivAt_neg t).div_const s).exp
    have e2 : HasDerivAt (fun t : ℝ => Real.exp (-t / mu)) (Real.exp (-t / mu) * (-1 / mu)) t := ((hasDerivAt_neg t).div_const mu).exp
    have e3 : HasDerivAt (fun t : ℝ => t - 1 / x) 1 t := (hasDerivAt_id t).sub_const _
    refine ⟨_, ((e3.fun_mul e1).fun_add (e2.div_const x)).div_const (mu * s * x), ?_⟩
    have hxs : mu * x = 1 - mu / s := by rw [hxd]; field_simp
    have hms : mu / s = 1 - mu * x := by linarith
    have key : mu * ((1 * Real.exp (-t / s) + (t - 1 / x) * (Real.exp (-t / s) * (-1 / s)) + Real.exp (-t / mu) * (-1 / mu) / x) / (mu * s * x))
        + ((t - 1 / x) * Real.exp (-t / s) + Real.exp (-t / mu) / x) / (mu * s * x)
        = (mu * Real.exp (-t / s) + (t - 1 / x) * Real.exp (-t / s) * (1 - mu / s)) / (mu * s * x) := by
      field_simp; ring
    rw [key, hms]
    field_simp
    ring

/-- **C43, antiderivative.** -/
theorem C43_chi_antiderivative {mu s : ℝ} (hmu : 0 < mu) (hs : 0 < s) (hne : mu ≠ s) (t : ℝ) :
    HasDerivAt (imsChi true mu s) (imsChi false mu s t) t := by
  have hx : 1 / mu - 1 / s ≠ 0 := by
    intro h
    apply hne
    field_simp at h
    linarith
  simp only [imsChi, Bool.false_eq_true, if_false, if_true]
  set x := 1 / mu - 1 / s with hxd
  have e1 : HasDerivAt (fun t : ℝ => Real.exp (-t / s)) (Real.exp (-t / s) * (-1 / s)) t := ((hasDerivAt_neg t).div_const s).exp
  have e2 : HasDerivAt (fun t : ℝ => Real.exp (-t / mu)) (Real.exp (-t / mu) * (-1 / mu)) t := ((hasDerivAt_neg t).div_const mu).exp
  have e3 : HasDerivAt (fun t : ℝ => s - x * s * (s + t)) (-(x * s * 1)) t :=
    (((hasDerivAt_id t).const_add s).const_mul (x * s)).const_sub s
  refine (((e3.fun_mul e1).fun_sub (e2.const_mul mu)).div_const (mu * s * x ^ 2)).congr_deriv ?_
  field_simp
  ring

theorem avgPeak_lt_one (hacc : Accepted a) : avgPeak a < 1 := by
  have hpos : ∀ k < a.tauArr.n, 0 < a.tauArr.get k := by
    intro k
    induction k with
    | zero => intro _; exact hacc.top
    | succ k ih => intro hk; exact (ih (by omega)).trans (hacc.increasing k hk)
  have hT : 0 < ∑ k ∈ range a.tauArr.n, a.tauArr.get k :=
    sum_pos (fun k hk => hpos k (mem_range.1 hk)) ⟨0, mem_range.2 hacc.layers⟩
  unfold avgPeak weighted
  rw [div_lt_one hT]
  refine sum_lt_sum_of_nonempty ⟨0, mem_range.2 hacc.layers⟩ fun k hk => ?_
  have hk := mem_range.1 hk
  have := Args.scale_pos hacc (show k < a.NLayers from hk)
  unfold scale at this
  have h2 := hpos k hk
  nlinarith

/-- **C43, in the intensity.** The IMS correction added to a downward stream is a strength depending on the direction only, times
the solution `χ` of the equation of secondary scattering; upward streams get the TMS correction only. -/
theorem C43_ims (h : pydisort E J a = .ok R) (hc : Corrected a) (hg : GaussContract E (nHalf a))
    (hp : ∃ l < a.tauArr.n, peak a l * a.omega.get l ≠ 0) (hs : ∀ i < nHalf a, node E a i ≠ scaledMu0 a) :
    ∃ (w : ℕ → ℕ → ℝ → ℝ → ℝ) (chi : ℕ → ℝ → ℝ), SingleScattering a (node E a) w ∧
      (∀ i < nHalf a, IsChi (node E a i) (scaledMu0 a) (chi i)) ∧
      ∀ U, IsModes a R U → ∀ tau phi : A1 ℝ, InRange a tau → tau.n ≠ 0 → (nHalf a ≠ 1 ∨ phi.n = 1) →
        ∀ lay : ℕ → ℕ, (∀ t < tau.n, lay t < a.tauArr.n ∧
          (lay t = 0 ∨ a.tauArr.get (lay t - 1) < tau.get t) ∧ tau.get t ≤ a.tauArr.get (lay t)) →
        Returns3 (R.u tau phi false) (2 * nHalf a) tau.n phi.n (fun i t p =>
          ∑ m ∈ range (nFourier a), U m (tau.get t) i * Real.cos (m * (a.phi0 - phi.get p))
            + (w i (lay t) (tau.get t) (phi.get p) + if i < nHalf a then 0
              else imsStrength a (-node E a (i - nHalf a)) (phi.get p) * chi (i - nHalf a) (tau.get t))) := by
  have h0 : 0 < scaledMu0 a := div_pos (mu0_pos_of h hc) (by linarith [avgPeak_lt_one (pydisort_ok h).1])
  refine ⟨tmsPart E a, fun i t => imsChi false (node E a i) (scaledMu0 a) t, tmsPart_singleScattering h hc hg,
    fun i hi => C43_chi (node_pos hg hi).1 h0 (hs i hi), ?_⟩
  intro U hU tau phi ht hne hN lay hlay
  exact corrected_returns h hc hp hU ht hne hN hlay

/-! ## C40, counterexample -/

theorem legendreP_one : legendreP 1 = Polynomial.X := by
  unfold legendreP
  simp only [Function.iterate_one, pow_one, Nat.factorial_one]
  ext k
  simp only [Polynomial.derivative_sub, Polynomial.derivative_X_pow, Polynomial.derivative_one, Polynomial.coeff_C_mul, sub_zero,
    Nat.cast_ofNat, Polynomial.coeff_X, Nat.add_one_sub_one, pow_one, Nat.cast_one]
  split_ifs <;> norm_num

/-- Azimuth at which the scattering angle of `demoNT` does not depend on the square roots. -/
theorem demoNT_beamCos (x m1 : ℝ) : beamCos (demoNT 1 x) m1 (1 + Real.pi / 2) = -(m1 * x) := by
  have hcos : Real.cos (1 - (1 + Real.pi / 2)) = 0 := by
    rw [show (1 : ℝ) - (1 + Real.pi / 2) = -(Real.pi / 2) by ring, Real.cos_neg, Real.cos_pi_div_two]
  unfold beamCos
  rw [show (demoNT 1 x).phi0 = 1 from rfl, hcos, show (demoNT 1 x).mu0 = x from rfl]; ring

theorem demoNT_onceScattered (x m1 : ℝ) {l : ℕ} (hl : l < 2) : onceScattered (demoNT 1 x) l m1 (1 + Real.pi / 2)
    = omegaStar (demoNT 1 x) l * (1 / (4 * Real.pi) * ((1 - 12 * m1 * x) / 7)) := by
  unfold onceScattered
  rw [demoNT_beamCos, demoNT_peak hl]
  have e1 : exactPhase (demoNT 1 x) l (-(m1 * x)) = 1 - 3 / 2 * (m1 * x) := by
    unfold exactPhase
    rw [show (demoNT 1 x).leg.c = 2 from rfl, sum_range_succ, sum_range_one]
    rw [legendreP_zero, legendreP_one]
    simp [leg, demoNT, demo]; ring
  have e2 : truncPhase (demoNT 1 x) l (-(m1 * x)) = 1 := by
    unfold truncPhase
    rw [show nLeg (demoNT 1 x) = 1 from rfl, sum_range_one, legendreP_zero]
    unfold legStar
    rw [demoNT_peak hl]
    simp [leg]; norm_num
  rw [e1, e2, show (demoNT 1 x).I0 = 1 from rfl]
  ring

theorem demoNT_omegaStar (x : ℝ) {l : ℕ} (hl : l < 2) : omegaStar (demoNT 1 x) l = if l = 0 then 7 / 15 else 21 / 29 := by
  unfold omegaStar scale
  rw [demoNT_peak hl]
  interval_cases l <;> simp [demoNT, demo] <;> norm_num

theorem emitUp_pos {m1 s b : ℝ} (hx0 : 0 < a.mu0) (hm : 0 < m1) (hlt : s < b) : 0 < emitUp a m1 s b := by
  unfold emitUp atten
  rw [← Real.exp_add, sub_pos, Real.exp_lt_exp]
  have h3 : 0 < (b - s) / m1 := div_pos (by linarith) hm
  have h4 : 0 < (b - s) / a.mu0 := div_pos (by linarith) hx0
  have h5 : -b / a.mu0 = -s / a.mu0 - (b - s) / a.mu0 := by ring
  have h6 : -(b - s) / m1 = -((b - s) / m1) := by ring
  rw [h5, h6]; linarith

/-- **C40 is false.** In an atmosphere of two layers that differ in their single-scattering albedo the intensity returned by `u` jumps at
the layer boundary (the uncorrected intensity does not, C05): the light arriving from other layers is given the strength of the layer
in which it is observed. -/
theorem C40_false (J : Junk) : ∃ (a : Args) (R : Solved), pydisort refExt J a = .ok R ∧ WellPosed refExt a ∧ Corrected a ∧
    ∃ i < nHalf a, ∃ ph, ¬ ∃ v : ℝ → ℝ, ContinuousOn v (Set.Icc 0 (bottom a)) ∧
      ∀ t ∈ Set.Icc 0 (bottom a), ∃ A, R.u ⟨1, fun _ => t⟩ ⟨1, fun _ => ph⟩ false = .ok A ∧ A.get i 0 0 = v t := by
  set m1 := node refExt (demoNT 1 1) 0 with hm1
  obtain ⟨x, R, hR, hxF, hx0, hx1, hwp, hS, hres⟩ := demoNT_call one_pos (by norm_num) {1 / (12 * m1)} J
  have hg := hwp.gauss
  have hN : nHalf (demoNT 1 x) = 1 := demoNT_nHalf x
  have hmu : node refExt (demoNT 1 x) 0 = m1 := rfl
  have hmpos : 0 < m1 := by rw [← hmu]; exact (node_pos hg (by rw [hN]; exact one_pos)).1
  have hc := demoNT_corrected (n := 1) one_pos x
  have hL : (demoNT 1 x).tauArr.n = 2 := rfl
  have hbot : bottom (demoNT 1 x) = 2 := by simp [bottom, demoNT, demo]; norm_num
  refine ⟨_, R, hR, hwp, hc, 0, by rw [hN]; exact one_pos, 1 + Real.pi / 2, ?_⟩
  rintro ⟨v, hv, hval⟩
  rw [hbot] at hv hval
  -- the Fourier series is continuous
  have hU := modes_val hR
  set U := fun m t i => R.I.rescale * R.I.val R.S m t i
  set S : ℝ → ℝ := fun t => ∑ m ∈ range (nFourier (demoNT 1 x)), U m t 0 * Real.cos (m * ((demoNT 1 x).phi0 - (1 + Real.pi / 2))) with hSdef
  have hScont : ContinuousOn S (Set.Icc 0 2) := by
    refine continuousOn_finset_sum _ fun m hm => ContinuousOn.mul ?_ continuousOn_const
    have := C05_continuous_across_layers hR hS hres hU m (mem_range.1 hm) 0 (by rw [hN]; norm_num)
    rw [show (demoNT 1 x).tauArr.get ((demoNT 1 x).tauArr.n - 1) = 2 from hbot] at this
    exact this
  have hp : ∃ l < (demoNT 1 x).tauArr.n, peak (demoNT 1 x) l * (demoNT 1 x).omega.get l ≠ 0 :=
    ⟨0, by rw [hL]; norm_num, by rw [demoNT_peak (by norm_num)]; simp [demoNT, demo]⟩
  have hu : ∀ l < 2, ∀ t ∈ Set.Icc (0 : ℝ) 2, (l = 0 ∨ (demoNT 1 x).tauArr.get (l - 1) < t) → t ≤ (demoNT 1 x).tauArr.get l →
      v t = S t + tmsPart refExt (demoNT 1 x) 0 l t (1 + Real.pi / 2) := by
    intro l hl t ht h1 h2
    obtain ⟨A, hA, hAv⟩ := hval t ht
    obtain ⟨B, hB, _, _, _, hB5⟩ := corrected_returns hR hc hp hU (tau := ⟨1, fun _ => t⟩) (phi := ⟨1, fun _ => 1 + Real.pi / 2⟩)
      (fun _ _ => ⟨ht.1, by rw [show (demoNT 1 x).tauArr.get ((demoNT 1 x).tauArr.n - 1) = 2 from hbot]; exact ht.2⟩)
      (by simp) (Or.inr rfl) (lay := fun _ => l) (fun _ _ => ⟨by rw [hL]; exact hl, h1, h2⟩)
    rw [hA] at hB; cases hB
    have := hB5 0 (by rw [hN]; norm_num) 0 Nat.one_pos 0 Nat.one_pos
    rw [← hAv, this]
    beta_reduce
    rw [if_pos (show 0 < nHalf (demoNT 1 x) by rw [hN]; norm_num), add_zero]
  set T0 := fun t => tmsPart refExt (demoNT 1 x) 0 0 t (1 + Real.pi / 2)
  set T1 := fun t => tmsPart refExt (demoNT 1 x) 0 1 t (1 + Real.pi / 2) with hT1
  have hd : ContinuousOn (fun t => v t - S t) (Set.Icc 0 2) := hv.sub hScont
  have h1 : v 1 - S 1 = T0 1 := by
    rw [hu 0 (by norm_num) 1 (by constructor <;> norm_num) (Or.inl rfl) (by simp [demoNT, demo])]; ring
  have h2 : ∀ t ∈ Set.Ioc (1 : ℝ) 2, v t - S t = T1 t := by
    intro t ht
    rw [hu 1 (by norm_num) t ⟨by linarith [ht.1], ht.2⟩ (Or.inr (by simpa [demoNT, demo] using ht.1))
      (by have := ht.2; simp [demoNT, demo]; linarith)]; ring
  have hT1c : ContinuousAt T1 1 := by
    obtain ⟨d, hd, _⟩ := (tmsPart_singleScattering hR hc hg).ode 0 (by rw [hN]; norm_num) 1 (by rw [hL]; norm_num) 1 (1 + Real.pi / 2)
    exact hd.continuousAt
  have ht1 : Filter.Tendsto (fun t => v t - S t) (nhdsWithin 1 (Set.Ioc 1 2)) (nhds (v 1 - S 1)) :=
    ((hd 1 (by constructor <;> norm_num)).mono (fun t ht => ⟨by linarith [ht.1], ht.2⟩)).tendsto
  have ht2 : Filter.Tendsto (fun t => v t - S t) (nhdsWithin 1 (Set.Ioc 1 2)) (nhds (T1 1)) := by
    refine (hT1c.continuousWithinAt (s := Set.Ioc 1 2)).tendsto.congr' ?_
    filter_upwards [self_mem_nhdsWithin] with t ht
    exact (h2 t ht).symm
  haveI : (nhdsWithin (1 : ℝ) (Set.Ioc 1 2)).NeBot := by
    rw [nhdsWithin_Ioc_eq_nhdsGT (by norm_num)]; infer_instance
  have heq := tendsto_nhds_unique ht1 ht2
  rw [h1] at heq
  -- but the two values differ
  have hst : stream (nHalf (demoNT 1 x)) (node refExt (demoNT 1 x)) 0 = m1 := by
    rw [stream_up (by rw [hN]; norm_num)]; exact hmu
  have hsc := fun l hl => demoNT_onceScattered x m1 (l := l) hl
  have hw := fun l hl => demoNT_omegaStar x (l := l) hl
  have hst2 : tauStar (demoNT 1 x) 0 1 = tauStar (demoNT 1 x) 1 1 := by
    have := bdryStar_eq (demoNT 1 x) 0
    have hb : bdry (demoNT 1 x).tauArr.get 1 = 1 := by simp [bdry, demoNT, demo]
    rw [zero_add, hb] at this
    rw [← this]; unfold tauStar; rw [hb]; ring
  have hT0e : T0 1 = onceScattered (demoNT 1 x) 0 m1 (1 + Real.pi / 2) * (x / (x + m1))
      * emitUp (demoNT 1 x) m1 (tauStar (demoNT 1 x) 1 1) (bdryStar (demoNT 1 x) 2) := by
    show tmsPart refExt (demoNT 1 x) 0 0 1 (1 + Real.pi / 2) = _
    unfold tmsPart
    rw [hst, layerSum_up _ _ (by rw [hN]; norm_num) (by rw [hL]; norm_num), hst2]; rfl
  have hT1e : T1 1 = onceScattered (demoNT 1 x) 1 m1 (1 + Real.pi / 2) * (x / (x + m1))
      * emitUp (demoNT 1 x) m1 (tauStar (demoNT 1 x) 1 1) (bdryStar (demoNT 1 x) 2) := by
    show tmsPart refExt (demoNT 1 x) 0 1 1 (1 + Real.pi / 2) = _
    unfold tmsPart
    rw [hst, layerSum_up _ _ (by rw [hN]; norm_num) (by rw [hL]; norm_num)]; rfl
  rw [hT0e, hT1e, hsc 0 (by norm_num), hsc 1 (by norm_num), hw 0 (by norm_num), hw 1 (by norm_num)] at heq
  simp only [if_true, if_neg (show ¬ (1 : ℕ) = 0 by norm_num)] at heq
  have hem : 0 < emitUp (demoNT 1 x) m1 (tauStar (demoNT 1 x) 1 1) (bdryStar (demoNT 1 x) 2) := by
    have hlt : tauStar (demoNT 1 x) 1 1 < bdryStar (demoNT 1 x) 2 := by
      rw [bdryStar_succ]
      unfold tauStar
      have hb : bdry (demoNT 1 x).tauArr.get 1 = 1 := by simp [bdry, demoNT, demo]
      have hb2 : bdry (demoNT 1 x).tauArr.get (1 + 1) = 2 := by simp [bdry, demoNT, demo]; norm_num
      rw [hb, hb2]
      have := Args.scale_pos hwp.accepted (show 1 < (demoNT 1 x).NLayers by change 1 < 2; norm_num)
      linarith
    exact emitUp_pos hx0 hmpos hlt
  have hne : (1 : ℝ) - 12 * m1 * x ≠ 0 := by
    intro h0
    apply hxF
    rw [mem_singleton, eq_div_iff (by positivity)]
    linarith
  have hpi := Real.pi_pos
  have hk : (1 / (4 * Real.pi) * ((1 - 12 * m1 * x) / 7)) * (x / (x + m1))
      * emitUp (demoNT 1 x) m1 (tauStar (demoNT 1 x) 1 1) (bdryStar (demoNT 1 x) 2) ≠ 0 := by
    have : x / (x + m1) ≠ 0 := by positivity
    refine mul_ne_zero (mul_ne_zero (mul_ne_zero (by positivity) (div_ne_zero hne (by norm_num))) this) hem.ne'
  apply hk
  linarith

/-! ## C44 -/

theorem omegaAvg_eq {r : ℝ} {n : NTIn} (H : NTSpec E a r n) : n.omegaAvg
    = (∑ k ∈ range a.tauArr.n, a.omega.get k * a.tauArr.get k) / ∑ k ∈ range a.tauArr.n, a.tauArr.get k := by
  unfold NTIn.omegaAvg NTIn.sum1
  rw [H.NLayers, H.omega, H.tauArr]

/-- **C44 is false.** Cutting a layer into two identical layers changes the average single-scattering albedo of the IMS correction. -/
theorem C44_false (J : Junk) {n : ℕ} (hn : 0 < n) (hn' : n < 10 ^ 7) : ∃ (a : Args) (R R' : Solved) (N N' : NTIn),
    WellPosed refExt a ∧ pydisort refExt J a = .ok R ∧ pydisort refExt J (splitLayer a 0 (1 / 2)) = .ok R' ∧
    nHalf a = n ∧ (0 : ℝ) < 1 / 2 ∧ 1 / 2 < a.tauArr.get 0 ∧ R.nt = some N ∧ R'.nt = some N' ∧ N.omegaAvg ≠ N'.omegaAvg := by
  obtain ⟨x, R, hR, _, hx0, hx1, hwp, hS, hres⟩ := demoNT_call hn hn' ∅ J
  have hb0 : bdry (demoNT n x).tauArr.get 0 < 1 / 2 := by simp [bdry]
  have hb1 : (1 : ℝ) / 2 < bdry (demoNT n x).tauArr.get (0 + 1) := by simp [bdry, demoNT, demo]; norm_num
  have hwp' := split_wellPosed hwp (show 0 < (demoNT n x).tauArr.n by simp [demoNT, demo]) hb0 hb1
  obtain ⟨R', hR'⟩ := pydisort_isOk hwp' J
  have hc := demoNT_corrected hn x
  have hc' : Corrected (splitLayer (demoNT n x) 0 (1 / 2)) := by
    refine ⟨rfl, rfl, one_pos, ⟨0, ?_, ?_⟩, hc.2.2.2.2.1, 0, Nat.succ_pos _, ?_⟩
    · simp [splitLayer, demoNT, demo]
    · simp [splitLayer, demoNT, demo]
    · simp [splitLayer, demoNT, demo, dup]
  obtain ⟨N, hN, H⟩ := ntSpec hR hc
  obtain ⟨N', hN', H'⟩ := ntSpec hR' hc'
  refine ⟨_, R, R', N, N', hwp, hR, hR', demoNT_nHalf x, by norm_num, by simp [demoNT, demo]; norm_num, hN, hN', ?_⟩
  rw [omegaAvg_eq H, omegaAvg_eq H', show (splitLayer (demoNT n x) 0 (1 / 2)).tauArr.n = 3 from rfl,
    show (demoNT n x).tauArr.n = 2 from rfl]
  simp only [sum_range_succ, sum_range_zero, splitLayer, demoNT, demo, dup]
  norm_num

/-- **C44 (partial).** In a homogeneous atmosphere the averages are the common values, however it is divided into layers. Missing: other
atmospheres, in which the averages depend on the division (`C44_false`). -/
theorem C44_homogeneous_partial (h : pydisort E J a = .ok R) (hc : Corrected a) {w f : ℝ}
    (hw : ∀ l < a.tauArr.n, a.omega.get l = w) (hf : ∀ l < a.tauArr.n, peak a l = f) :
    ∃ n, R.nt = some n ∧ n.omegaAvg = w ∧ n.fAvg = f := by
  obtain ⟨n, hn, H⟩ := ntSpec h hc
  have hacc := (pydisort_ok h).1
  refine ⟨n, hn, ?_, ?_⟩
  · have hpos : ∀ k < a.tauArr.n, 0 < a.tauArr.get k := by
      intro k
      induction k with
      | zero => intro _; exact hacc.top
      | succ k ih => intro hk; exact (ih (by omega)).trans (hacc.increasing k hk)
    have hT : 0 < ∑ k ∈ range a.tauArr.n, a.tauArr.get k :=
      sum_pos (fun k hk => hpos k (mem_range.1 hk)) ⟨0, mem_range.2 hacc.layers⟩
    rw [omegaAvg_eq H, sum_congr rfl (fun k hk => by rw [hw k (mem_range.1 hk)]), ← mul_sum]
    field_simp
  · have h1 := sum1_pos H hacc hc
    unfold NTIn.fAvg
    rw [div_eq_iff h1.ne', sum2_eq H]
    unfold weighted NTIn.sum1
    rw [mul_sum, H.NLayers, H.omega, H.tauArr]
    exact sum_congr rfl fun k hk => by rw [hf k (mem_range.1 hk)]; ring

/-! ## C45 -/

/-- **C45 is false**: with two streams and active corrections `u` raises for every number of azimuths but one. -/
theorem C45_two_streams_raise (h : pydisort E J a = .ok R) (hc : Corrected a) (hN : nHalf a = 1) {tau phi : A1 ℝ}
    (ht : InRange a tau) (hne : tau.n ≠ 0) (hp : phi.n ≠ 1) : R.u tau phi false = .error .shapeError := by
  obtain ⟨n, hn, H⟩ := ntSpec h hc
  obtain ⟨hacc, O, r, hO, hr, hI, hsol, hof, hg1, hg2⟩ := pydisort_ok h
  obtain ⟨A, hA, _⟩ := R.I.u_plain R.S phi (checkTau_of_inRange h ht)
  unfold Solved.u Solved.uCorrected Solved.uUncorrected
  rw [hof, hc.2.1, hn]
  simp only [Bool.false_eq_true, if_false]
  rw [hA, n.corr_error (by rw [H.N]; exact hN) false _ hne hp]
  rfl

/-- A concrete failure. -/
theorem C45_false (J : Junk) : ∃ (a : Args) (R : Solved), WellPosed refExt a ∧ pydisort refExt J a = .ok R ∧
    R.u ⟨1, fun _ => 1⟩ ⟨2, fun _ => 0⟩ false = .error .shapeError := by
  obtain ⟨x, R, hR, _, _, _, hwp, _⟩ := demoNT_call one_pos (by norm_num) ∅ J
  refine ⟨_, R, hwp, hR, C45_two_streams_raise hR (demoNT_corrected one_pos x) (demoNT_nHalf x) (fun _ _ => ?_) (by simp) (by simp)⟩
  simp [demoNT, demo]

/-- **C45 (partial).** With one azimuth, or with more than two streams, `u` returns. -/
theorem C45_returns_partial (h : pydisort E J a = .ok R) (hc : Corrected a) {tau phi : A1 ℝ}
    (ht : InRange a tau) (hne : tau.n ≠ 0) (hN : nHalf a ≠ 1 ∨ phi.n = 1) : ∃ A, R.u tau phi false = .ok A ∧
      A.d0 = 2 * nHalf a ∧ A.d1 = tau.n ∧ A.d2 = phi.n := by
  obtain ⟨A, h1, h2, h3, h4, _⟩ := u_returns h hc.2.1 ht (phi := phi) (fun _ => ⟨hne, hN⟩)
  exact ⟨A, h1, h2, h3, h4⟩

/-- The hypotheses can be met: two layers, up to ten million streams per hemisphere. -/
example (J : Junk) {n : ℕ} (hn : 0 < n) (hn' : n < 10 ^ 7) : ∃ a R, pydisort refExt J a = .ok R ∧ Corrected a ∧ nHalf a = n ∧
    GaussContract refExt (nHalf a) ∧ (∃ l < a.tauArr.n, peak a l * a.omega.get l ≠ 0) ∧ (∀ i < nHalf a, node refExt a i ≠ scaledMu0 a)
    ∧ InRange a ⟨2, fun k => (k : ℝ) + 1⟩ := by
  set F : Finset ℝ := (range n).image fun i => node refExt (demoNT n 1) i * (1 - 1 / 12)
  obtain ⟨x, R, hR, hF, hx0, hx1, hwp, _⟩ := demoNT_call hn hn' F J
  refine ⟨_, R, hR, demoNT_corrected hn x, demoNT_nHalf x, hwp.gauss, ⟨0, by simp [demoNT, demo], ?_⟩, fun i hi he => hF ?_, ?_⟩
  · rw [demoNT_peak (by norm_num)]; simp [demoNT, demo]
  · rw [demoNT_nHalf] at hi
    have hav : avgPeak (demoNT n x) = 1 / 12 := by
      unfold avgPeak weighted
      rw [show (demoNT n x).tauArr.n = 2 from rfl]
      simp only [sum_range_succ, sum_range_zero]
      rw [demoNT_peak (by norm_num), demoNT_peak (by norm_num)]
      simp [demoNT, demo]; norm_num
    refine mem_image.2 ⟨i, mem_range.2 hi, ?_⟩
    have he' : node refExt (demoNT n 1) i = x / (1 - 1 / 12) := by
      rw [show node refExt (demoNT n 1) i = node refExt (demoNT n x) i from rfl, he]; unfold scaledMu0; rw [hav]; rfl
    rw [he']; field_simp
  · intro t htt
    change 0 ≤ (t : ℝ) + 1 ∧ (t : ℝ) + 1 ≤ ((1 : ℕ) : ℝ) + 1
    have : t ≤ 1 := by change t < 2 at htt; omega
    have h2 : (t : ℝ) ≤ ((1 : ℕ) : ℝ) := by exact_mod_cast this
    exact ⟨by positivity, by linarith⟩

end Pydisort

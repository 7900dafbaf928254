import Verif.Props.Corrections
import Verif.Props.DeltaM
import Mathlib.Analysis.Complex.ExponentialBounds

/-!
# Properties C67, C68: antiderivative of the corrections, and their divisors
-/

namespace Pydisort
open Finset Spec

variable {E : Ext} {J : Junk} {a : Args} {R : Solved}

/-- Derivative of the contribution of the layer of observation. -/
theorem tmsOwn_anti {n : NTIn} {i l : ℕ} (h0 : n.mu0 ≠ 0) (hm : ∀ i < n.N, n.mu i ≠ 0) (hi : i < 2 * n.N) (hs : n.scale l ≠ 0) (t : ℝ) :
    HasDerivAt (fun t => n.tmsOwn true l (n.st l t) i) (n.tmsOwn false l (n.st l t) i) t := by
  have hd : HasDerivAt (fun t => n.st l t) (n.scale l) t := by
    unfold NTIn.st
    have := (((hasDerivAt_id t).const_sub (n.tauArr l)).mul_const (n.scale l)).const_sub (n.tau0 (l + 1))
    simpa using this
  have e0 : HasDerivAt (fun t => Real.exp (-n.st l t / n.mu0)) (Real.exp (-n.st l t / n.mu0) * (-n.scale l / n.mu0)) t :=
    (hd.fun_neg.div_const n.mu0).exp
  unfold NTIn.tmsOwn
  by_cases hin : i < n.N
  · simp only [if_pos hin, if_true, Bool.false_eq_true, if_false]
    have hmi := hm i hin
    have e1 : HasDerivAt (fun t => Real.exp ((n.st l t - n.tau0 (l + 1)) / n.mu i - n.tau0 (l + 1) / n.mu0))
        (Real.exp ((n.st l t - n.tau0 (l + 1)) / n.mu i - n.tau0 (l + 1) / n.mu0) * (n.scale l / n.mu i)) t :=
      (((hd.sub_const _).div_const _).sub_const _).exp
    refine ((e0.div_const (-n.scale l / n.mu0)).fun_sub (e1.div_const (n.scale l / n.mu i))).congr_deriv ?_
    field_simp
  · simp only [if_neg hin, if_true, Bool.false_eq_true, if_false]
    have hmi := hm (i - n.N) (by omega)
    have e1 : HasDerivAt (fun t => Real.exp ((n.tau0 l - n.st l t) / n.mu (i - n.N) - n.tau0 l / n.mu0))
        (Real.exp ((n.tau0 l - n.st l t) / n.mu (i - n.N) - n.tau0 l / n.mu0) * (-n.scale l / n.mu (i - n.N))) t :=
      (((hd.const_sub _).div_const _).sub_const _).exp
    refine ((e0.div_const (-n.scale l / n.mu0)).fun_add (e1.div_const (n.scale l / n.mu (i - n.N)))).congr_deriv ?_
    field_simp
    ring

/-- Derivative of the whole correction, with the factor by which the contribution of the other layers is off. -/
theorem tmsVal_anti {n : NTIn} {i l : ℕ} (hgeo : n.Geo) (h0 : n.mu0 ≠ 0) (hm : ∀ i < n.N, n.mu i ≠ 0) (hi : i < 2 * n.N)
    (hs : n.scale l ≠ 0) (t nu : ℝ) : HasDerivAt (fun t => n.tmsVal true i l (n.st l t) nu)
      (n.tmsB i l nu * n.tmsOwn false l (n.st l t) i + if n.NLayers > 1 then
        if i < n.N then n.Rpos true i l * (n.scale l / n.mu i) * Real.exp (n.M_inv i * (n.st l t - n.tau0 (l + 1))) * n.tmsB i l nu
        else n.Rneg true (i - n.N) l * (-n.scale l / n.mu (i - n.N)) * Real.exp (n.M_inv (i - n.N) * (n.tau0 l - n.st l t))
          * n.tmsB i l nu
      else 0) t := by
  have hd : HasDerivAt (fun t => n.st l t) (n.scale l) t := by
    unfold NTIn.st
    have := (((hasDerivAt_id t).const_sub (n.tauArr l)).mul_const (n.scale l)).const_sub (n.tau0 (l + 1))
    simpa using this
  unfold NTIn.tmsVal
  refine ((tmsOwn_anti h0 hm hi hs t).const_mul _).fun_add ?_
  split_ifs with h1 h2
  · have e1 : HasDerivAt (fun t => Real.exp (n.M_inv i * (n.st l t - n.tau0 (l + 1))))
        (Real.exp (n.M_inv i * (n.st l t - n.tau0 (l + 1))) * (n.M_inv i * n.scale l)) t := ((hd.sub_const _).const_mul _).exp
    refine ((e1.const_mul _).mul_const _).congr_deriv ?_
    rw [hgeo.minv]; ring
  · have e1 : HasDerivAt (fun t => Real.exp (n.M_inv (i - n.N) * (n.tau0 l - n.st l t)))
        (Real.exp (n.M_inv (i - n.N) * (n.tau0 l - n.st l t)) * (n.M_inv (i - n.N) * -n.scale l)) t := ((hd.const_sub _).const_mul _).exp
    refine ((e1.const_mul _).mul_const _).congr_deriv ?_
    rw [hgeo.minv]; ring
  · exact hasDerivAt_const _ _

/-- Derivative of the correction (TMS and IMS) if the scale factor is the same in all layers. -/
theorem corrVal_hasDeriv (h : pydisort E J a = .ok R) (hc : Corrected a) (hg : GaussContract E (nHalf a)) (hs : ∀ i < nHalf a, node E a i ≠ scaledMu0 a)
    (hsc : ∀ l < a.tauArr.n, ∀ l' < a.tauArr.n, scale a l = scale a l') {n : NTIn} {r₀ : ℝ} (H : NTSpec E a r₀ n) {i : ℕ} (hi : i < 2 * nHalf a) {l : ℕ}
    (hl : l < a.tauArr.n) (t ph : ℝ) : HasDerivAt (fun t => n.corrVal true i l t ph) (n.corrVal false i l t ph) t := by
  have hacc := (pydisort_ok h).1
  have h0 : n.mu0 ≠ 0 := by rw [H.mu0]; exact (mu0_pos_of h hc).ne'
  have hm : ∀ i < n.N, n.mu i ≠ 0 := fun i hi => by rw [H.mu]; rw [H.N] at hi; exact (node_pos hg hi).1.ne'
  have hslne : n.scale l ≠ 0 := by rw [H.scale l hl]; exact (Args.scale_pos hacc hl).ne'
  have hi' : i < 2 * n.N := by rw [H.N]; exact hi
  have hl' : l < n.NLayers := by rw [H.NLayers]; exact hl
  unfold NTIn.corrVal
  refine HasDerivAt.fun_add ?_ ?_
  · refine (tmsVal_anti H.geo h0 hm hi' hslne t _).congr_deriv ?_
    unfold NTIn.tmsVal
    congr 1
    have hf : ∀ k, ∀ r < a.tauArr.n, n.intFactor k r = n.mu k / n.scale l := fun k r hr => by
      unfold NTIn.intFactor; rw [H.scale r hr, H.scale l hl, hsc r hr l hl]
    split_ifs with h1 h2
    · have : n.Rpos true i l = n.mu i / n.scale l * n.Rpos false i l := by
        rw [NTIn.Rpos_anti H.geo i hl', NTIn.Rpos_eq H.geo i hl', mul_sum]
        refine sum_congr rfl fun r hr => ?_
        rw [mem_Ico, H.NLayers] at hr
        rw [hf i r hr.2]
      rw [this]
      have := hm i h2
      field_simp
    · have : n.Rneg true (i - n.N) l = -(n.mu (i - n.N) / n.scale l) * n.Rneg false (i - n.N) l := by
        rw [NTIn.Rneg_anti H.geo _ hl', NTIn.Rneg_eq H.geo _ hl', mul_sum]
        refine sum_congr rfl fun r hr => ?_
        rw [mem_range] at hr
        rw [hf _ r (by omega)]
      rw [this]
      have := hm (i - n.N) (by omega)
      field_simp
    · rfl
  · split_ifs with h1
    · exact hasDerivAt_const _ _
    · have hi2 : i - n.N < nHalf a := by rw [H.N]; omega
      have hpos : 0 < scaledMu0 a := div_pos (mu0_pos_of h hc) (by linarith [avgPeak_lt_one hacc])
      rw [scaledMu0_eq H hacc hc, H.mu]
      exact (C43_chi_antiderivative (node_pos hg hi2).1 hpos (hs _ hi2) t).const_mul _

/-- **C67 (partial).** If the scale factor `1 - ω f` is the same in all layers (in particular in a single layer), the antiderivative of
the corrections has the corrections as its derivative in every layer. Missing: atmospheres in which the scale factor varies, for which
it does not (`C67_false`). -/
theorem C67_antiderivative_partial (h : pydisort E J a = .ok R) (hc : Corrected a) (hg : GaussContract E (nHalf a))
    (_hp : ∃ l < a.tauArr.n, peak a l * a.omega.get l ≠ 0) (hs : ∀ i < nHalf a, node E a i ≠ scaledMu0 a)
    (hsc : ∀ l < a.tauArr.n, ∀ l' < a.tauArr.n, scale a l = scale a l') :
    ∃ (n : NTIn) (V W : ℕ → ℕ → ℝ → ℝ → ℝ), R.nt = some n ∧
      (∀ tau phi : A1 ℝ, tau.n ≠ 0 → (nHalf a ≠ 1 ∨ phi.n = 1) → ∀ lay : ℕ → ℕ, (∀ t < tau.n, lay t < a.tauArr.n) →
        Returns3 (n.corr tau phi true lay) (2 * nHalf a) tau.n phi.n (fun i t p => V i (lay t) (tau.get t) (phi.get p)) ∧
        Returns3 (n.corr tau phi false lay) (2 * nHalf a) tau.n phi.n (fun i t p => W i (lay t) (tau.get t) (phi.get p))) ∧
      ∀ i < 2 * nHalf a, ∀ l < a.tauArr.n, ∀ t ph, HasDerivAt (fun t => V i l t ph) (W i l t ph) t := by
  obtain ⟨n, hn, H⟩ := ntSpec h hc
  have hacc := (pydisort_ok h).1
  have hN : 0 < n.N := by
    rw [H.N]
    have := hacc.streams.1
    unfold nHalf; omega
  refine ⟨n, fun i l t ph => n.corrVal true i l t ph, fun i l t ph => n.corrVal false i l t ph, hn, fun tau phi hne hN1 lay hlay => ?_, ?_⟩
  · rw [← H.N] at hN1 ⊢
    exact ⟨n.corr_returns hN true lay hne hN1, n.corr_returns hN false lay hne hN1⟩
  exact fun i hi l hl t ph => corrVal_hasDeriv h hc hg hs hsc H hi hl t ph

/-- **C67 is false**: in the two-layer atmosphere the antiderivative of the TMS correction does not have the correction as its derivative
anywhere in the upper layer. -/
theorem C67_false (J : Junk) : ∃ (a : Args) (R : Solved) (n : NTIn), pydisort refExt J a = .ok R ∧ WellPosed refExt a ∧ R.nt = some n ∧
    ∃ i < nHalf a, ∃ ph, ∃ V W : ℝ → ℝ,
      (∀ t ∈ Set.Icc 0 (a.tauArr.get 0), ∃ A B, n.tms ⟨1, fun _ => t⟩ ⟨1, fun _ => ph⟩ true (fun _ => 0) = .ok A ∧
        n.tms ⟨1, fun _ => t⟩ ⟨1, fun _ => ph⟩ false (fun _ => 0) = .ok B ∧ A.get i 0 0 = V t ∧ B.get i 0 0 = W t) ∧
      ∀ t ∈ Set.Icc 0 (a.tauArr.get 0), ¬ HasDerivAt V (W t) t := by
  set m1 := node refExt (demoNT 1 1) 0 with hm1
  obtain ⟨x, R, hR, hxF, hx0, hx1, hwp, hS, hres⟩ := demoNT_call one_pos (by norm_num) {1 / (12 * m1)} J
  have hN : nHalf (demoNT 1 x) = 1 := demoNT_nHalf x
  have hmu : node refExt (demoNT 1 x) 0 = m1 := rfl
  have hmpos : 0 < m1 := by rw [← hmu]; exact (node_pos hwp.gauss (by rw [hN]; exact one_pos)).1
  have hc := demoNT_corrected (n := 1) one_pos x
  obtain ⟨n, hn, H⟩ := ntSpec hR hc
  have hL : (demoNT 1 x).tauArr.n = 2 := rfl
  have hnN : n.N = 1 := by rw [H.N, hN]
  have hnL : n.NLayers = 2 := H.NLayers
  set ph := 1 + Real.pi / 2
  set nu := nuVal (n.muArr 0) ph (-n.mu0) n.phi0
  refine ⟨_, R, n, hR, hwp, hn, 0, by rw [hN]; exact one_pos, ph, fun t => n.tmsVal true 0 0 (n.st 0 t) nu,
    fun t => n.tmsVal false 0 0 (n.st 0 t) nu, fun t _ => ?_, fun t _ hd => ?_⟩
  · obtain ⟨A, h1, _, _, _, h5⟩ := n.tms_returns (by omega) (tau := ⟨1, fun _ => t⟩) ⟨1, fun _ => ph⟩ true (fun _ => 0) one_ne_zero
    obtain ⟨B, g1, _, _, _, g5⟩ := n.tms_returns (by omega) (tau := ⟨1, fun _ => t⟩) ⟨1, fun _ => ph⟩ false (fun _ => 0) one_ne_zero
    exact ⟨A, B, h1, g1, h5 0 (by omega) 0 one_pos 0 one_pos, g5 0 (by omega) 0 one_pos 0 one_pos⟩
  have h0 : n.mu0 ≠ 0 := by rw [H.mu0]; exact hx0.ne'
  have hm : ∀ i < n.N, n.mu i ≠ 0 := fun i hi => by
    rw [hnN] at hi; obtain rfl : i = 0 := by omega
    rw [H.mu]; exact hmpos.ne'
  have hs0 : n.scale 0 = 15 / 16 := by
    rw [H.scale 0 (by rw [hL]; norm_num)]; unfold scale; rw [demoNT_peak (by norm_num)]; simp [demoNT, demo]; norm_num
  have hs1 : n.scale 1 = 29 / 32 := by
    rw [H.scale 1 (by rw [hL]; norm_num)]; unfold scale; rw [demoNT_peak (by norm_num)]; simp [demoNT, demo]; norm_num
  have key := hd.unique (tmsVal_anti H.geo h0 hm (by omega) (by rw [hs0]; norm_num) t nu)
  unfold NTIn.tmsVal at key
  beta_reduce at key
  rw [if_pos (by omega), if_pos (by omega), if_pos (by omega), if_pos (by omega)] at key
  have hR1 : n.Rpos true 0 0 = n.mu 0 / n.scale 1 * n.Rpos false 0 0 := by
    rw [NTIn.Rpos_anti H.geo 0 (by omega), NTIn.Rpos_eq H.geo 0 (by omega), hnL]
    simp only [zero_add, Nat.Ico_succ_singleton, sum_singleton]
    rfl
  have hRpos : 0 < n.Rpos false 0 0 := by
    rw [NTIn.Rpos_eq H.geo 0 (by omega), hnL]
    simp only [zero_add, Nat.Ico_succ_singleton, sum_singleton]
    refine mul_pos (Real.exp_pos _) ?_
    have := emitUp_pos (a := demoNT 1 x) (m1 := m1) (s := n.tau0 1) (b := n.tau0 (1 + 1)) hx0 hmpos (by
      rw [H.geo.step 1 (by omega)]
      have e := H.geo.step 1 (by omega)
      rw [H.tau0 (1 + 1) le_rfl, H.tau0 1 (by rw [hL]; norm_num), bdryStar_succ] at e
      have hb : bdry (demoNT 1 x).tauArr.get 1 = 1 := by simp [bdry, demoNT, demo]
      have hb2 : bdry (demoNT 1 x).tauArr.get (1 + 1) = 2 := by simp [bdry, demoNT, demo]; norm_num
      rw [hb, hb2, ← H.scale 1 (by rw [hL]; norm_num), hs1] at e
      linarith)
    rw [H.mu0, H.mu]
    exact this
  have hB : n.tmsB 0 0 nu ≠ 0 := by
    intro hz
    have := H.tmsB_eq (l := 0) (by rw [hL]; norm_num) 0 ph
    rw [show n.tmsB 0 0 (nuVal (n.muArr 0) ph (-n.mu0) n.phi0) = 0 from hz, mul_zero, stream_up (by rw [hN]; exact one_pos), hmu,
      demoNT_onceScattered x m1 (by norm_num), demoNT_omegaStar x (by norm_num)] at this
    have hne : (1 : ℝ) - 12 * m1 * x ≠ 0 := by
      intro h0
      apply hxF
      rw [mem_singleton, eq_div_iff (by positivity)]
      linarith
    have hpi := Real.pi_pos
    refine absurd this.symm (mul_ne_zero (mul_ne_zero (by norm_num) (mul_ne_zero (by positivity) (div_ne_zero hne (by norm_num)))) ?_)
    change x / (x + m1) ≠ 0
    positivity
  rw [hR1, hs0, hs1] at key
  have hex := Real.exp_pos (n.M_inv 0 * (n.st 0 t - n.tau0 (0 + 1)))
  set e := Real.exp (n.M_inv 0 * (n.st 0 t - n.tau0 (0 + 1)))
  have hm0 := hm 0 (by omega)
  have : n.Rpos false 0 0 * e * n.tmsB 0 0 nu = 0 := by
    have h3 : n.mu 0 / (29 / 32) * n.Rpos false 0 0 * (15 / 16 / n.mu 0) = 30 / 29 * n.Rpos false 0 0 := by field_simp; norm_num
    rw [h3] at key
    linarith
  exact mul_ne_zero (mul_ne_zero hRpos.ne' hex.ne') hB this

/-! ## C68: divisors -/

/-- `demoNT` with layers of thickness `T`. -/
noncomputable def thickNT (n : ℕ) (x T : ℝ) : Args := { demoNT n x with tauArr := ⟨2, fun k => T * ((k : ℝ) + 1)⟩ }

theorem thickNT_wellPosed {n : ℕ} {x T : ℝ} (hn : 0 < n) (h0 : 0 < x) (h1 : x ≤ 1) (hT : 0 < T) (h : WellPosed refExt (demoNT n x)) :
    WellPosed refExt (thickNT n x T) where
  accepted :=
    { demoNT_accepted hn h0 h1 with
      layers := by simp [thickNT]
      top := by simpa [thickNT] using hT
      increasing := by
        intro k hk
        simp only [thickNT]
        push_cast
        nlinarith }
  gauss := h.gauss
  eig := h.eig
  peak := h.peak
  dissipates := h.dissipates
  beam := h.beam
  surface := h.surface
  bottomBC := h.bottomBC
  topBC := h.topBC
  sourceShape := h.sourceShape
  degree := h.degree
  angles := h.angles

/-- **C68, the part that is true.** The divisors are the transmissions `exp(-tau*/mu)` from the top to the layer boundaries; they lie in
`(0, 1]` and stay above `2 ^ (-1074)`, the smallest positive double, if the optical depth of the atmosphere is at most 744 times the cosine
of the stream. Missing: thicker atmospheres, see `C68_false`. -/
theorem C68_divisors_partial (h : pydisort E J a = .ok R) (hc : Corrected a) (hg : GaussContract E (nHalf a)) :
    ∃ n, R.nt = some n ∧ ∀ i < nHalf a, ∀ k ≤ a.tauArr.n,
      n.decayProd i k = Real.exp (-bdryStar a k / node E a i) ∧ 0 < n.decayProd i k ∧ n.decayProd i k ≤ 1 ∧
      (a.tauArr.get (a.tauArr.n - 1) ≤ 744 * node E a i → 2⁻¹ ^ 1074 < n.decayProd i k) := by
  obtain ⟨n, hn, H⟩ := ntSpec h hc
  have hacc := (pydisort_ok h).1
  refine ⟨n, hn, fun i hi k hk => ?_⟩
  have e := NTIn.decayProd_eq H.geo i (k := k) (by rw [H.NLayers]; exact hk)
  rw [H.tau0 k hk, H.mu] at e
  have hm := (node_pos hg hi).1
  refine ⟨e, by rw [e]; exact Real.exp_pos _, ?_, fun hT => ?_⟩
  · rw [e, Real.exp_le_one_iff, neg_div, neg_nonpos]
    exact div_nonneg (bdryStar_nonneg hacc hk) hm.le
  · have h1 := (bdryStar_step hacc (Nat.zero_le k) hk).2
    have h2 := (bdryStar_step hacc hk le_rfl)
    have h3 := (bdryStar_step hacc (Nat.zero_le a.tauArr.n) le_rfl).2
    have hz : bdryStar a 0 = 0 := by simp [bdryStar]
    have hb0 : bdry a.tauArr.get 0 = 0 := by simp [bdry]
    have hbn : bdry a.tauArr.get a.tauArr.n = a.tauArr.get (a.tauArr.n - 1) := by
      have := hacc.layers
      unfold bdry; rw [if_neg (by omega)]
    have h4 : bdryStar a k ≤ 744 * node E a i := by rw [hz, hb0, hbn] at h3; linarith [h2.1]
    have h5 : bdryStar a k / node E a i ≤ 744 := (div_le_iff₀ hm).2 h4
    rw [e, ← Real.exp_log (show (0 : ℝ) < 2⁻¹ ^ 1074 by positivity), Real.exp_lt_exp, Real.log_pow, Real.log_inv, neg_div]
    have := Real.log_two_gt_d9
    push_cast
    linarith

/-- The hypotheses of the partial theorem are met, also by atmospheres thin enough for every stream. -/
example (J : Junk) {n : ℕ} (hn : 0 < n) (hn' : n < 10 ^ 7) : ∃ a R, pydisort refExt J a = .ok R ∧ Corrected a ∧ nHalf a = n ∧
    GaussContract refExt (nHalf a) ∧ 1 < a.tauArr.n ∧ ∀ i < nHalf a, a.tauArr.get (a.tauArr.n - 1) ≤ 744 * node refExt a i := by
  obtain ⟨x, R, hR, _, hx0, hx1, hwp, _⟩ := demoNT_call hn hn' ∅ J
  have hN : nHalf (demoNT n x) = n := demoNT_nHalf x
  obtain ⟨T, hT0, hT⟩ : ∃ T : ℝ, 0 < T ∧ ∀ i < n, T * 2 ≤ 744 * node refExt (demoNT n x) i := by
    refine ⟨(range n).inf' ⟨0, mem_range.2 hn⟩ (node refExt (demoNT n x)), (lt_inf'_iff _).2 fun i hi =>
      (node_pos hwp.gauss (by rw [hN]; exact mem_range.1 hi)).1, fun i hi => ?_⟩
    have h1 := inf'_le (node refExt (demoNT n x)) (mem_range.2 hi)
    have h2 := (node_pos hwp.gauss (i := i) (by rw [hN]; exact hi)).1
    linarith
  have hwp' := thickNT_wellPosed hn hx0 hx1 hT0 hwp
  obtain ⟨R', hR'⟩ := pydisort_isOk hwp' J
  refine ⟨_, R', hR', demoNT_corrected (n := n) hn x, hN, hwp'.gauss, by simp [thickNT], fun i hi => ?_⟩
  have := hT i (by rwa [← hN])
  have e : (thickNT n x T).tauArr.get ((thickNT n x T).tauArr.n - 1) = T * 2 := by norm_num [thickNT]
  rw [e]
  exact this

/-- **C68 is false**: however small a positive number is, there is a well-posed problem in which the scans of the TMS correction divide
by a smaller one, for instance by one that is zero in double precision (`2 ^ (-1075)`), although the quotient is a moderate number. -/
theorem C68_false (J : Junk) {eps : ℝ} (he : 0 < eps) : ∃ (a : Args) (R : Solved) (n : NTIn), pydisort refExt J a = .ok R ∧
    WellPosed refExt a ∧ R.nt = some n ∧ ∃ i < nHalf a,
      -- the quotient `cumsum_pos / decay_prod` for the layer at the top
      n.Rpos false i 0 = n.cumsumPos false i 1 / n.decayProd i 1 ∧ n.decayProd i 1 < eps ∧ 0 ≤ n.Rpos false i 0 ∧ n.Rpos false i 0 ≤ 1 := by
  obtain ⟨x, R, hR, _, hx0, hx1, hwp, _⟩ := demoNT_call one_pos (by norm_num) ∅ J
  have hN : nHalf (demoNT 1 x) = 1 := demoNT_nHalf x
  have hg := hwp.gauss
  set m1 := node refExt (demoNT 1 x) 0 with hm1
  have hmpos : 0 < m1 := (node_pos hg (by rw [hN]; exact one_pos)).1
  obtain ⟨T, hT0, hT⟩ : ∃ T : ℝ, 0 < T ∧ Real.exp (-(15 / 16 * T) / m1) < eps := by
    refine ⟨m1 * (|Real.log eps| + 1) * (16 / 15), by positivity, ?_⟩
    rw [← Real.lt_log_iff_exp_lt he, show -(15 / 16 * (m1 * (|Real.log eps| + 1) * (16 / 15))) / m1 = -(|Real.log eps| + 1) by field_simp]
    linarith [neg_abs_le (Real.log eps)]
  have hwp' := thickNT_wellPosed one_pos hx0 hx1 hT0 hwp
  obtain ⟨R', hR'⟩ := pydisort_isOk hwp' J
  have hc : Corrected (thickNT 1 x T) := demoNT_corrected (n := 1) one_pos x
  obtain ⟨n, hn, H⟩ := ntSpec hR' hc
  have hL : (thickNT 1 x T).tauArr.n = 2 := rfl
  have hnL : n.NLayers = 2 := H.NLayers
  have hmu : n.mu 0 = m1 := by rw [H.mu]; rfl
  have hpk : ∀ l < 2, peak (thickNT 1 x T) l = 1 / 8 := fun l hl => demoNT_peak (n := 1) (x := x) hl
  have htau : n.tau0 1 = 15 / 16 * T := by
    rw [H.tau0 1 (by rw [hL]; norm_num)]
    unfold bdryStar
    rw [sum_range_one]
    unfold scale
    rw [hpk 0 (by norm_num)]
    have e1 : (thickNT 1 x T).omega.get 0 = 1 / 2 := rfl
    have e2 : bdry (thickNT 1 x T).tauArr.get (0 + 1) = T := by simp [bdry, thickNT]
    rw [e1, e2]; unfold bdry; rw [if_pos rfl]; ring
  refine ⟨_, R', n, hR', hwp', hn, 0, by change 0 < nHalf (demoNT 1 x); rw [hN]; exact one_pos, ?_, ?_, ?_⟩
  · unfold NTIn.Rpos; rw [if_pos (by omega)]
  · rw [NTIn.decayProd_eq H.geo 0 (by omega), htau, hmu]; exact hT
  · have hlt : n.tau0 1 < n.tau0 (1 + 1) := by
      rw [H.tau0 (1 + 1) le_rfl, H.tau0 1 (by rw [hL]; norm_num), bdryStar_succ _ 1]
      have := Args.scale_pos hwp'.accepted (show 1 < (thickNT 1 x T).NLayers by change 1 < 2; norm_num)
      have hb : bdry (thickNT 1 x T).tauArr.get (1 + 1) - bdry (thickNT 1 x T).tauArr.get 1 = T := by
        simp [bdry, thickNT]; ring
      rw [hb]
      nlinarith
    have hpos := emitUp_pos (a := thickNT 1 x T) (m1 := m1) hx0 hmpos hlt
    rw [NTIn.Rpos_eq H.geo 0 (by omega), hnL]
    simp only [zero_add, Nat.Ico_succ_singleton, sum_singleton]
    rw [sub_self, neg_zero, zero_div, Real.exp_zero, one_mul, H.mu0, hmu]
    refine ⟨hpos.le, ?_⟩
    have h1 : Real.exp (-n.tau0 1 / (thickNT 1 x T).mu0) ≤ 1 := by
      rw [Real.exp_le_one_iff, neg_div, neg_nonpos, htau]
      exact div_nonneg (by positivity) hx0.le
    have h2 := mul_pos (Real.exp_pos (-(n.tau0 (1 + 1) - n.tau0 1) / m1)) (Real.exp_pos (-n.tau0 (1 + 1) / (thickNT 1 x T).mu0))
    linarith

/-- The hypotheses of C67 can be met: `demoNT` with equal layers. -/
theorem exists_equalScale (J : Junk) {n : ℕ} (hn : 0 < n) (hn' : n < 10 ^ 7) : ∃ a R, pydisort refExt J a = .ok R ∧ WellPosed refExt a ∧
    Rescalable a ∧ Corrected a ∧ NoSource a ∧ nHalf a = n ∧ 1 < a.tauArr.n ∧ (∃ l < a.tauArr.n, peak a l * a.omega.get l ≠ 0) ∧ (∀ i < nHalf a, node refExt a i ≠ scaledMu0 a)
    ∧ ∀ l < a.tauArr.n, ∀ l' < a.tauArr.n, scale a l = scale a l' := by
  set v := node refExt (demo n 1) with hv
  set b : Args := { demoNT n 1 with omega := ⟨2, fun _ => 1 / 2⟩, s := ⟨2, 0, fun _ _ => 0⟩ } with hb
  set F : Finset ℝ := (range n).image fun i => node refExt (demoNT n 1) i * (1 - 1 / 16)
  have hinf := (away_infinite hn' v).diff F.finite_toSet
  obtain ⟨x, hx, hreg⟩ := exists_beamRegular_in b v (weight refExt (demo n 1)) (fun y hy => hy.1.1) hinf
  have h0 : 0 < x := hx.1.1.1
  have h1 : x ≤ 1 := hx.1.1.2
  set c : Args := { b with mu0 := x } with hcdef
  have hacc : Accepted c := { demoNT_accepted hn h0 h1 with
    omega := by intro k _; simp [hcdef, hb]; norm_num
    sourceRows := Or.inr rfl }
  have hhalf : nHalf c = n := demoNT_nHalf x
  have hg : GaussContract refExt (nHalf c) := by rw [hhalf]; exact refExt_gauss hn
  have hpk : ∀ l < 2, peak c l = 1 / 8 := fun l hl => demoNT_peak (n := n) (x := x) hl
  have hwp : WellPosed refExt c := by
    refine ⟨hacc, hg, refExt_eig, ?_, ?_, hreg, ?_, trivial, trivial, Or.inr rfl, Or.inr (Nat.le_of_ble_eq_true rfl), fun _ i hi => ?_⟩
    · intro l hl; rw [hpk l hl]; norm_num
    · refine dissipates_of_nLeg_le hg ?_ hacc.omega ?_ ?_
      · rw [hhalf]; simp [nLeg, hcdef, hb, demoNT, demo]
      · intro l hl; rw [hpk l hl]; norm_num
      · intro l _ k _
        unfold leg
        split_ifs with h
        · exact le_rfl
        · exact pow_le_one₀ (by norm_num) (by norm_num)
    · exact passive_lambertian hg (by rw [hhalf]; exact hn) (by norm_num) rfl
    · rw [hhalf] at hi
      exact hx.1.2 i hi
  obtain ⟨R, hR⟩ := pydisort_isOk hwp J
  have hs : ∀ l < 2, scale c l = 15 / 16 := by
    intro l hl; unfold scale; rw [hpk l hl]; simp [hcdef, hb]; norm_num
  refine ⟨c, R, hR, hwp, Or.inl (Or.inl one_pos), ⟨rfl, rfl, one_pos, ⟨0, by simp [hcdef, hb, demoNT, demo], by simp [hcdef, hb, demoNT, demo]⟩,
    (demoNT_corrected hn x).2.2.2.2.1, ⟨0, by simp [hcdef, hb], by simp [hcdef, hb]⟩⟩,
    fun _ _ j hj => absurd hj (by simp [hcdef, hb]), hhalf, by simp [hcdef, hb, demoNT, demo],
    ⟨0, by simp [hcdef, hb, demoNT, demo], ?_⟩, fun i hi he => hx.2 ?_, fun l hl l' hl' => by rw [hs l hl, hs l' hl']⟩
  · rw [hpk 0 (by norm_num)]; simp [hcdef, hb]
  · rw [hhalf] at hi
    have hav : avgPeak c = 1 / 16 := by
      unfold avgPeak weighted
      rw [show c.tauArr.n = 2 from rfl]
      simp only [sum_range_succ, sum_range_zero]
      rw [hpk 0 (by norm_num), hpk 1 (by norm_num)]
      simp [hcdef, hb, demoNT, demo]; norm_num
    refine mem_image.2 ⟨i, mem_range.2 hi, ?_⟩
    have he' : node refExt (demoNT n 1) i = x / (1 - 1 / 16) := by
      rw [show node refExt (demoNT n 1) i = node refExt c i from rfl, he]; unfold scaledMu0; rw [hav]
    rw [he']; field_simp

end Pydisort

import Verif.Spec.Anti
import Verif.FluxLemmas
import Mathlib.MeasureTheory.Integral.IntervalIntegral.FundThmCalculus

/-! Helper lemmas: what the returned functions evaluate to with `is_antiderivative_wrt_tau = True`. -/

namespace Pydisort
open Finset
open Spec (bdry)

/-- Antiderivative of the polynomial particular solution in scaled depth. -/
noncomputable def antiV (n Nc : ℕ) (s : Vec) (G : Mat) (K g : Vec) (tau : ℝ) (q : ℕ) : ℝ :=
  if Nc = 1 then
    (∑ k ∈ range n, G q k * (s 0 * (1 / K k) * g k)) * tau
  else if Nc = 2 then
    (∑ k ∈ range n, G q k * (s 1 * (1 / K k) * g k)) * (tau * tau / 2)
      + (∑ k ∈ range n, G q k * ((s 0 * (1 / K k) + s 1 * ((1 / K k) * (1 / K k))) * g k)) * tau
  else
    ∑ i ∈ range Nc, (∑ k ∈ range n, G q k * (bSigma Nc s K k i * g k)) * (tau ^ ((Nc - 1 - i) + 1) / (((Nc - 1 - i) + 1 : ℕ) : ℝ))

theorem hasDerivAt_antiV (n Nc : ℕ) (s : Vec) (G : Mat) (K g : Vec) (tau : ℝ) (q : ℕ) :
    HasDerivAt (fun t => antiV n Nc s G K g t q) (mathscrV n Nc s G K g tau q) tau := by
  unfold antiV mathscrV
  split_ifs
  · exact (hasDerivAt_id tau).const_mul _
  · refine HasDerivAt.add (HasDerivAt.const_mul _ ?_) ((hasDerivAt_id tau).const_mul _)
    refine (((hasDerivAt_id tau).mul (hasDerivAt_id tau)).div_const 2).congr_deriv ?_
    simp
  · refine HasDerivAt.fun_sum fun i _ => HasDerivAt.const_mul _ ?_
    refine ((hasDerivAt_pow ((Nc - 1 - i) + 1) tau).div_const _).congr_deriv ?_
    rw [Nat.add_sub_cancel]
    field_simp

theorem antiV_shift (n Nc : ℕ) (s : Vec) (G : Mat) (K g : Vec) (tau : ℝ) (r0 q : ℕ) :
    antiV n Nc s (fun q => G (r0 + q)) K g tau q = antiV n Nc s G K g tau (r0 + q) := rfl

theorem continuous_mathscrV (n Nc : ℕ) (s : Vec) (G : Mat) (K g : Vec) (q : ℕ) :
    Continuous (fun t => mathscrV n Nc s G K g t q) := by
  unfold mathscrV
  split_ifs <;> fun_prop

/-- With a single layer the shapes work out. -/
theorem mathscrVAnti_one {n Nc rows : ℕ} (tau scale_tau : A1 ℝ) (l : A1 ℕ) (s : Mat) (G : ℕ → Mat) (K g : ℕ → Vec)
    (h1 : scale_tau.n = 1) (hl : l.n = tau.n) (h0 : ∀ t < tau.n, l.get t = 0) :
    Spec.Returns2 (mathscrVAnti n Nc rows tau scale_tau l s G K g) rows tau.n (fun q t =>
      antiV n Nc (s 0) (G 0) (K 0) (g 0) (tau.get t) q / scale_tau.get 0) := by
  obtain ⟨sn, sg⟩ := scale_tau
  obtain ⟨ln, lg⟩ := l
  change sn = 1 at h1
  change ln = tau.n at hl
  subst h1 hl
  have h0' : ∀ t < tau.n, lg t = 0 := h0
  unfold mathscrVAnti antiV
  by_cases hN1 : Nc = 1
  · simp only [if_pos hN1, A1.bin, bdim_one_right, bind, Except.bind, pure, Except.pure, A2.bin, A1.row]
    rw [bdim_self]
    simp only
    refine ⟨_, rfl, rfl, rfl, fun i hi t ht => ?_⟩
    simp only [bix_of_lt hi, bix_of_lt ht, bix_one, h0' t ht]
    ring
  · simp only [if_neg hN1]
    by_cases hN2 : Nc = 2
    · simp only [if_pos hN2, A2.bin, A1.row, bind, Except.bind, pure, Except.pure]
      rw [bdim_one_right, bdim_one_right]
      simp only
      refine ⟨_, rfl, rfl, rfl, fun i hi t ht => ?_⟩
      simp only [bix_of_lt hi, bix_of_lt ht, bix_one, h0' t ht]
    · simp only [if_neg hN2, A1.bin, bdim_one_right, bind, Except.bind, pure, Except.pure, bdim_self]
      refine ⟨_, rfl, rfl, rfl, fun i hi t ht => ?_⟩
      simp only [h0' t ht]
      rw [sum_div]
      refine sum_congr rfl fun p hp => ?_
      rw [bix_of_lt (mem_range.1 hp), bix_of_lt (mem_range.1 hp)]
      simp only [bix_one]
      rw [mul_div_assoc, div_div]

namespace AsmIn
variable (I : AsmIn) (S : Sols)

/-- Scaled depth by the formula of layer `l`. -/
noncomputable def sT (l : ℕ) (t : ℝ) : ℝ := I.tau0 l + I.scale l * (t - bdry I.tauArr l)

noncomputable def exL (m l : ℕ) (t : ℝ) (j : ℕ) : ℝ :=
  if j < I.N then S.K m l j * (I.sT l t - I.tau0 l) else S.K m l j * (I.sT l t - I.tau0 (l + 1))

/-- The solution of mode `m` by the formula of layer `l`. -/
noncomputable def fL (m l : ℕ) (t : ℝ) (i : ℕ) : ℝ :=
  (∑ j ∈ range (2 * I.N), S.GC m l i j * Real.exp (I.exL S m l t j))
    + (if I.beam = true then S.B m l i * Real.exp (-I.sT l t / I.mu0) else 0)
    + (if m = 0 ∧ I.iso = true then
      mathscrV (2 * I.N) I.Nscoeffs (I.s l) (S.G 0 l) (S.K 0 l) (S.Gim l) (I.sT l t) i else 0)

/-- Its antiderivative. -/
noncomputable def qL (m l : ℕ) (t : ℝ) (i : ℕ) : ℝ :=
  (∑ j ∈ range (2 * I.N), S.GC m l i j * (Real.exp (I.exL S m l t j) / (I.scale l * S.K m l j)))
    + (if I.beam = true then S.B m l i / (-I.scale l / I.mu0) * Real.exp (-I.sT l t / I.mu0) else 0)
    + (if m = 0 ∧ I.iso = true then
      antiV (2 * I.N) I.Nscoeffs (I.s l) (S.G 0 l) (S.K 0 l) (S.Gim l) (I.sT l t) i / I.scale l else 0)

variable {I S}

theorem val_fL (hd : I.DepthOK) (m : ℕ) (t : ℝ) (i : ℕ) : I.val S m t i = I.fL S m (I.layer t) t i := by
  have : I.scaledTau t = I.sT (I.layer t) t := scaledTau_eq hd t
  unfold val umPlain exponent fL exL
  rw [this]

/-- What the antiderivative functions evaluate. -/
noncomputable def valAnti (I : AsmIn) (S : Sols) (m : ℕ) (t : ℝ) (i : ℕ) : ℝ :=
  I.umAnti S m i t + (if m = 0 ∧ I.iso = true then
      antiV (2 * I.N) I.Nscoeffs (I.s (I.layer t)) (S.G 0 (I.layer t)) (S.K 0 (I.layer t))
        (S.Gim (I.layer t)) (I.scaledTau t) i / I.scale (I.layer t) else 0)

theorem valAnti_qL (hd : I.DepthOK) (m : ℕ) (t : ℝ) (i : ℕ) : I.valAnti S m t i = I.qL S m (I.layer t) t i := by
  have : I.scaledTau t = I.sT (I.layer t) t := scaledTau_eq hd t
  unfold valAnti umAnti exponent qL exL
  rw [this]

theorem hasDerivAt_sT (l : ℕ) (t : ℝ) : HasDerivAt (fun x => I.sT l x) (I.scale l) t := by
  unfold sT
  have := (((hasDerivAt_id t).sub_const (bdry I.tauArr l)).const_mul (I.scale l)).const_add (I.tau0 l)
  simpa using this

theorem hasDerivAt_qL {m l : ℕ} (hs : I.scale l ≠ 0) (hK : ∀ j < 2 * I.N, S.K m l j ≠ 0) (hmu : I.beam = true → I.mu0 ≠ 0)
    (t : ℝ) (i : ℕ) : HasDerivAt (fun x => I.qL S m l x i) (I.fL S m l t i) t := by
  unfold qL fL
  have h1 := hasDerivAt_sT (I := I) l t
  refine HasDerivAt.add (HasDerivAt.add (HasDerivAt.fun_sum fun j hj => HasDerivAt.const_mul _ ?_) ?_) ?_
  · have hk := hK j (mem_range.1 hj)
    have h2 : HasDerivAt (fun x => I.exL S m l x j) (S.K m l j * I.scale l) t := by
      unfold exL
      split_ifs
      · exact (h1.sub_const _).const_mul _
      · exact (h1.sub_const _).const_mul _
    refine (h2.exp.div_const _).congr_deriv ?_
    field_simp
  · split_ifs with hb
    · have hm := hmu hb
      have h2 := ((h1.neg.div_const I.mu0).exp).const_mul (S.B m l i / (-I.scale l / I.mu0))
      refine h2.congr_deriv ?_
      simp only [Pi.neg_apply]
      field_simp
    · exact hasDerivAt_const _ _
  · split_ifs
    · have h2 := (hasDerivAt_antiV (2 * I.N) I.Nscoeffs (I.s l) (S.G 0 l) (S.K 0 l) (S.Gim l) (I.sT l t) i).comp t h1
      refine (h2.div_const (I.scale l)).congr_deriv ?_
      field_simp
    · exact hasDerivAt_const _ _

theorem continuous_fL (m l i : ℕ) : Continuous (fun t => I.fL S m l t i) := by
  have h1 : Continuous (fun t => I.sT l t) := by unfold sT; fun_prop
  have h2 : ∀ j, Continuous (fun t => I.exL S m l t j) := by
    intro j; unfold exL; split_ifs <;> fun_prop
  unfold fL
  refine Continuous.add (Continuous.add (continuous_finsetSum _ fun j _ => ?_) ?_) ?_
  · exact continuous_const.mul (Real.continuous_exp.comp (h2 j))
  · split_ifs <;> fun_prop
  · split_ifs
    · exact (continuous_mathscrV _ _ _ _ _ _ i).comp h1
    · exact continuous_const

/-! ### Evaluation -/

theorem addIso_anti (hd : I.DepthOK) (hc : I.iso = false ∨ I.NLayers = 1) (tau : A1 ℝ) (row0 rows : ℕ) {x : A2 ℝ} (hr : x.r = rows)
    (hcx : x.c = tau.n) {f : ℕ → ℕ → ℝ} (hx : ∀ i < rows, ∀ t < tau.n, x.get i t = f i t) :
    Spec.Returns2 (I.addIso S tau true row0 rows x) rows tau.n (fun i t => f i t + if I.iso = true then
      antiV (2 * I.N) I.Nscoeffs (I.s (I.layer (tau.get t))) (S.G 0 (I.layer (tau.get t))) (S.K 0 (I.layer (tau.get t)))
        (S.Gim (I.layer (tau.get t))) (I.scaledTau (tau.get t)) (row0 + i) / I.scale (I.layer (tau.get t)) else 0) := by
  unfold addIso
  rcases Bool.eq_false_or_eq_true I.iso with hi | hi
  · have hL : I.NLayers = 1 := hc.resolve_left (by rw [hi]; simp)
    have h0 : ∀ t, I.layer t = 0 := fun t => by have := layer_lt hd t; omega
    rw [if_pos hi]
    unfold isoPart
    simp only [if_true, bind, Except.bind]
    obtain ⟨y, y1, y2, y3, y4⟩ := mathscrVAnti_one (n := 2 * I.N) (Nc := I.Nscoeffs) (rows := rows) (tau.map I.scaledTau)
      ⟨I.NLayers, I.scale⟩ (tau.map I.layer) I.s (fun l q => S.G 0 l (row0 + q)) (S.K 0) S.Gim hL rfl
      (fun t _ => h0 _)
    rw [y1]
    simp only
    obtain ⟨z, h1, h2, h3, h4⟩ := A2.bin_same (fun x y : ℝ => x + y) (x := x) (y := y) (by rw [hr, y2]) (by rw [hcx, y3]; rfl)
    refine ⟨z, h1, by rw [h2, hr], by rw [h3, hcx], fun i hi' t ht => ?_⟩
    rw [h4 i (by omega) t (by omega), hx i hi' t ht, y4 i hi' t ht]
    beta_reduce
    rw [if_pos hi, h0]
    rfl
  · rw [if_neg (by rw [hi]; simp)]
    refine ⟨x, rfl, hr, hcx, fun i hi' t ht => ?_⟩
    rw [hx i hi' t ht]
    beta_reduce
    rw [if_neg (by rw [hi]; simp), add_zero]

theorem fluxUp_anti (hd : I.DepthOK) (hc : I.iso = false ∨ I.NLayers = 1) {tau : A1 ℝ} (h : I.checkTau tau = .ok ()) :
    Spec.Returns1 (I.fluxUp S tau true) tau.n (fun t => I.rescale
      * ∑ i ∈ range I.N, (2 * Real.pi * (I.mu i * I.W i)) * I.valAnti S 0 (tau.get t) i) := by
  unfold fluxUp
  rw [h]
  obtain ⟨z, h1, h2, h3, h4⟩ := addIso_anti (S := S) hd hc tau 0 I.N
    (x := ⟨I.N, tau.n, fun i t => I.umAnti S 0 i (tau.get t)⟩) rfl rfl (f := fun i t => I.umAnti S 0 i (tau.get t))
    (by intro i _ t _; simp)
  simp only [bind, Except.bind, if_true, h1]
  refine ⟨_, rfl, h3, fun t ht => ?_⟩
  simp only [A1.map, fluxQuad]
  congr 1
  refine sum_congr rfl fun i hi => ?_
  rw [h4 i (mem_range.1 hi) t ht]; simp only [Nat.zero_add, valAnti, true_and]

theorem u0_anti (hd : I.DepthOK) (hb : I.beam = true) (hc : I.iso = false ∨ I.NLayers = 1) {tau : A1 ℝ}
    (h : I.checkTau tau = .ok ()) :
    Spec.Returns2 (I.u0 S tau true) (2 * I.N) tau.n (fun i t => I.rescale * I.valAnti S 0 (tau.get t) i) := by
  unfold u0
  rw [h]
  obtain ⟨z, h1, h2, h3, h4⟩ := addIso_anti (S := S) hd hc tau 0 (2 * I.N) (x := I.u0Raw S tau true)
    (by simp [u0Raw, hb]) (by simp [u0Raw, hb]) (f := fun i t => I.umAnti S 0 i (tau.get t)) (by intro i _ t _; simp [u0Raw, hb])
  simp only [bind, Except.bind, h1]
  refine ⟨_, rfl, h2, h3, fun i hi t ht => ?_⟩
  simp only [A2.map]
  rw [h4 i hi t ht]; simp only [Nat.zero_add, valAnti, true_and]

/-- Line 382: without a beam, `u0` ignores `is_antiderivative_wrt_tau` except in the isotropic part. -/
theorem u0_anti_dark (hb : I.beam = false) (hc : I.iso = false) (tau : A1 ℝ) : I.u0 S tau true = I.u0 S tau false := by
  unfold u0 u0Raw addIso
  simp [hb, hc]

theorem u_anti (hd : I.DepthOK) (hc : I.iso = false ∨ I.NLayers = 1) {tau : A1 ℝ} (phi : A1 ℝ) (h : I.checkTau tau = .ok ()) :
    Spec.Returns3 (I.u S tau phi true) (2 * I.N) tau.n phi.n (fun i t p =>
      ∑ m ∈ range I.NFourier, (I.rescale * I.valAnti S m (tau.get t) i) * Real.cos ((m : ℝ) * (I.phi0 - phi.get p))) := by
  have hm0 : Spec.Returns2 (I.um0 S tau true) (2 * I.N) tau.n (fun i t => I.valAnti S 0 (tau.get t) i) := by
    unfold um0
    simp only [if_true]
    obtain ⟨z, h1, h2, h3, h4⟩ := addIso_anti (S := S) hd hc tau 0 (2 * I.N)
      (x := ⟨2 * I.N, tau.n, fun i t => I.umAnti S 0 i (tau.get t)⟩) rfl rfl (f := fun i t => I.umAnti S 0 i (tau.get t))
      (by intro i _ t _; simp)
    rcases Bool.eq_false_or_eq_true I.iso with hi | hi
    · rw [if_pos hi]
      simp only [bind, Except.bind, h1]
      rw [if_pos (Or.inr h3)]
      refine ⟨z, rfl, h2, h3, fun i hi t ht => ?_⟩
      rw [h4 i hi t ht]; simp only [Nat.zero_add, valAnti, true_and]
    · rw [if_neg (by rw [hi]; simp)]
      refine ⟨_, rfl, rfl, rfl, fun i _ t _ => ?_⟩
      unfold valAnti; simp [hi]
  unfold u uRaw
  rw [h]
  obtain ⟨z, h1, h2, h3, h4⟩ := hm0
  simp only [bind, Except.bind, h1, pure, Except.pure]
  refine ⟨_, rfl, rfl, h3, rfl, fun i hi t ht p hp => ?_⟩
  simp only
  rw [mul_sum]
  refine sum_congr rfl fun m _ => ?_
  rw [← mul_assoc]
  congr 2
  by_cases hm : m = 0
  · rw [if_pos hm, h4 i hi t ht, hm]
  · rw [if_neg hm]
    unfold valAnti; simp [hm]

/-- `flux_down` works with a single layer; without a beam; or with a single depth. -/
theorem fluxDown_anti (hd : I.DepthOK) {tau : A1 ℝ} (hc : I.iso = false ∨ I.NLayers = 1)
    (hb : I.beam = true → I.NLayers = 1 ∨ tau.n = 1) (h : I.checkTau tau = .ok ()) :
    ∃ F D, I.fluxDown S tau true = .ok (F, D, I.beam) ∧ F.n = tau.n ∧
      (∀ t < tau.n, F.get t = I.rescale * (∑ i ∈ range I.N, (2 * Real.pi * (I.mu i * I.W i)) * I.valAnti S 0 (tau.get t) (I.N + i)
        + if I.beam = true then I.I0 * I.mu0 * Real.exp (-I.scaledTau (tau.get t) / I.mu0) / (-I.scale (I.layer (tau.get t)) / I.mu0)
          - I.I0 * I.mu0 * Real.exp (-tau.get t / I.mu0) * -I.mu0 else 0)) ∧
      D.n = (if I.beam = true then tau.n else 1) ∧
      ∀ t < D.n, D.get t = I.rescale * (if I.beam = true then I.I0 * I.mu0 * Real.exp (-tau.get t / I.mu0) * -I.mu0 else 0) := by
  have hraw : ∃ x, I.fluxDownRaw S tau true = .ok x ∧ x.r = I.N ∧ x.c = tau.n ∧
      ∀ i < I.N, ∀ t < tau.n, x.get i t = I.umAnti S 0 (I.N + i) (tau.get t) := by
    unfold fluxDownRaw
    rw [if_pos rfl]
    rcases Bool.eq_false_or_eq_true I.beam with hbt | hbt
    · rw [if_pos hbt]
      unfold fluxDownAntiBeam
      rcases hb hbt with h1 | h1
      · have h0 : ∀ t, I.layer t = 0 := fun t => by have := layer_lt hd t; omega
        rw [h1, bdim_one_left]
        by_cases hn : tau.n = 0
        · simp only [bind, Except.bind, hn, pure, Except.pure]
          rw [if_neg (by rintro ⟨t, ht, _⟩; omega)]
          refine ⟨_, rfl, rfl, rfl, fun i _ t ht => by omega⟩
        · simp only [bind, Except.bind, pure, Except.pure]
          rw [if_neg (by rintro ⟨t, ht, h2⟩; rw [h0] at h2; omega)]
          refine ⟨_, rfl, rfl, rfl, fun i _ t ht => ?_⟩
          simp only [h0, bix_one, umAnti, hbt, if_true]
      · rw [h1, bdim_one_right]
        simp only [bind, Except.bind, pure, Except.pure]
        rw [if_neg (by rintro ⟨t, ht, h2⟩; have := layer_lt hd (tau.get t); omega)]
        refine ⟨_, rfl, rfl, rfl, fun i _ t ht => ?_⟩
        have ht0 : t = 0 := by omega
        subst ht0
        simp only [bix_one, umAnti, hbt, if_true]
        rw [bix_of_lt (layer_lt hd _)]
    · rw [if_neg (by rw [hbt]; simp)]
      exact ⟨_, rfl, rfl, rfl, fun i _ t _ => rfl⟩
  obtain ⟨x, x1, x2, x3, x4⟩ := hraw
  unfold fluxDown
  rw [h]
  obtain ⟨z, h1, h2, h3, h4⟩ := addIso_anti (S := S) hd hc tau I.N I.N (x := x) x2 x3
    (f := fun i t => I.umAnti S 0 (I.N + i) (tau.get t)) x4
  have hq : ∀ t < tau.n, (I.fluxQuad z).get t
      = ∑ i ∈ range I.N, (2 * Real.pi * (I.mu i * I.W i)) * I.valAnti S 0 (tau.get t) (I.N + i) := by
    intro t ht
    simp only [fluxQuad]
    exact sum_congr rfl fun i hi => by rw [h4 i (mem_range.1 hi) t ht]; simp only [valAnti, true_and]
  simp only [bind, Except.bind, x1, h1]
  by_cases hb : I.beam = true
  · simp only [hb, if_true]
    obtain ⟨d1, e1, e2, e3⟩ := A1.bin_same (fun x y : ℝ => x + y) (x := I.fluxQuad z)
      (y := tau.map (I.directScaled true)) h3
    rw [e1]
    simp only
    obtain ⟨d2, f1, f2, f3⟩ := A1.bin_same (fun x y : ℝ => x - y) (x := d1)
      (y := tau.map (I.direct true)) (by rw [e2]; exact h3)
    rw [f1]
    simp only
    have hn : (I.fluxQuad z).n = tau.n := h3
    refine ⟨_, _, rfl, by simp only [A1.map]; rw [f2, e2, hn], fun t ht => ?_, rfl, fun t _ => ?_⟩
    · simp only [A1.map]
      rw [f3 t (by rw [e2, hn]; exact ht), e3 t (by rw [hn]; exact ht), hq t ht]
      simp only [A1.map, directScaled, direct, if_true]
      ring
    · simp only [A1.map, direct, if_true]
  · simp only [Bool.not_eq_true] at hb
    simp only [hb, Bool.false_eq_true, if_false]
    refine ⟨_, _, rfl, h3, fun t ht => ?_, rfl, fun t _ => rfl⟩
    simp only [A1.map]
    rw [hq t ht]; ring

end AsmIn

/-- From layer formulas to an antiderivative. -/
theorem antiOf_layers {a : Args} {I : AsmIn} (hd : I.DepthOK) (e1 : I.tauArr = a.tauArr.get) (e2 : I.NLayers = a.tauArr.n)
    {f Q : ℕ → ℝ → ℝ} (hQ : ∀ l < a.tauArr.n, ∀ t, HasDerivAt (Q l) (f l t) t) (hf : ∀ l < a.tauArr.n, Continuous (f l)) :
    Spec.AntiOf a (fun t => f (I.layer t) t) (fun t => Q (I.layer t) t) := by
  have hlay : ∀ l < a.tauArr.n, ∀ t, Spec.Inside a l t → I.layer t = l := by
    intro l hl t ht
    refine AsmIn.layer_eq hd (by omega) ?_ (by rw [e1]; exact ht.1)
    rw [e1]
    exact ht.2.imp_right And.left
  constructor
  · intro l hl t h1 h2
    have hin : ∀ x, bdry a.tauArr.get l < x → x < bdry a.tauArr.get (l + 1) → I.layer x = l :=
      fun x y1 y2 => hlay l hl x ⟨y2.le, Or.inl y1⟩
    change HasDerivAt _ (f (I.layer t) t) t
    rw [hin t h1 h2]
    refine (hQ l hl t).congr_of_eventuallyEq ?_
    filter_upwards [Ioo_mem_nhds h1 h2] with x hx
    rw [hin x hx.1 hx.2]
  · intro l hl t₁ t₂ h1 h2
    change Q (I.layer t₂) t₂ - Q (I.layer t₁) t₁ = _
    rw [hlay l hl t₁ h1, hlay l hl t₂ h2]
    rw [← intervalIntegral.integral_eq_sub_of_hasDerivAt (fun x _ => hQ l hl x) ((hf l hl).intervalIntegrable _ _)]
    refine intervalIntegral.integral_congr fun x hx => ?_
    have : I.layer x = l := by
      refine hlay l hl x ?_
      have hmin := hx.1
      have hmax := hx.2
      constructor
      · exact hmax.trans (max_le h1.1 h2.1)
      · rcases h1.2 with g1 | ⟨g0, g1⟩
        · rcases h2.2 with k1 | ⟨k0, k1⟩
          · exact Or.inl ((lt_min g1 k1).trans_le hmin)
          · subst k0
            have : (0 : ℝ) < t₁ := by simpa [bdry] using g1
            exact Or.inr ⟨rfl, (le_min this.le k1).trans hmin⟩
        · subst g0
          rcases h2.2 with k1 | ⟨_, k1⟩
          · have : (0 : ℝ) < t₂ := by simpa [bdry] using k1
            exact Or.inr ⟨rfl, (le_min g1 this.le).trans hmin⟩
          · exact Or.inr ⟨rfl, (le_min g1 k1).trans hmin⟩
    change f l x = f (I.layer x) x
    rw [this]

end Pydisort

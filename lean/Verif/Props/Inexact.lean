import Verif.InexactLemmas
import Verif.Props.Endless

/-!
# C129: inexact linear algebra

Specification used: `Spec.NearlySolves`, `Spec.AbsorbsFraction`, `Spec.arrayField`, `Spec.SmallResiduals`, `Spec.errorBound`.
-/

namespace Pydisort
open Finset Spec

variable {E : Ext} {J : Junk} {a : Args} {R : Solved}

/-- **C129, any field.** Let a field be given layer by layer. If it solves the transfer equation up to `η`, is continuous up to `δ` and satisfies the boundary conditions up to `β`,
then it differs from the solution by at most `(max(η, β) + 2 (n-1) δ) / κ + (n-1) δ`, where `n` is the number of layers and every layer and the surface absorb at least the fraction
`κ`. Neither the number of streams nor the optical depth enters. -/
theorem C129_residual_bound (hacc : Accepted a) (hg : GaussContract E (nHalf a)) (hpk : ∀ l < a.tauArr.n, peak a l < 1)
    (hk : NonnegScattering a (node E a)) {rho : ℝ → ℝ → ℝ} (hsf : FairSurface a (node E a) (weight E a) rho) {κ : ℝ}
    (hκ : AbsorbsFraction a (node E a) (weight E a) rho κ) {V : ℝ → ℕ → ℝ} (hV : IsSolution a (node E a) (weight E a) rho 0 V) {v : ℕ → ℝ → ℕ → ℝ} {η δ β : ℝ}
    (hδ : 0 ≤ δ) (hv : NearlySolves a (node E a) (weight E a) rho v η δ β) :
    ∀ l < a.tauArr.n, ∀ t, InLayer a l t → ∀ i < 2 * nHalf a, |v l t i - V t i| ≤ errorBound a.tauArr.n κ η δ β :=
  near_solution hacc hg hpk hk hsf.nonneg hκ hV hδ hv

/-- `P` are the coefficients of the polynomials that `_mathscr_v` evaluates with the arrays in `S`. -/
def SourceCoeffs (I : AsmIn) (S : Sols) (Nc : ℕ) (P : ℕ → ℕ → ℕ → ℝ) : Prop := ∀ l < I.NLayers, ∀ i < 2 * I.N, ∀ T,
  ∑ p ∈ range Nc, P l p i * T ^ p = if I.iso = true then mathscrV (2 * I.N) I.Nscoeffs (I.s l) (S.G 0 l) (S.K 0 l) (S.Gim l) T i else 0

/-- There always are such coefficients. -/
theorem exists_sourceCoeffs (h : pydisort E J a = .ok R) (S : Sols) : ∃ P, SourceCoeffs R.I S R.I.Nscoeffs P := by
  obtain ⟨hacc, O, r, hO, hr, hI, _⟩ := pydisort_ok h
  by_cases hiso : R.I.iso = true
  · have hNc : 0 < R.I.Nscoeffs := by
      rw [hI] at hiso ⊢
      exact (by classical simpa [Args.asmIn] using hiso : a.Iso)
    refine ⟨fun l p i => ∑ k ∈ range (2 * R.I.N), S.G 0 l i k * (sigC R.I.Nscoeffs (R.I.s l) (S.K 0 l k) p * S.Gim l k), fun l _ i _ T => ?_⟩
    rw [if_pos hiso, mathscrV_eq hNc]
    simp only [sum_mul]
    rw [sum_comm]
    refine sum_congr rfl fun k _ => ?_
    unfold sigma
    rw [sum_mul, mul_sum]
    exact sum_congr rfl fun p _ => by ring
  · refine ⟨fun _ _ _ => 0, fun l _ i _ T => ?_⟩
    rw [if_neg hiso]
    simp

/-- What the functions evaluate, for whatever is stored in the arrays. -/
theorem val_eq_arrayField (h : pydisort E J a = .ok R) (S : Sols) {Nc : ℕ} {P : ℕ → ℕ → ℕ → ℝ} (hP : SourceCoeffs R.I S Nc P) {l : ℕ} (t : ℝ) (hl : R.I.layer t = l) {i : ℕ}
    (hi : i < 2 * nHalf a) :
    R.I.rescale * R.I.val S 0 t i = arrayField a R.I.rescale (S.GC 0) (S.K 0) (S.B 0) Nc P l t i := by
  obtain ⟨hacc, O, r, hO, hr, hI, _⟩ := pydisort_ok h
  have hs := Args.optics_spec hacc hO
  have hI' : R.I = a.asm E O r := hI
  have hd := asm_depthOK (E := E) (r := r) hacc hs
  subst hl
  have hbeam : R.I.beam = true ↔ 0 < a.I0 := by rw [hI']; simp [Args.asmIn, Args.Beam]
  have hll : R.I.layer t < a.tauArr.n := by rw [hI']; exact AsmIn.layer_lt hd t
  have h3 : R.I.scaledTau t = tauStar a (R.I.layer t) t := by
    rw [hI'] at hll ⊢
    rw [AsmIn.scaledTau_eq hd t]
    change O.tau0 _ + O.scale _ * (t - bdry a.tauArr.get _) = _
    rw [hs.tau0 _ hll.le, hs.scale _ hll]; rfl
  have h4 : ∀ k ≤ a.tauArr.n, R.I.tau0 k = bdryStar a k := by intro k hk; rw [hI']; exact hs.tau0 k hk
  have hN : R.I.N = nHalf a := by rw [hI']; rfl
  have hmu : R.I.mu0 = a.mu0 := by rw [hI']; rfl
  unfold AsmIn.val AsmIn.umPlain arrayField
  have hNL : R.I.NLayers = a.tauArr.n := by rw [hI']; rfl
  have hp := hP (R.I.layer t) (by rw [hNL]; exact hll) i (by rw [hN]; exact hi) (tauStar a (R.I.layer t) t)
  rw [hN] at hp
  simp only [true_and]
  rw [hN, h3, ← hp, hmu]
  congr 3
  · refine sum_congr rfl fun j _ => ?_
    unfold AsmIn.exponent
    rw [hN, h3, h4 _ hll.le, h4 _ hll]
    split_ifs <;> rfl
  · by_cases hb : 0 < a.I0
    · rw [if_pos hb, if_pos (hbeam.2 hb)]
    · rw [if_neg hb, if_neg (fun hc => hb (hbeam.1 hc))]

/-- **C129.** Let `E` stand for routines of which only the quadrature is assumed to be right: `np.linalg.eig` may return anything, and the arrays `S` that the returned functions
evaluate may come from solving the linear systems inaccurately. If the residuals of these arrays are small, what `u0`, `flux_up` and `flux_down` return is near the solution `V`: the
error is at most the residuals, amplified by `1 / κ`. The conditioning of the linear systems does not enter. -/
theorem C129_inexact_linear_algebra (h : pydisort E J a = .ok R) (hg : GaussContract E (nHalf a)) (hpk : ∀ l < a.tauArr.n, peak a l < 1) (hres : Rescalable a)
    (hk : NonnegScattering a (node E a)) {rho : ℝ → ℝ → ℝ} (hsf : FairSurface a (node E a) (weight E a) rho) {κ : ℝ}
    (hκ : AbsorbsFraction a (node E a) (weight E a) rho κ) {V : ℝ → ℕ → ℝ} (hV : IsSolution a (node E a) (weight E a) rho 0 V) {S : Sols} {Nc : ℕ} {P : ℕ → ℕ → ℕ → ℝ}
    (hP : SourceCoeffs R.I S Nc P) {η δ β : ℝ} (hδ : 0 ≤ δ)
    (hS : SmallResiduals a (node E a) (weight E a) rho R.I.rescale (S.GC 0) (S.K 0) (S.B 0) Nc P η δ β) {tau : A1 ℝ} (ht : InRange a tau) :
    (∃ A, R.I.u0 S tau false = .ok A ∧ A.r = 2 * nHalf a ∧ A.c = tau.n ∧
      ∀ i < 2 * nHalf a, ∀ k < tau.n, |A.get i k - V (tau.get k) i| ≤ errorBound a.tauArr.n κ η δ β) ∧
    (∃ F, R.I.fluxUp S tau false = .ok F ∧ F.n = tau.n ∧
      ∀ k < tau.n, |F.get k - hemiFlux a (node E a) (weight E a) (V (tau.get k))| ≤ Real.pi * errorBound a.tauArr.n κ η δ β) ∧
    ∃ F D flag, R.I.fluxDown S tau false = .ok (F, D, flag) ∧ F.n = tau.n ∧
      ∀ k < tau.n, ∀ l < a.tauArr.n, InLayer a l (tau.get k) →
        |F.get k + D.get (if flag = true then k else 0) - (hemiFlux a (node E a) (weight E a) (fun i => V (tau.get k) (nHalf a + i))
          + a.I0 * a.mu0 * Real.exp (-tauStar a l (tau.get k) / a.mu0))| ≤ Real.pi * errorBound a.tauArr.n κ η δ β := by
  obtain ⟨hacc, O, r, hO, hr, hI, _⟩ := pydisort_ok h
  have hs := Args.optics_spec hacc hO
  have hI' : R.I = a.asm E O r := hI
  have hd := asm_depthOK (E := E) (r := r) hacc hs
  have hnp := streams_pos hacc
  have hc : R.I.checkTau tau = .ok () := AsmIn.checkTau_ok (by rw [hI']; exact ht)
  have hN : R.I.N = nHalf a := by rw [hI']; rfl
  have near := near_solution hacc hg hpk hk hsf.nonneg hκ hV hδ (array_nearly hacc hS)
  have hlay : ∀ k < tau.n, R.I.layer (tau.get k) < a.tauArr.n ∧ InLayer a (R.I.layer (tau.get k)) (tau.get k) := by
    intro k hk'
    rw [hI']
    obtain ⟨l, hl, h1, h2, h3⟩ := AsmIn.exists_layer hd (t := tau.get k) (ht k hk').2
    rw [h3]
    refine ⟨hl, ?_, h2⟩
    rcases h1 with h1 | h1
    · exact h1.le
    · rw [h1, bdry_zero]; exact (ht k hk').1
  have key : ∀ k < tau.n, ∀ i < 2 * nHalf a, |R.I.rescale * R.I.val S 0 (tau.get k) i - V (tau.get k) i| ≤ errorBound a.tauArr.n κ η δ β := by
    intro k hk' i hi
    rw [val_eq_arrayField h S hP _ rfl hi]
    exact near _ (hlay k hk').1 _ (hlay k hk').2 i hi
  have hflux : ∀ (x : ℕ → ℝ), R.I.rescale * ∑ i ∈ range R.I.N, (2 * Real.pi * (R.I.mu i * R.I.W i)) * x i
      = hemiFlux a (node E a) (weight E a) (fun i => R.I.rescale * x i) := by
    intro x
    unfold hemiFlux
    rw [mul_sum, mul_sum, hN]
    refine sum_congr rfl fun i _ => ?_
    have e1 : R.I.mu i = node E a i := by rw [hI]; rfl
    have e2 : R.I.W i = weight E a i := by rw [hI]; rfl
    rw [e1, e2]; ring
  refine ⟨?_, ?_, ?_⟩
  · obtain ⟨A, hA, h1, h2, h3⟩ := R.I.u0_plain S hc
    refine ⟨A, hA, by rw [h1, hN], h2, fun i hi k hk' => ?_⟩
    rw [h3 i (by rw [hN]; exact hi) k hk']
    exact key k hk' i hi
  · obtain ⟨F, hF, h1, h2⟩ := R.I.fluxUp_plain S hc
    refine ⟨F, hF, h1, fun k hk' => ?_⟩
    rw [h2 k hk']
    beta_reduce
    rw [hflux]
    exact abs_hemiFlux_sub_le hg hnp fun i hi => key k hk' i (by omega)
  · obtain ⟨F, D, hF, h4, h5, h6, h7⟩ := R.I.fluxDown_plain S hc
    refine ⟨F, D, _, hF, h4, fun k hk' l hl hin => ?_⟩
    have hI0 : R.I.rescale * R.I.I0 = a.I0 := by rw [hI']; exact rescale_I0 hacc hs hr hres
    have hmu : R.I.mu0 = a.mu0 := by rw [hI']; rfl
    have h3 : R.I.scaledTau (tau.get k) = tauStar a l (tau.get k) := by
      have := hlay k hk'
      rw [tauStar_layers hacc hl this.1 hin this.2]
      rw [hI'] at this ⊢
      rw [AsmIn.scaledTau_eq hd]
      change O.tau0 _ + O.scale _ * (tau.get k - bdry a.tauArr.get _) = _
      rw [hs.tau0 _ this.1.le, hs.scale _ this.1]; rfl
    have hD : (if R.I.beam = true then k else 0) < D.n := by rw [h6]; split_ifs <;> omega
    rw [h5 k hk', h7 _ hD, mul_add, hflux, hN, h3, hmu]
    have hb := abs_hemiFlux_sub_le (v := fun i => R.I.rescale * R.I.val S 0 (tau.get k) (nHalf a + i)) (v' := fun i => V (tau.get k) (nHalf a + i)) hg hnp
      fun i hi => key k hk' (nHalf a + i) (by omega)
    refine le_trans (le_of_eq ?_) hb
    congr 1
    by_cases hbm : R.I.beam = true
    · simp only [hbm, if_true]
      rw [← hI0]; ring
    · have : a.I0 = 0 := by
        have : ¬ a.I0 > 0 := by rw [hI'] at hbm; simpa [Args.asmIn, Args.Beam] using hbm
        exact le_antisymm (not_lt.mp this) hacc.beam
      simp only [hbm, this]
      simp

/-- The arrays that the code computes describe the returned modes in every layer, up to its ends. -/
theorem arrayField_eq_modes (h : pydisort E J a = .ok R) (hS : Sound E a) (hres : Rescalable a) {Nc : ℕ} {P : ℕ → ℕ → ℕ → ℝ} (hP : SourceCoeffs R.I R.S Nc P)
    {U : ℕ → ℝ → ℕ → ℝ} (hU : IsModes a R U) {l : ℕ}
    (hl : l < a.tauArr.n) {t : ℝ} (ht : InLayer a l t) {i : ℕ} (hi : i < 2 * nHalf a) :
    arrayField a R.I.rescale (R.S.GC 0) (R.S.K 0) (R.S.B 0) Nc P l t i = U 0 t i := by
  have hacc := (pydisort_ok h).1
  obtain ⟨hd, e1, e2⟩ := depthOK_of h
  have inside : ∀ x, bdry a.tauArr.get l < x → x ≤ bdry a.tauArr.get (l + 1) → arrayField a R.I.rescale (R.S.GC 0) (R.S.K 0) (R.S.B 0) Nc P l x i = U 0 x i := by
    intro x h1 h2
    have hx := range_of_layer hacc hl ⟨h1.le, h2⟩
    have hlay : R.I.layer x = l := AsmIn.layer_eq hd (by omega) (Or.inl (by rw [e1]; exact h1)) (by rw [e1]; exact h2)
    have hin : InRange a ⟨1, fun _ => x⟩ := fun _ _ => hx
    obtain ⟨A, hA, _, _, hA4⟩ := hU.u0 ⟨1, fun _ => x⟩ hin
    have hc : R.I.checkTau ⟨1, fun _ => x⟩ = .ok () := AsmIn.checkTau_ok (by rw [e1, e2]; exact hin)
    obtain ⟨B, hB, _, _, hB4⟩ := R.I.u0_plain R.S hc
    change R.u0 ⟨1, fun _ => x⟩ false = .ok B at hB
    rw [hA] at hB; cases hB
    have hN : R.I.N = nHalf a := by
      obtain ⟨_, O, r, _, _, hI, _⟩ := pydisort_ok h
      rw [hI]; rfl
    have q1 := hA4 i hi 0 Nat.one_pos
    have q2 := hB4 i (by rw [hN]; exact hi) 0 Nat.one_pos
    rw [q1] at q2
    rw [← val_eq_arrayField h R.S hP x hlay hi]
    exact q2.symm
  rcases ht.1.lt_or_eq with hlt | heq
  · exact inside t hlt ht.2
  · -- at the upper end of the layer both sides are continuous from below
    have hlt := bdry_lt hacc hl
    have hc1 : ContinuousWithinAt (fun x => arrayField a R.I.rescale (R.S.GC 0) (R.S.K 0) (R.S.B 0) Nc P l x i) (Set.Ioc t (bdry a.tauArr.get (l + 1))) t :=
      (arrayField_deriv _ _ _ _ _ _ l t i).continuousAt.continuousWithinAt
    have hc2 : ContinuousWithinAt (fun x => U 0 x i) (Set.Ioc t (bdry a.tauArr.get (l + 1))) t := by
      have hx := range_of_layer hacc hl ht
      refine (C05_continuous_across_layers h hS hres hU 0 (nFourier_pos h hS) i hi t ⟨hx.1, hx.2⟩).mono fun y hy => ?_
      have hy' := range_of_layer hacc hl (t := y) ⟨ht.1.trans hy.1.le, hy.2⟩
      exact ⟨hy'.1, hy'.2⟩
    have hne : (nhdsWithin t (Set.Ioc t (bdry a.tauArr.get (l + 1)))).NeBot := by
      rw [nhdsWithin_Ioc_eq_nhdsGT (by rw [← heq]; exact hlt)]
      infer_instance
    refine tendsto_nhds_unique (hc1.tendsto.congr' ?_) hc2.tendsto
    filter_upwards [self_mem_nhdsWithin] with x hx
    exact inside x (by rw [heq]; exact hx.1) hx.2

/-- With exact routines the polynomials solve the equation with the internal source. -/
theorem exact_source (h : pydisort E J a = .ok R) (hS : Sound E a) (hres : Rescalable a) {Nc : ℕ} {P : ℕ → ℕ → ℕ → ℝ} (hP : SourceCoeffs R.I R.S Nc P) {l : ℕ} (hl : l < a.tauArr.n)
    (t : ℝ) {i : ℕ} (hi : i < 2 * nHalf a) : R.I.rescale * (polyPart a Nc P l t i - ∑ q ∈ range (2 * nHalf a), streamW (nHalf a) (weight E a) q
        * kernel a 0 l (stream (nHalf a) (node E a) i) (stream (nHalf a) (node E a) q) * polyPart a Nc P l t q - stream (nHalf a) (node E a) i * polySlope a Nc P l t i)
      - (1 - a.omega.get l) / scale a l * source a l t = 0 := by
  obtain ⟨hacc, O, r, hO, hr, hI, hsol, _⟩ := pydisort_ok h
  have hs := Args.optics_spec hacc hO
  have hN : R.I.N = nHalf a := by rw [hI]; rfl
  have hNL : R.I.NLayers = a.tauArr.n := by rw [hI]; rfl
  have hsc := Args.scale_pos hacc hl
  have hmu : stream (nHalf a) (node E a) i ≠ 0 := stream_ne_zero hS.gauss hi
  have hP' := fun q (hq : q < 2 * nHalf a) => hP l (by rw [hNL]; exact hl) q (by rw [hN]; exact hq)
  have hpoly : HasDerivAt (fun T => ∑ p ∈ range Nc, P l p i * T ^ p) (polySlope a Nc P l t i) (tauStar a l t) := by
    unfold polySlope
    exact HasDerivAt.fun_sum (u := range Nc) fun p _ => (hasDerivAt_pow p (tauStar a l t)).const_mul _
  rw [show (fun T => ∑ p ∈ range Nc, P l p i * T ^ p) = _ from funext fun T => hP' i hi T] at hpoly
  by_cases hns : NoSource a
  · have hiso : ¬ R.I.iso = true := by
      rw [hI]
      intro hiso
      exact Args.iso_iff.1 (by classical simpa [Args.asmIn] using hiso : a.Iso) hns
    simp only [if_neg hiso] at hP' hpoly
    have hsl := hpoly.unique (hasDerivAt_const _ _)
    have hsrc : source a l t = 0 := by
      unfold source
      split_ifs with h1
      · exact sum_eq_zero fun k hk => by rw [hns l h1 k (mem_range.1 hk), zero_mul]
      · rfl
    have hz : ∀ q < 2 * nHalf a, polyPart a Nc P l t q = 0 := fun q hq => hP' q hq _
    rw [hsl, hsrc, hz i hi, sum_eq_zero fun q hq => by rw [hz q (mem_range.1 hq), mul_zero]]
    ring
  · have hi' : a.Iso := Args.iso_iff.2 hns
    have hiso : R.I.iso = true := by rw [hI]; classical simpa [Args.asmIn] using hi'
    simp only [if_pos hiso, hN] at hP' hpoly
    have hsl := hpoly.unique (C07_particular_solution_in_call_partial h hS hns hl (tauStar a l t) hi)
    have hz : ∀ q < 2 * nHalf a, polyPart a Nc P l t q = mathscrV (2 * nHalf a) R.I.Nscoeffs (R.I.s l) (R.S.G 0 l) (R.S.K 0 l) (R.S.Gim l) (tauStar a l t) q :=
      fun q hq => hP' q hq _
    have hA : stream (nHalf a) (node E a) i * ∑ q ∈ range (2 * nHalf a), coefMatrix a (node E a) (weight E a) 0 l i q * polyPart a Nc P l t q
        = polyPart a Nc P l t i - ∑ q ∈ range (2 * nHalf a), streamW (nHalf a) (weight E a) q
          * kernel a 0 l (stream (nHalf a) (node E a) i) (stream (nHalf a) (node E a) q) * polyPart a Nc P l t q := by
      have e1 : ∀ q, stream (nHalf a) (node E a) i * (coefMatrix a (node E a) (weight E a) 0 l i q * polyPart a Nc P l t q)
          = (if i = q then polyPart a Nc P l t q else 0) - streamW (nHalf a) (weight E a) q
            * kernel a 0 l (stream (nHalf a) (node E a) i) (stream (nHalf a) (node E a) q) * polyPart a Nc P l t q := by
        intro q
        unfold coefMatrix
        split_ifs <;> field_simp <;> ring
      rw [mul_sum, sum_congr rfl fun q _ => e1 q, sum_sub_distrib, sum_ite_eq, if_pos (mem_range.2 hi)]
    rw [sum_congr rfl fun q hq => by rw [← hz q (mem_range.1 hq)]] at hsl
    have hsrc : scale a l * (R.I.rescale * ∑ k ∈ range R.I.Nscoeffs, R.I.s l k * tauStar a l t ^ k) = (1 - a.omega.get l) * source a l t := by
      rw [← hs.src hi' l hl t]
      congr 1
      have hsl : ∀ k, (a.asm E O r).s l k = O.s.get l k / r := by
        intro k; simp [Args.asmIn, hi']
      rw [hI]
      change r * ∑ k ∈ range a.nsc, (a.asm E O r).s l k * _ = _
      rw [Args.nsc_of_iso hi', mul_sum]
      refine sum_congr rfl fun k _ => ?_
      rw [hsl, ← mul_assoc, rescale_s hacc hs hr hres hi']
    rw [← hA, hsl]
    set Q := ∑ q ∈ range (2 * nHalf a), coefMatrix a (node E a) (weight E a) 0 l i q * polyPart a Nc P l t q
    set W := ∑ k ∈ range R.I.Nscoeffs, R.I.s l k * tauStar a l t ^ k
    have h1 : R.I.rescale * W = (1 - a.omega.get l) / scale a l * source a l t := by
      have := hsc.ne'
      field_simp
      linarith
    rw [← h1]
    field_simp
    ring

/-- With exact routines the residuals vanish. -/
theorem C129_exact_has_no_residuals (hw : WellPosed E a) (hres : Rescalable a) (h : pydisort E J a = .ok R) {Nc : ℕ} {P : ℕ → ℕ → ℕ → ℝ} (hP : SourceCoeffs R.I R.S Nc P)
    {rho : ℕ → ℝ → ℝ → ℝ} (hrho : SurfaceIs a rho) :
    SmallResiduals a (node E a) (weight E a) (rho 0) R.I.rescale (R.S.GC 0) (R.S.K 0) (R.S.B 0) Nc P 0 0 0 := by
  have hSo := hw.sound
  have hS := hSo.toNumerics
  have hacc := hw.accepted
  obtain ⟨_, O, r, hO, hr, hI, hsol, _⟩ := pydisort_ok h
  have hs := Args.optics_spec hacc hO
  have hI' : R.I = a.asm E O r := hI
  rw [hI'] at hsol
  have hg := asm_good_of (r := r) hacc hs hS.gauss hS.eig hS.regular
  have hnr := asm_nonRes hacc hs hS hsol
  obtain ⟨U, hU, _⟩ := C02_modes_solve_transfer_equation h hSo hres
  have hF := nFourier_pos h hSo
  have hsolU := modes_isSolution h hSo hres hw.bottomBC hw.topBC hrho hU hF
  have hL := hacc.layers
  have hagree := fun {l : ℕ} (hl : l < a.tauArr.n) {t : ℝ} (ht : InLayer a l t) {i : ℕ} (hi : i < 2 * nHalf a) => arrayField_eq_modes h hSo hres hP hU hl ht hi
  obtain ⟨out, GC, h1, h2, h3⟩ := AsmIn.solveAll_ok hsol
  have hsp := genSol_spec hg.F h1
  obtain ⟨C, hGC, hC⟩ := solveCoeffs_ok (I := (a.asm E O r).coefIn out) hg.N hg.L h2
  have hslot := slotOK_of_spec hg.F hsp hg.eig (by rw [h3] at hnr; exact hnr)
  have hK := fun {l : ℕ} (hl : l < a.tauArr.n) => gen_K_neg hw hs hsp hF hl
  have hend : InLayer a (a.tauArr.n - 1) (bottom a) := by
    have h1 := bdry_lt hacc (show a.tauArr.n - 1 < a.tauArr.n by omega)
    rw [show a.tauArr.n - 1 + 1 = a.tauArr.n by omega, bdry_bottom hacc] at h1
    refine ⟨h1.le, ?_⟩
    rw [show a.tauArr.n - 1 + 1 = a.tauArr.n by omega, bdry_bottom hacc]
  refine ⟨fun l hl j hj => ?_, fun l hl j hj hj' => ?_, fun l hl t ht i hi => ?_, fun l hl i hi => ?_, fun i hi => ?_, fun i hi => ?_⟩
  · rw [h3]; exact ((hK hl).1 j hj).le
  · rw [h3]
    have := (hK hl).2 (j - nHalf a) (by omega)
    rw [Nat.add_sub_cancel' hj'] at this
    exact this.le
  · rw [exact_source h hSo hres hP hl t hi, abs_zero, add_zero, h3]
    have hF' : 0 < (a.asm E O r).genIn.NFourier := hg.F
    have hsum : ∑ j ∈ range (2 * nHalf a), |GC 0 l i j - ∑ q ∈ range (2 * nHalf a), streamW (nHalf a) (weight E a) q
        * kernel a 0 l (stream (nHalf a) (node E a) i) (stream (nHalf a) (node E a) q) * GC 0 l q j - stream (nHalf a) (node E a) i * out.K 0 l j * GC 0 l i j| = 0 := by
      refine sum_eq_zero fun j hj => ?_
      have hj := mem_range.1 hj
      have e1 := hslot.eig 0 hF' l hl i hi j hj
      have e2 := effA_spec (r := r) hs hS.gauss hl 0 (fun q => out.G 0 l q j) hi
      change mulVec (2 * nHalf a) _ _ i = _ at e1
      rw [e1] at e2
      have e3 : ∀ q, GC 0 l q j = out.G 0 l q j * C 0 (l * (2 * nHalf a) + j) := fun q => by rw [hGC]; rfl
      have e4 : ∑ q ∈ range (2 * nHalf a), streamW (nHalf a) (weight E a) q
          * kernel a 0 l (stream (nHalf a) (node E a) i) (stream (nHalf a) (node E a) q) * GC 0 l q j
          = (∑ q ∈ range (2 * nHalf a), streamW (nHalf a) (weight E a) q
            * kernel a 0 l (stream (nHalf a) (node E a) i) (stream (nHalf a) (node E a) q) * out.G 0 l q j) * C 0 (l * (2 * nHalf a) + j) := by
        rw [sum_mul]; exact sum_congr rfl fun q _ => by rw [e3]; ring
      rw [e4, e3, abs_eq_zero]
      linear_combination (-C 0 (l * (2 * nHalf a) + j)) * e2
    rw [hsum, mul_zero, zero_add]
    split_ifs with hb
    · refine le_of_eq (abs_eq_zero.2 ?_)
      have hb' : (a.asm E O r).genIn.beam = true := by simpa [Args.asmIn, Args.Beam, AsmIn.genIn] using hb
      have e1 := hslot.beam hb' 0 hF' l hl i hi
      have e2 := effA_spec (r := r) hs hS.gauss hl 0 (out.B 0 l) hi
      have e3 := effX_spec (E := E) hs hS.gauss hl 0 hi (rescale_I0 hacc hs hr hres)
      change mulVec (2 * nHalf a) _ _ i + out.B 0 l i / a.mu0 = _ at e1
      rw [← e3, ← e1, hI']
      change r * _ - _ = 0
      linear_combination (-r) * e2
    · exact le_rfl
  · rw [hagree (show l < a.tauArr.n by omega) (t := a.tauArr.get l) ?_ hi, hagree hl (t := a.tauArr.get l) ?_ hi, sub_self, abs_zero]
    · refine ⟨by rw [bdry_succ], ?_⟩
      have := bdry_lt hacc hl
      rw [bdry_succ] at this
      exact this.le
    · refine ⟨?_, by rw [bdry_succ]⟩
      have := bdry_lt hacc (show l < a.tauArr.n by omega)
      rw [bdry_succ] at this
      exact this.le
  · have h0 : InLayer a 0 0 := ⟨by rw [bdry_zero], by have := bdry_lt hacc hL; rw [bdry_zero] at this; exact this.le⟩
    rw [hagree hL h0 (by omega), hsolU.top i hi, sub_self, abs_zero]
  · rw [hagree (by omega) hend (by omega), hsolU.bot i hi]
    unfold reflected
    have hsum : ∑ j ∈ range (nHalf a), weight E a j * node E a j * rho 0 (node E a i) (node E a j)
          * arrayField a R.I.rescale (R.S.GC 0) (R.S.K 0) (R.S.B 0) Nc P (a.tauArr.n - 1) (bottom a) (nHalf a + j)
        = ∑ j ∈ range (nHalf a), weight E a j * node E a j * rho 0 (node E a i) (node E a j) * U 0 (bottom a) (nHalf a + j) :=
      sum_congr rfl fun j hj => by rw [hagree (show a.tauArr.n - 1 < a.tauArr.n by omega) hend (by have := mem_range.1 hj; omega)]
    rw [hsum, sub_self, abs_zero]

/-- **C129, two runs.** A run whose `np.linalg.eig` is exact, and one whose `np.linalg.eig` returns something else: the results differ by at most what the residuals of the second run
amount to. -/
theorem C129_two_runs (hw : WellPosed E a) (hres : Rescalable a) (h : pydisort E J a = .ok R) {rho : ℕ → ℝ → ℝ → ℝ} (hrho : SurfaceIs a rho)
    (hk : NonnegScattering a (node E a)) (hsf : FairSurface a (node E a) (weight E a) (rho 0)) {κ : ℝ} (hκ : AbsorbsFraction a (node E a) (weight E a) (rho 0) κ) {F : Fields}
    (hF : Evaluates a R F) {E' : Ext} (hq : E'.leggauss = E.leggauss) {J' : Junk} {R' : Solved} (h' : pydisort E' J' a = .ok R') {Nc : ℕ} {P : ℕ → ℕ → ℕ → ℝ}
    (hP : SourceCoeffs R'.I R'.S Nc P) {η δ β : ℝ} (hδ : 0 ≤ δ)
    (hS : SmallResiduals a (node E a) (weight E a) (rho 0) R'.I.rescale (R'.S.GC 0) (R'.S.K 0) (R'.S.B 0) Nc P η δ β) {tau : A1 ℝ} (ht : InRange a tau) :
    (∃ A, R'.u0 tau false = .ok A ∧ A.r = 2 * nHalf a ∧ A.c = tau.n ∧
      ∀ i < 2 * nHalf a, ∀ k < tau.n, |A.get i k - F.u0 (tau.get k) i| ≤ errorBound a.tauArr.n κ η δ β) ∧
    (∃ f, R'.fluxUp tau false = .ok f ∧ f.n = tau.n ∧ ∀ k < tau.n, |f.get k - F.up (tau.get k)| ≤ Real.pi * errorBound a.tauArr.n κ η δ β) ∧
    ∃ f D flag, R'.fluxDown tau false = .ok (f, D, flag) ∧ f.n = tau.n ∧ ∀ k < tau.n,
      |f.get k + D.get (if flag = true then k else 0) - (F.diffuse (tau.get k) + F.direct (tau.get k))| ≤ Real.pi * errorBound a.tauArr.n κ η δ β := by
  have hnode : node E' a = node E a := by unfold node; rw [hq]
  have hweight : weight E' a = weight E a := by unfold weight; rw [hq]
  have hg' : GaussContract E' (nHalf a) := ⟨by rw [hq]; exact hw.gauss.node, by rw [hq]; exact hw.gauss.weight, by rw [hq]; exact hw.gauss.exact⟩
  obtain ⟨U, hU, _⟩ := C02_modes_solve_transfer_equation h hw.sound hres
  have hsol := modes_isSolution h hw.sound hres hw.bottomBC hw.topBC hrho hU (nFourier_pos h hw.sound)
  obtain ⟨⟨A, hA, a1, a2, a3⟩, ⟨f, hf, f1, f2⟩, g, D, fl, hgd, g1, g2⟩ := C129_inexact_linear_algebra h' hg' hw.peak hres (by rw [hnode]; exact hk)
    (rho := rho 0) (by rw [hnode, hweight]; exact hsf) (κ := κ) (by rw [hnode, hweight]; exact hκ) (V := U 0) (by rw [hnode, hweight]; exact hsol) hP hδ
    (by rw [hnode, hweight]; exact hS) ht
  rw [hnode, hweight] at f2 g2
  have hfield := fun k (hk' : k < tau.n) => evaluates_unique hF (evaluates h hres hU) (ht k hk').1 (ht k hk').2
  refine ⟨⟨A, hA, a1, a2, fun i hi k hk' => ?_⟩, ⟨f, hf, f1, fun k hk' => ?_⟩, g, D, fl, hgd, g1, fun k hk' => ?_⟩
  · rw [(hfield k hk').1 i hi]
    exact a3 i hi k hk'
  · rw [(hfield k hk').2.1]
    exact f2 k hk'
  · obtain ⟨l1, l2⟩ := layOf_spec hw.accepted (ht k hk').1 (ht k hk').2
    have := g2 k hk' _ l1 l2
    rw [(hfield k hk').2.2.1, (hfield k hk').2.2.2]
    refine le_trans (le_of_eq ?_) this
    simp only [fieldsOf]
    congr 1
    ring

/-! ### The hypotheses are met -/

theorem polyPart_mul (Nc : ℕ) (P : ℕ → ℕ → ℕ → ℝ) (c : ℝ) (l : ℕ) (t : ℝ) (i : ℕ) : polyPart a Nc (fun l p i => c * P l p i) l t i = c * polyPart a Nc P l t i := by
  unfold polyPart; rw [mul_sum]; exact sum_congr rfl fun p _ => by ring

theorem polySlope_mul (Nc : ℕ) (P : ℕ → ℕ → ℕ → ℝ) (c : ℝ) (l : ℕ) (t : ℝ) (i : ℕ) : polySlope a Nc (fun l p i => c * P l p i) l t i = c * polySlope a Nc P l t i := by
  unfold polySlope; rw [mul_sum]; exact sum_congr rfl fun p _ => by ring

theorem arrayField_mul (r : ℝ) (GC : ℕ → ℕ → ℕ → ℝ) (K B : ℕ → ℕ → ℝ) (Nc : ℕ) (P : ℕ → ℕ → ℕ → ℝ) (c : ℝ) (l : ℕ) (t : ℝ) (i : ℕ) :
    arrayField a r (fun l i j => c * GC l i j) K (fun l i => c * B l i) Nc (fun l p i => c * P l p i) l t i = c * arrayField a r GC K B Nc P l t i := by
  unfold arrayField
  have : ∑ j ∈ range (2 * nHalf a), c * GC l i j * Real.exp (K l j * (tauStar a l t - bdryStar a (if j < nHalf a then l else l + 1)))
      = c * ∑ j ∈ range (2 * nHalf a), GC l i j * Real.exp (K l j * (tauStar a l t - bdryStar a (if j < nHalf a then l else l + 1))) := by
    rw [mul_sum]; exact sum_congr rfl fun j _ => by ring
  rw [this, polyPart_mul]
  split_ifs <;> ring

/-- Arrays that are too large by a factor. -/
theorem smallResiduals_mul {mu w : Vec} {rho : ℝ → ℝ → ℝ} {r : ℝ} {GC : ℕ → ℕ → ℕ → ℝ} {K B : ℕ → ℕ → ℝ} {Nc : ℕ} {P : ℕ → ℕ → ℕ → ℝ}
    (h : SmallResiduals a mu w rho r GC K B Nc P 0 0 0) (e : ℝ) {η σ β : ℝ}
    (hη : ∀ l < a.tauArr.n, ∀ i < 2 * nHalf a, |e * beamSource a 0 l (stream (nHalf a) mu i)| ≤ η) (h0 : 0 ≤ η)
    (hσ : ∀ l < a.tauArr.n, ∀ t, InLayer a l t → |e * ((1 - a.omega.get l) / scale a l * source a l t)| ≤ σ) (ht : ∀ i < nHalf a, |e * bcVal a.bneg 0 i| ≤ β)
    (hb : ∀ i < nHalf a, |e * (bcVal a.bpos 0 i + if 0 < a.bdrf.length then a.mu0 * a.I0 / Real.pi * rho (mu i) a.mu0 * Real.exp (-bdryStar a a.tauArr.n / a.mu0) else 0)| ≤ β) :
    SmallResiduals a mu w rho r (fun l i j => (1 + e) * GC l i j) K (fun l i => (1 + e) * B l i) Nc (fun l p i => (1 + e) * P l p i) (η + σ) 0 β := by
  have zero : ∀ {x : ℝ}, |x| ≤ 0 → x = 0 := fun hx => abs_eq_zero.1 (le_antisymm hx (abs_nonneg _))
  refine ⟨h.downward, h.upward, fun l hl t hin i hi => ?_, fun l hl i hi => ?_, fun i hi => ?_, fun i hi => ?_⟩
  · have hE := h.eig l hl t hin i hi
    have hsum : ∀ x : ℕ → ℝ, ∑ q ∈ range (2 * nHalf a), streamW (nHalf a) w q * kernel a 0 l (stream (nHalf a) mu i) (stream (nHalf a) mu q) * ((1 + e) * x q)
        = (1 + e) * ∑ q ∈ range (2 * nHalf a), streamW (nHalf a) w q * kernel a 0 l (stream (nHalf a) mu i) (stream (nHalf a) mu q) * x q := fun x => by
      rw [mul_sum]; exact sum_congr rfl fun q _ => by ring
    simp only [polyPart_mul, polySlope_mul, hsum]
    have h1 : 0 ≤ |r| * ∑ j ∈ range (2 * nHalf a), |GC l i j - ∑ q ∈ range (2 * nHalf a), streamW (nHalf a) w q
        * kernel a 0 l (stream (nHalf a) mu i) (stream (nHalf a) mu q) * GC l q j - stream (nHalf a) mu i * K l j * GC l i j| := by positivity
    have h2 : |r| * ∑ j ∈ range (2 * nHalf a), |(1 + e) * GC l i j - (1 + e) * ∑ q ∈ range (2 * nHalf a), streamW (nHalf a) w q
        * kernel a 0 l (stream (nHalf a) mu i) (stream (nHalf a) mu q) * GC l q j - stream (nHalf a) mu i * K l j * ((1 + e) * GC l i j)| = |1 + e| * (|r|
          * ∑ j ∈ range (2 * nHalf a), |GC l i j - ∑ q ∈ range (2 * nHalf a), streamW (nHalf a) w q
        * kernel a 0 l (stream (nHalf a) mu i) (stream (nHalf a) mu q) * GC l q j - stream (nHalf a) mu i * K l j * GC l i j|) := by
      rw [mul_left_comm]
      congr 1
      rw [mul_sum]
      refine sum_congr rfl fun j _ => ?_
      rw [← abs_mul]; congr 1; ring
    rw [h2]
    set Y := polyPart a Nc P l t i
    set S5 := ∑ q ∈ range (2 * nHalf a), streamW (nHalf a) w q * kernel a 0 l (stream (nHalf a) mu i) (stream (nHalf a) mu q) * polyPart a Nc P l t q
    set Z := polySlope a Nc P l t i
    set W := (1 - a.omega.get l) / scale a l * source a l t with hW
    have h5 := abs_nonneg (r * (Y - S5 - stream (nHalf a) mu i * Z) - W)
    have h6 : ∀ hz : r * (Y - S5 - stream (nHalf a) mu i * Z) - W = 0, |r * ((1 + e) * Y - (1 + e) * S5 - stream (nHalf a) mu i * ((1 + e) * Z)) - W| ≤ σ := by
      intro hz
      refine le_trans (le_of_eq ?_) (hσ l hl t hin)
      congr 1
      linear_combination (1 + e) * hz
    by_cases hI : 0 < a.I0
    · rw [if_pos hI] at hE ⊢
      have h3 := abs_nonneg (r * ((1 + stream (nHalf a) mu i / a.mu0) * B l i - ∑ q ∈ range (2 * nHalf a), streamW (nHalf a) w q
          * kernel a 0 l (stream (nHalf a) mu i) (stream (nHalf a) mu q) * B l q) - beamSource a 0 l (stream (nHalf a) mu i))
      rw [le_antisymm (by linarith) h1, mul_zero, zero_add]
      have h4 := zero (by linarith : |r * ((1 + stream (nHalf a) mu i / a.mu0) * B l i - ∑ q ∈ range (2 * nHalf a), streamW (nHalf a) w q
          * kernel a 0 l (stream (nHalf a) mu i) (stream (nHalf a) mu q) * B l q) - beamSource a 0 l (stream (nHalf a) mu i)| ≤ 0)
      refine add_le_add (le_trans (le_of_eq ?_) (hη l hl i hi)) (h6 (zero (by linarith)))
      congr 1
      linear_combination (1 + e) * h4
    · rw [if_neg hI, add_zero] at hE ⊢
      rw [le_antisymm (by linarith) h1, mul_zero]
      exact add_le_add h0 (h6 (zero (by linarith)))
  · rw [arrayField_mul, arrayField_mul, ← mul_sub, zero (h.mid l hl i hi), mul_zero, abs_zero]
  · rw [arrayField_mul, sub_eq_zero.1 (zero (h.top i hi))]
    refine le_trans (le_of_eq ?_) (ht i hi)
    congr 1; ring
  · simp only [arrayField_mul]
    rw [sub_eq_zero.1 (zero (h.bot i hi))]
    refine le_trans (le_of_eq ?_) (hb i hi)
    congr 1
    split_ifs
    · unfold reflected
      have : ∑ j ∈ range (nHalf a), w j * mu j * rho (mu i) (mu j) * ((1 + e) * arrayField a r GC K B Nc P (a.tauArr.n - 1) (bottom a) (nHalf a + j))
          = (1 + e) * ∑ j ∈ range (nHalf a), w j * mu j * rho (mu i) (mu j) * arrayField a r GC K B Nc P (a.tauArr.n - 1) (bottom a) (nHalf a + j) := by
        rw [mul_sum]; exact sum_congr rfl fun j _ => by ring
      rw [this]; ring
    · ring

/-- The hypotheses are met, for every number of streams, with a beam, an internal source, light from above and below and a reflecting surface: by the arrays of the code, and by arrays
that are all too large by the factor `1 + e`. -/
example {n : ℕ} (hn : 0 < n) (J : Junk) (e : ℝ) : ∃ (x : ℝ) (R : Solved) (F : Fields) (S : Sols) (P : ℕ → ℕ → ℕ → ℝ) (η β : ℝ), ∀ a, a = demoMild n x →
    WellPosed refExt a ∧ Rescalable a ∧ ¬ NoSource a ∧ pydisort refExt J a = .ok R ∧ Evaluates a R F ∧ SurfaceIs a (fun _ _ _ => 1 / 3) ∧ NonnegScattering a (node refExt a)
    ∧ FairSurface a (node refExt a) (weight refExt a) (fun _ _ => 1 / 3)
    ∧ AbsorbsFraction a (node refExt a) (weight refExt a) (fun _ _ => 1 / 3) (1 / 4)
    ∧ (S.GC = fun m l i j => (1 + e) * R.S.GC m l i j) ∧ SourceCoeffs R.I S R.I.Nscoeffs P
    ∧ SmallResiduals a (node refExt a) (weight refExt a) (fun _ _ => 1 / 3) R.I.rescale (S.GC 0) (S.K 0) (S.B 0) R.I.Nscoeffs P η 0 β := by
  obtain ⟨x, h0, h1, hw⟩ := demoMild_wellPosed hn
  set a := demoMild n x with ha
  have hns : ¬ NoSource a := fun hc => by
    have := hc 0 (by change 0 < 2; norm_num) 0 (by change 0 < 2; norm_num)
    exact one_ne_zero this
  have hres : Rescalable a := Or.inl (Or.inl one_pos)
  obtain ⟨R, hR⟩ := pydisort_isOk hw J
  obtain ⟨F, hF⟩ := evaluates_exists hR hw.sound hres
  have hrho : SurfaceIs a (fun _ _ _ => 1 / 3) := fun m _ => demo_rho (n := n) x m
  obtain ⟨P, hP⟩ := exists_sourceCoeffs hR R.S
  have hex := C129_exact_has_no_residuals hw hres hR hP hrho
  have hbd : ∀ (f : ℕ → ℝ) (m : ℕ), ∃ K, 0 ≤ K ∧ ∀ i < m, |f i| ≤ K := fun f m =>
    ⟨∑ i ∈ range m, |f i|, sum_nonneg fun _ _ => abs_nonneg _, fun i hi => single_le_sum (f := fun i => |f i|) (fun _ _ => abs_nonneg _) (mem_range.2 hi)⟩
  choose Ks hKs0 hKs using fun l => hbd (fun i => e * beamSource a 0 l (stream (nHalf a) (node refExt a) i)) (2 * nHalf a)
  obtain ⟨Kb, hKb0, hKb⟩ := hbd Ks a.tauArr.n
  obtain ⟨β₁, hβ₁, hb1⟩ := hbd (fun i => e * bcVal a.bneg 0 i) (nHalf a)
  obtain ⟨β₂, hβ₂, hb2⟩ := hbd (fun _ => e * (bcVal a.bpos 0 0 + if 0 < a.bdrf.length then a.mu0 * a.I0 / Real.pi * (1 / 3) * Real.exp (-bdryStar a a.tauArr.n / a.mu0) else 0)) 1
  have hh : nHalf (demoMild n x) = n := demo_nHalf x
  have hg : GaussContract refExt (nHalf (demoMild n x)) := by rw [hh]; exact refExt_gauss hn
  have hp : ∀ {l : ℕ}, l < a.tauArr.n → peak a l = 1 / 8 := fun hl => demo_peak (n := n) (x := x) hl
  have hv : ∀ l, a.omega.get l = 1 / 2 ∨ a.omega.get l = 3 / 4 := fun l => by
    change (if l = 0 then (1 : ℝ) / 2 else 3 / 4) = _ ∨ (if l = 0 then (1 : ℝ) / 2 else 3 / 4) = _
    split_ifs <;> simp
  have hsrc : ∀ l < a.tauArr.n, ∀ t, InLayer a l t → |e * ((1 - a.omega.get l) / scale a l * source a l t)| ≤ |e| * 3 := by
    intro l hl t ht
    have hr' := range_of_layer hw.accepted hl ht
    have ht2 : t ≤ 2 := by
      have : bottom a = 2 := by
        change (((2 - 1 : ℕ) : ℝ)) + 1 = 2
        norm_num
      rw [← this]; exact hr'.2
    have hsv : source a l t = 1 + t := by
      unfold source
      rw [if_pos (by exact hl)]
      change ∑ k ∈ range 2, (1 : ℝ) * t ^ k = 1 + t
      rw [sum_range_succ, sum_range_succ, sum_range_zero]; ring
    rw [abs_mul, hsv]
    refine mul_le_mul_of_nonneg_left ?_ (abs_nonneg e)
    unfold scale
    rw [hp hl, abs_le]
    rcases hv l with hv | hv <;> rw [hv] <;> norm_num <;> constructor <;> linarith [hr'.1]
  refine ⟨x, R, F, ⟨R.S.G, R.S.K, fun m l i => (1 + e) * R.S.B m l i, fun l i => (1 + e) * R.S.Gim l i, fun m l i j => (1 + e) * R.S.GC m l i j⟩, fun l p i => (1 + e) * P l p i,
    Kb + |e| * 3, max β₁ β₂, ?_⟩
  rintro b rfl
  refine ⟨hw, hres, hns, hR, hF, hrho, demoMild_scattering hn x, demoMild_surface hn, ⟨by norm_num, fun l hl => ?_, fun i hi => ?_⟩, rfl, fun l hl i hi T => ?_,
    smallResiduals_mul hex e (fun l hl i hi => (hKs l i hi).trans ((le_abs_self _).trans (hKb l hl))) hKb0 hsrc
      (fun i hi => (hb1 i hi).trans (le_max_left _ _)) fun i hi => (hb2 0 one_pos).trans (le_max_right _ _)⟩
  · have ho : 0 ≤ omegaStar a l ∧ omegaStar a l ≤ 3 / 4 := by
      unfold omegaStar scale
      rw [hp hl]
      rcases hv l with hv | hv <;> rw [hv] <;> norm_num
    unfold effAlbedo
    split_ifs <;> linarith [ho.1, ho.2]
  · have hrefl : reflectance a (node refExt a) (weight refExt a) (fun _ _ => 1 / 3) (node refExt a i) = 1 / 3 := by
      unfold reflectance
      rw [if_pos (by change 0 < 1; exact one_pos)]
      change 2 * ∑ j ∈ range (nHalf (demoMild n x)), weight refExt (demoMild n x) j * node refExt (demoMild n x) j * (1 / 3) = 1 / 3
      rw [← sum_mul, sum_weight_node hg (by rw [hh]; exact hn)]
      norm_num
    rw [hrefl]; norm_num
  · have h1 := hP l hl i hi T
    have h2 : ∑ p ∈ range R.I.Nscoeffs, (1 + e) * P l p i * T ^ p = (1 + e) * ∑ p ∈ range R.I.Nscoeffs, P l p i * T ^ p := by
      rw [mul_sum]; exact sum_congr rfl fun p _ => by ring
    change ∑ p ∈ range R.I.Nscoeffs, (1 + e) * P l p i * T ^ p = _
    rw [h2, h1]
    by_cases hiso : R.I.iso = true
    · rw [if_pos hiso, if_pos hiso]
      have hNc : 0 < R.I.Nscoeffs := by
        obtain ⟨_, O, r, _, _, hI, _⟩ := pydisort_ok hR
        rw [hI]
        exact Args.iso_iff.2 hns
      rw [mathscrV_eq hNc, mathscrV_eq hNc, mul_sum]
      exact sum_congr rfl fun k _ => by ring
    · rw [if_neg hiso, if_neg hiso, mul_zero]

end Pydisort

import Verif.Model.IntLeg
import Verif.Props.Corrections
import Verif.FullLemmas

/-!
# Property C130: Legendre coefficients passed as integers
-/

namespace Pydisort
open Finset Spec

variable {E : Ext} {J : Junk} {a : Args} {R : Solved}

theorem truncZ_of_mem {x : ℝ} (h0 : 0 ≤ x) (h1 : x < 1) : truncZ x = 0 := by
  unfold truncZ
  rw [if_pos h0, Int.floor_eq_zero_iff]
  exact ⟨h0, h1⟩

namespace NTIn
variable (I : NTIn)

/-- The correction at one stream, layer, depth and azimuth. -/
noncomputable def corrValInt (anti : Bool) (i l : ℕ) (t ph : ℝ) : ℝ :=
  I.tmsVal anti i l (I.st l t) (nuVal (I.muArr i) ph (-I.mu0) I.phi0)
    + if i < I.N then 0
      else I.imsFacInt (nuVal (-I.mu (i - I.N)) ph (-I.mu0) I.phi0) * imsChi anti (I.mu (i - I.N)) I.scaledMu0 t

theorem imsInt_returns {tau : A1 ℝ} {phi : A1 ℝ} (anti : Bool) (h : I.N ≠ 1 ∨ phi.n = 1) :
    Spec.Returns3 (I.imsInt tau phi anti) I.N tau.n phi.n (fun i t p =>
      I.imsFacInt (nuVal (-I.mu i) (phi.get p) (-I.mu0) I.phi0) * imsChi anti (I.mu i) I.scaledMu0 (tau.get t)) := by
  obtain ⟨A, h1, h2, h3, h4⟩ := nu2d (mu := ⟨I.N, fun i => -I.mu i⟩) (phi := phi) (-I.mu0) I.phi0 h
  unfold imsInt nuIMS
  rw [h1]
  have e : A.r = I.N := h2
  simp only [bind, Except.bind, e, bdim_self]
  refine ⟨_, rfl, rfl, rfl, h3, fun i hi t _ p hp => ?_⟩
  simp only
  rw [bix_of_lt hi, h4 i hi p hp]

theorem corrInt_returns (hN : 0 < I.N) {tau phi : A1 ℝ} (anti : Bool) (l : ℕ → ℕ) (ht : tau.n ≠ 0)
    (h : I.N ≠ 1 ∨ phi.n = 1) :
    Spec.Returns3 (I.corrInt tau phi anti l) (2 * I.N) tau.n phi.n (fun i t p =>
      I.corrValInt anti i (l t) (tau.get t) (phi.get p)) := by
  obtain ⟨A, h1, h2, h3, h4, h5⟩ := I.tms_returns hN phi anti l ht
  obtain ⟨B, g1, g2, g3, g4, g5⟩ := I.imsInt_returns (tau := tau) anti h
  unfold corrInt
  rw [h1, g1]
  simp only [bind, Except.bind, g2, g4, h4, bdim_self, and_self, if_true]
  refine ⟨_, rfl, h2, h3, rfl, fun i hi t ht p hp => ?_⟩
  unfold corrValInt
  beta_reduce
  simp only
  split_ifs with hin
  · rw [h5 i hi t ht p hp, add_zero]
  · rw [h5 i hi t ht p hp, bix_of_lt (by omega), bix_of_lt hp, g5 (i - I.N) (by omega) t ht p hp]

end NTIn

/-- What `u` returns, with or without corrections. -/
theorem uIntLeg_returns (h : pydisort E J a = .ok R) (hf : a.onlyFlux = false) {tau phi : A1 ℝ} (ht : InRange a tau)
    (hnt : a.NTcor = true → tau.n ≠ 0 ∧ (nHalf a ≠ 1 ∨ phi.n = 1)) :
    Returns3 (R.uIntLeg tau phi false) (2 * nHalf a) tau.n phi.n (fun i t p =>
      (∑ m ∈ range (nFourier a), (R.I.rescale * R.I.val R.S m (tau.get t) i) * Real.cos ((m : ℝ) * (a.phi0 - phi.get p)))
        + (match R.nt with
          | some n => R.I.rescale * n.corrValInt false i (R.I.layer (tau.get t)) (tau.get t) (phi.get p)
          | none => 0)) := by
  obtain ⟨hacc, O, r, hO, hr, hI, hsol, hof, hg1, hg2⟩ := pydisort_ok h
  have hN : R.I.N = nHalf a := by rw [hI]; rfl
  have hp : R.I.phi0 = a.phi0 := by rw [hI]; rfl
  have hF : R.I.NFourier = nFourier a := by rw [hI, ← nFourier_eq (a := a)]; rfl
  obtain ⟨A, h1, h2, h3, h4, h5⟩ := R.I.u_plain R.S phi (checkTau_of_inRange h ht)
  rw [hN] at h2
  rw [hN, hF, hp] at h5
  unfold Solved.uIntLeg
  rw [hof, hf]
  simp only [Bool.false_eq_true, if_false]
  by_cases hg : a.NTGate
  · rw [hg1 hg]
    simp only
    obtain ⟨hn1, hn2⟩ := hnt hg.1
    have hNt : (a.ntIn (node E a) O r).N = nHalf a := rfl
    have hNpos : 0 < nHalf a := by
      have := hacc.streams.1
      unfold nHalf; omega
    obtain ⟨B, g1, g2, g3, g4, g5⟩ := (a.ntIn (node E a) O r).corrInt_returns (by rw [hNt]; exact hNpos) (tau := tau)
      (phi := phi) false (fun t => R.I.layer (tau.get t)) hn1 (by rw [hNt]; exact hn2)
    rw [hNt] at g2 g5
    unfold Solved.uCorrectedIntLeg Solved.uUncorrected
    rw [h1, g1]
    simp only [bind, Except.bind, addSqueezed]
    rw [if_pos ⟨by omega, by omega, by omega⟩]
    refine ⟨_, rfl, h2, h3, h4, fun i hi t ht p hp => ?_⟩
    simp only
    rw [h5 i hi t ht p hp, g5 i hi t ht p hp]
  · rw [hg2 hg]
    refine ⟨A, h1, h2, h3, h4, fun i hi t ht p hp => ?_⟩
    rw [h5 i hi t ht p hp]
    beta_reduce
    simp only [add_zero]

/-- `χ` is positive below the top. -/
theorem chi_pos {mu s : ℝ} {chi : ℝ → ℝ} (h : IsChi mu s chi) (hmu : 0 < mu) (hs : 0 < s) {t : ℝ} (ht : 0 < t) : 0 < chi t := by
  have hd : ∀ x, HasDerivAt (fun x => chi x * Real.exp (x / mu)) (x / s * Real.exp (-x / s) * Real.exp (x / mu) / mu) x := by
    intro x
    obtain ⟨d, h1, h2⟩ := h.2 x
    have h3 : HasDerivAt (fun x : ℝ => Real.exp (x / mu)) (Real.exp (x / mu) * (1 / mu)) x := ((hasDerivAt_id x).div_const mu).exp
    refine (h1.fun_mul h3).congr_deriv ?_
    rw [← h2]
    field_simp
  have hm : StrictMonoOn (fun x => chi x * Real.exp (x / mu)) (Set.Ici 0) := by
    refine strictMonoOn_of_deriv_pos (convex_Ici 0) (fun x _ => (hd x).continuousAt.continuousWithinAt) fun x hx => ?_
    rw [interior_Ici] at hx
    have hx : 0 < x := hx
    rw [(hd x).deriv]
    positivity
  have h1 := hm (Set.mem_Ici.2 le_rfl) (Set.mem_Ici.2 ht.le) ht
  simp only [h.1, zero_mul] at h1
  exact pos_of_mul_pos_left h1 (Real.exp_pos _).le

/-! ## C130 -/

/-- **C130, without corrections.** After a call with integer Legendre coefficients `u` returns what it returns after a call with the same coefficients as floats, for all depths and azimuths and
for antiderivatives too, if the corrections are not active. -/
theorem C130_uncorrected_partial {L : A2 ℤ} (h : pydisort E J (a.withIntLeg L) = .ok R) (hc : ¬ Corrected (a.withIntLeg L))
    (tau phi : A1 ℝ) (anti : Bool) : R.uIntLeg tau phi anti = R.u tau phi anti := by
  obtain ⟨hacc, O, r, hO, hr, hI, hsol, hof, hg1, hg2⟩ := pydisort_ok h
  unfold Solved.uIntLeg Solved.u
  by_cases hof' : R.onlyFlux = true
  · rw [if_pos hof', if_pos hof']
  · rw [if_neg hof', if_neg hof']
    rw [hg2 (fun hg => hc ((corrected_iff hacc).1 hg))]

/-- **C130, upward streams.** Intensities of upward streams are not affected. -/
theorem C130_upward_partial {L : A2 ℤ} (h : pydisort E J (a.withIntLeg L) = .ok R) (hf : a.onlyFlux = false) {tau phi : A1 ℝ} (ht : InRange a tau)
    (hnt : a.NTcor = true → tau.n ≠ 0 ∧ (nHalf a ≠ 1 ∨ phi.n = 1)) : ∃ A B, R.uIntLeg tau phi false = .ok A ∧ R.u tau phi false = .ok B ∧
      A.d0 = B.d0 ∧ A.d1 = B.d1 ∧ A.d2 = B.d2 ∧ ∀ i < nHalf a, ∀ t < tau.n, ∀ p < phi.n, A.get i t p = B.get i t p := by
  obtain ⟨A, h1, h2, h3, h4, h5⟩ := uIntLeg_returns h hf (tau := tau) (phi := phi) ht hnt
  obtain ⟨B, g1, g2, g3, g4, g5⟩ := u_returns h hf (tau := tau) (phi := phi) ht hnt
  refine ⟨A, B, h1, g1, h2.trans g2.symm, h3.trans g3.symm, h4.trans g4.symm, fun i hi t htt p hp => ?_⟩
  have hi' : i < 2 * nHalf (a.withIntLeg L) := by change i < 2 * nHalf a; omega
  rw [h5 i hi' t htt p hp, g5 i hi' t htt p hp]
  rcases hn : R.nt with _ | n
  · rfl
  · have hN : n.N = nHalf a := by
      obtain ⟨hacc, O, r, hO, hr, hI, hsol, hof, hg1, hg2⟩ := pydisort_ok h
      by_cases hg : (a.withIntLeg L).NTGate
      · rw [hg1 hg, Option.some.injEq] at hn
        rw [← hn]; rfl
      · rw [hg2 hg] at hn; cases hn
    simp only
    unfold NTIn.corrValInt NTIn.corrVal
    rw [hN, if_pos hi, if_pos hi]

theorem peak_mem {L : A2 ℤ} (h : pydisort E J (a.withIntLeg L) = .ok R) (l : ℕ) : 0 ≤ peak a l := by
  unfold peak
  split_ifs with hl
  · exact ((pydisort_ok h).1.peak l hl).1
  · exact le_rfl

/-- An integer between -1 and 1 is zero. -/
theorem intLeg_zero {L : A2 ℤ} (h : pydisort E J (a.withIntLeg L) = .ok R) {l k : ℕ} (hl : l < a.tauArr.n) (hk : k < L.c) (hk1 : 1 ≤ k) :
    leg (a.withIntLeg L) l k = 0 := by
  have := (pydisort_ok h).1.legVal l hl k hk hk1
  have h2 : (-1 : ℝ) < (L.get l k : ℝ) ∧ (L.get l k : ℝ) < 1 := this
  have h3 : (-1 : ℤ) < L.get l k := by exact_mod_cast h2.1
  have h4 : L.get l k < 1 := by exact_mod_cast h2.2
  have h5 : L.get l k = 0 := by omega
  unfold leg
  rw [if_neg (by omega)]
  change ((L.get l k : ℤ) : ℝ) = 0
  rw [h5, Int.cast_zero]

theorem nLeg_pos' (hacc : Accepted a) : 0 < nLeg a := by
  have := hacc.nLeg.1
  unfold nLeg; omega

/-- With integer coefficients the correction for secondary scattering vanishes. -/
theorem imsFacInt_zero {L : A2 ℤ} (h : pydisort E J (a.withIntLeg L) = .ok R) {r : ℝ} {n : NTIn} (H : NTSpec E (a.withIntLeg L) r n)
    (hf : ∀ l < a.tauArr.n, peak a l < 1) (x : ℝ) : n.imsFacInt x = 0 := by
  have hp := nLeg_pos' (pydisort_ok h).1
  have e : ∀ j < n.NLegAll, n.residueAvgInt j = 0 := by
    intro j hj
    unfold NTIn.residueAvgInt
    rw [H.NLayers, H.NLeg, H.omega, sum_eq_zero, zero_div]
    intro k hk
    have hk : k < a.tauArr.n := mem_range.1 hk
    rw [H.f k hk]
    split_ifs with hjn
    · have e : truncZ (peak (a.withIntLeg L) k) = 0 := truncZ_of_mem (peak_mem h k) (hf k hk)
      rw [e, Int.cast_zero]; ring
    · by_cases hw : (a.withIntLeg L).omega.get k = 0
      · rw [hw]; ring
      · rw [H.legAll k hk j hw, intLeg_zero h hk (by rw [H.NLegAll] at hj; exact hj) (by omega)]; ring
  unfold NTIn.imsFacInt legSeries
  rw [sum_eq_zero, mul_zero]
  intro k hk
  simp only [e k (mem_range.1 hk)]; ring

/-- The polynomial `∑_{k<n} (2k+1) P_k` does not vanish for all azimuths, unless the beam or the stream is vertical. -/
theorem exists_azimuth {n : ℕ} (hn : 0 < n) (c p0 : ℝ) {s : ℝ} (hs : s ≠ 0) :
    ∃ ph, ∑ k ∈ range n, (2 * (k : ℝ) + 1) * (legendreP k).eval (c + s * Real.cos (p0 - ph)) ≠ 0 := by
  set q : Polynomial ℝ := ∑ k ∈ range n, Polynomial.C (2 * (k : ℝ) + 1) * legendreP k with hq
  have hev : ∀ x, q.eval x = ∑ k ∈ range n, (2 * (k : ℝ) + 1) * (legendreP k).eval x := by
    intro x
    rw [hq, Polynomial.eval_finset_sum]
    exact sum_congr rfl fun k _ => by rw [Polynomial.eval_mul, Polynomial.eval_C]
  have hq0 : q ≠ 0 := by
    intro h0
    have h1 := hev 1
    rw [h0, Polynomial.eval_zero] at h1
    have h2 : 0 < ∑ k ∈ range n, (2 * (k : ℝ) + 1) * (legendreP k).eval 1 := by
      refine sum_pos (fun k _ => ?_) ⟨0, mem_range.2 hn⟩
      rw [legendreP_eval_one]; positivity
    linarith
  have hinf : ((fun y : ℝ => c + s * y) '' Set.Icc (-1) 1).Infinite := by
    refine (Set.Icc_infinite (by norm_num)).image fun x _ y _ hxy => ?_
    have : s * x = s * y := by simpa using hxy
    exact mul_left_cancel₀ hs this
  obtain ⟨_, ⟨y, hy, rfl⟩, hx⟩ := (hinf.diff q.roots.toFinset.finite_toSet).nonempty
  refine ⟨p0 - Real.arccos y, fun h0 => hx ?_⟩
  rw [sub_sub_cancel, Real.cos_arccos hy.1 hy.2, ← hev] at h0
  simp only [coe_sort_coe, mem_coe, Multiset.mem_toFinset]
  exact (Polynomial.mem_roots hq0).2 h0

/-- **C130, what integers change.** With active corrections and fractions less than 1, the intensities of downward streams after a call with integer coefficients are those after a call with floats less
the whole correction for secondary scattering; those of upward streams agree. -/
theorem C130_difference {L : A2 ℤ} (h : pydisort E J (a.withIntLeg L) = .ok R) (hc : Corrected (a.withIntLeg L))
    (hf : ∀ l < a.tauArr.n, peak a l < 1) {tau phi : A1 ℝ} (ht : InRange a tau) (hne : tau.n ≠ 0) (hN1 : nHalf a ≠ 1 ∨ phi.n = 1) :
    ∃ A B, R.uIntLeg tau phi false = .ok A ∧ R.u tau phi false = .ok B ∧ A.d0 = B.d0 ∧ A.d1 = B.d1 ∧ A.d2 = B.d2 ∧
      ∀ i < 2 * nHalf a, ∀ t < tau.n, ∀ p < phi.n, A.get i t p = B.get i t p - if i < nHalf a then 0
        else imsStrength (a.withIntLeg L) (-node E a (i - nHalf a)) (phi.get p) * imsChi false (node E a (i - nHalf a)) (scaledMu0 a) (tau.get t) := by
  obtain ⟨n, hn, H⟩ := ntSpec h hc
  have hacc := (pydisort_ok h).1
  obtain ⟨A, h1, h2, h3, h4, h5⟩ := uIntLeg_returns h hc.2.1 (tau := tau) (phi := phi) ht fun _ => ⟨hne, hN1⟩
  obtain ⟨B, g1, g2, g3, g4, g5⟩ := u_returns h hc.2.1 (tau := tau) (phi := phi) ht fun _ => ⟨hne, hN1⟩
  refine ⟨A, B, h1, g1, h2.trans g2.symm, h3.trans g3.symm, h4.trans g4.symm, fun i hi t htt p hp => ?_⟩
  rw [h5 i hi t htt p hp, g5 i hi t htt p hp, hn]
  simp only
  have hN : n.N = nHalf a := H.N
  unfold NTIn.corrValInt NTIn.corrVal
  rw [hN]
  split_ifs with hin
  · ring
  · rw [imsFacInt_zero h H hf, mul_add, mul_add, zero_mul, mul_zero, ← mul_assoc, imsFac_eq H hacc hc, scaledMu0_eq H hacc hc, H.mu]
    change _ + (_ + 0) = _ + (_ + imsStrength (a.withIntLeg L) (-node E a (i - nHalf a)) (phi.get p)
      * imsChi false (node E a (i - nHalf a)) (scaledMu0 a) (tau.get t)) - _
    ring

/-- **C130 is false for downward streams.** Whenever the corrections are active, with fractions less than 1 one of which belongs to a scattering layer, and beam not vertical: at every depth below the top and for every downward stream
there is an azimuth at which `u` returns something else after a call with integer coefficients than after a call with the same coefficients as floats. -/
theorem C130_false {L : A2 ℤ} (h : pydisort E J (a.withIntLeg L) = .ok R) (hc : Corrected (a.withIntLeg L)) (hg : GaussContract E (nHalf a))
    (hf : ∀ l < a.tauArr.n, peak a l < 1) (hp : ∃ l < a.tauArr.n, peak a l * a.omega.get l ≠ 0) (hmu : a.mu0 < 1)
    {j : ℕ} (hj : j < nHalf a) (hs : node E a j ≠ scaledMu0 a) {t : ℝ} (ht0 : 0 < t) (ht1 : t ≤ bottom a) :
    ∃ ph A B, R.uIntLeg ⟨1, fun _ => t⟩ ⟨1, fun _ => ph⟩ false = .ok A ∧ R.u ⟨1, fun _ => t⟩ ⟨1, fun _ => ph⟩ false = .ok B ∧
      A.d0 = B.d0 ∧ A.d1 = B.d1 ∧ A.d2 = B.d2 ∧ A.get (nHalf a + j) 0 0 ≠ B.get (nHalf a + j) 0 0 := by
  have hacc := (pydisort_ok h).1
  have hm0 := mu0_pos_of h hc
  change 0 < a.mu0 at hm0
  have hnode := node_pos hg hj
  have hs0 : Real.sqrt (1 - (-node E a j) ^ 2) * Real.sqrt (1 - a.mu0 ^ 2) ≠ 0 := by
    have h1 : 0 < 1 - (-node E a j) ^ 2 := by nlinarith
    have h2 : 0 < 1 - a.mu0 ^ 2 := by nlinarith
    exact (mul_pos (Real.sqrt_pos.2 h1) (Real.sqrt_pos.2 h2)).ne'
  obtain ⟨ph, hph⟩ := exists_azimuth (nLeg_pos' hacc) (-node E a j * -a.mu0) a.phi0 hs0
  obtain ⟨A, B, h1, h2, h3, h4, h5, h6⟩ := C130_difference h hc hf (tau := ⟨1, fun _ => t⟩) (phi := ⟨1, fun _ => ph⟩)
    (fun _ _ => ⟨ht0.le, ht1⟩) one_ne_zero (Or.inr rfl)
  refine ⟨ph, A, B, h1, h2, h3, h4, h5, ?_⟩
  rw [h6 _ (by omega) 0 one_pos 0 one_pos, if_neg (by omega), Nat.add_sub_cancel_left]
  simp only
  have hw : 0 < weighted a (peak a) := by
    obtain ⟨l, hl, hne⟩ := hp
    have hpos : ∀ k, k < a.tauArr.n → 0 < a.tauArr.get k := by
      intro k
      induction k with
      | zero => intro _; exact hacc.top
      | succ k ih => intro hk; exact (ih (by omega)).trans (hacc.increasing k hk)
    have hnn : ∀ k < a.tauArr.n, 0 ≤ peak a k * a.omega.get k := fun k hk => mul_nonneg (peak_mem h k) (hacc.omega k hk).1
    exact sum_pos' (fun k hk => mul_nonneg (hnn k (mem_range.1 hk)) (hpos k (mem_range.1 hk)).le)
      ⟨l, mem_range.2 hl, mul_pos (lt_of_le_of_ne (hnn l hl) hne.symm) (hpos l hl)⟩
  have hT : 0 < ∑ k ∈ range a.tauArr.n, a.tauArr.get k := by
    refine sum_pos (fun k hk => ?_) ⟨0, mem_range.2 hacc.layers⟩
    have hpos : ∀ k, k < a.tauArr.n → 0 < a.tauArr.get k := by
      intro k
      induction k with
      | zero => intro _; exact hacc.top
      | succ k ih => intro hk; exact (ih (by omega)).trans (hacc.increasing k hk)
    exact hpos k (mem_range.1 hk)
  have hav : 0 < avgPeak a := div_pos hw hT
  have hav1 : avgPeak (a.withIntLeg L) < 1 := avgPeak_lt_one hacc
  change avgPeak a < 1 at hav1
  have hsm : 0 < scaledMu0 a := div_pos hm0 (by linarith)
  have hchi := chi_pos (C43_chi hnode.1 hsm hs) hnode.1 hsm ht0
  have hstr : imsStrength (a.withIntLeg L) (-node E a j) ph ≠ 0 := by
    have hres : ∀ k < L.c, avgResidue (a.withIntLeg L) k = if k < nLeg a then 1 else 0 := by
      intro k hk
      unfold avgResidue
      by_cases hkn : k < nLeg a
      · rw [if_pos hkn]
        have : (fun l => if k < nLeg (a.withIntLeg L) then peak (a.withIntLeg L) l else leg (a.withIntLeg L) l k) = peak a := by
          funext l; exact if_pos hkn
        rw [this]
        exact div_self hw.ne'
      · rw [if_neg hkn]
        have hz : weighted (a.withIntLeg L) (fun l => if k < nLeg (a.withIntLeg L) then peak (a.withIntLeg L) l else leg (a.withIntLeg L) l k) = 0 := by
          refine sum_eq_zero fun l hl => ?_
          have hl : l < a.tauArr.n := mem_range.1 hl
          have e : (if k < nLeg (a.withIntLeg L) then peak (a.withIntLeg L) l else leg (a.withIntLeg L) l k) = 0 := by
            have hkn' : ¬ k < nLeg (a.withIntLeg L) := hkn
            rw [if_neg hkn']
            exact intLeg_zero h hl hk (by have := nLeg_pos' hacc; omega)
          beta_reduce
          rw [e]; ring
        rw [hz, zero_div]
    have hsum : ∑ k ∈ range L.c, (2 * (k : ℝ) + 1) * (2 * avgResidue (a.withIntLeg L) k - avgResidue (a.withIntLeg L) k ^ 2)
        * (legendreP k).eval (beamCos a (-node E a j) ph)
        = ∑ k ∈ range (nLeg a), (2 * (k : ℝ) + 1) * (legendreP k).eval (beamCos a (-node E a j) ph) := by
      have hle : nLeg a ≤ L.c := hc.2.2.2.2.1.le
      rw [← sum_subset (range_subset_range.2 hle) (f := fun k : ℕ => (2 * (k : ℝ) + 1) * (2 * avgResidue (a.withIntLeg L) k - avgResidue (a.withIntLeg L) k ^ 2)
        * (legendreP k).eval (beamCos a (-node E a j) ph))]
      · refine sum_congr rfl fun k hk => ?_
        have hk := mem_range.1 hk
        rw [hres k (by omega), if_pos hk]; ring
      · intro k hk hk'
        rw [mem_range] at hk hk'
        rw [hres k hk, if_neg hk']; ring
    have hc0 : 0 < a.I0 / (4 * Real.pi) * avgPeak a ^ 2 / (1 - avgPeak a) := by
      have : 0 < a.I0 := hc.2.2.1
      have h2 : 0 < 1 - avgPeak a := by linarith
      have := Real.pi_pos
      positivity
    have hu : imsStrength (a.withIntLeg L) (-node E a j) ph = a.I0 / (4 * Real.pi) * avgPeak a ^ 2 / (1 - avgPeak a)
        * ∑ k ∈ range (nLeg a), (2 * (k : ℝ) + 1) * (legendreP k).eval (beamCos a (-node E a j) ph) := by
      rw [← hsum]; rfl
    rw [hu]
    refine mul_ne_zero hc0.ne' ?_
    exact hph
  intro he
  have h0 : imsStrength (a.withIntLeg L) (-node E a j) ph * imsChi false (node E a j) (scaledMu0 a) t = 0 := by linarith
  exact (mul_ne_zero hstr hchi.ne') h0

/-- Isotropic scattering, given by integers, with the forward peaks of `demoNT`. -/
noncomputable def demoInt (n : ℕ) (x : ℝ) : Args := (demoNT n x).withIntLeg ⟨2, 2 * n, fun _ k => if k = 0 then 1 else 0⟩

theorem demoInt_wellPosed {n : ℕ} (hn : 0 < n) (hn' : n < 10 ^ 7) (F : Finset ℝ) :
    ∃ x, x ∉ F ∧ 0 < x ∧ x ≤ 1 ∧ WellPosed refExt (demoInt n x) := by
  set v := node refExt (demo n 1) with hv
  have hinf := (away_infinite hn' v).diff F.finite_toSet
  obtain ⟨x, hx, hb⟩ := exists_beamRegular_in (demoInt n 1) v (weight refExt (demo n 1)) (fun y hy => hy.1.1) hinf
  have h0 : 0 < x := hx.1.1.1
  have h1 : x ≤ 1 := hx.1.1.2
  refine ⟨x, hx.2, h0, h1, ?_⟩
  have hNh : nHalf (demoInt n x) = n := demoNT_nHalf x
  have hg : GaussContract refExt (nHalf (demoInt n x)) := by rw [hNh]; exact refExt_gauss hn
  have hacc : Accepted (demoInt n x) :=
    { demoNT_accepted hn h0 h1 with
      legVal := by
        intro l _ k _ hk
        change (-1 : ℝ) < ((if k = 0 then 1 else 0 : ℤ) : ℝ) ∧ ((if k = 0 then 1 else 0 : ℤ) : ℝ) < 1
        rw [if_neg (by omega)]
        norm_num }
  have hpk : ∀ l < 2, peak (demoInt n x) l = 1 / 8 := fun l hl => demoNT_peak (n := n) (x := x) hl
  refine ⟨hacc, hg, refExt_eig, ?_, ?_, hb, ?_, trivial, trivial, Or.inr rfl, Or.inr (Nat.le_of_ble_eq_true rfl), fun _ i hi => ?_⟩
  · intro l hl; rw [hpk l hl]; norm_num
  · refine dissipates_of_nLeg_le hg ?_ hacc.omega ?_ ?_
    · rw [hNh]; simp [nLeg, demoInt, Args.withIntLeg, demoNT, demo]
    · intro l hl; rw [hpk l hl]; norm_num
    · intro l _ k _
      unfold leg
      split_ifs with h
      · exact le_rfl
      · change ((if k = 0 then 1 else 0 : ℤ) : ℝ) ≤ 1
        rw [if_neg h]; norm_num
  · exact passive_lambertian hg (by rw [hNh]; exact hn) (by norm_num) rfl
  · rw [hNh] at hi
    exact hx.1.2 i hi

/-- The hypotheses of `C130_false` can be met, with up to ten million streams per hemisphere: every call of this kind returns different intensities. -/
theorem C130_false_witness (J : Junk) {n : ℕ} (hn : 0 < n) (hn' : n < 10 ^ 7) : ∃ x R, pydisort refExt J (demoInt n x) = .ok R ∧
    WellPosed refExt (demoInt n x) ∧ Corrected (demoInt n x) ∧ ∀ j < n, ∀ t : ℝ, 0 < t → t ≤ 2 →
      ∃ ph A B, R.uIntLeg ⟨1, fun _ => t⟩ ⟨1, fun _ => ph⟩ false = .ok A ∧ R.u ⟨1, fun _ => t⟩ ⟨1, fun _ => ph⟩ false = .ok B ∧
        A.get (n + j) 0 0 ≠ B.get (n + j) 0 0 := by
  set F : Finset ℝ := (range n).image fun i => node refExt (demoNT n 1) i * (1 - 1 / 12)
  obtain ⟨x, hF, hx0, hx1, hwp⟩ := demoInt_wellPosed hn hn' (insert 1 F)
  rw [mem_insert, not_or] at hF
  obtain ⟨R, hR⟩ := pydisort_isOk hwp J
  have hc : Corrected (demoInt n x) := demoNT_corrected hn x
  have hNh : nHalf (demoNT n x) = n := demoNT_nHalf x
  refine ⟨x, R, hR, hwp, hc, fun j hj t ht0 ht1 => ?_⟩
  have hav : avgPeak (demoNT n x) = 1 / 12 := by
    unfold avgPeak weighted
    rw [show (demoNT n x).tauArr.n = 2 from rfl]
    simp only [sum_range_succ, sum_range_zero]
    rw [demoNT_peak (by norm_num), demoNT_peak (by norm_num)]
    simp [demoNT, demo]; norm_num
  have hb : bottom (demoNT n x) = 2 := by simp [bottom, demoNT, demo]; norm_num
  obtain ⟨ph, A, B, h1, h2, _, _, _, h6⟩ := C130_false (a := demoNT n x) hR hc hwp.gauss
    (fun l hl => by rw [demoNT_peak hl]; norm_num)
    ⟨0, by simp [demoNT, demo], by rw [demoNT_peak (by norm_num)]; simp [demoNT, demo]⟩
    (lt_of_le_of_ne hx1 hF.1) (j := j) (by rw [hNh]; exact hj)
    (fun he => hF.2 (mem_image.2 ⟨j, mem_range.2 hj, by
      have he' : node refExt (demoNT n 1) j = x / (1 - 1 / 12) := by
        rw [show node refExt (demoNT n 1) j = node refExt (demoNT n x) j from rfl, he]; unfold scaledMu0; rw [hav]; rfl
      rw [he']; field_simp⟩)) ht0 (by rw [hb]; exact ht1)
  rw [hNh] at h6
  exact ⟨ph, A, B, h1, h2, h6⟩

/-- The hypotheses of the partial theorems can be met: integers, no corrections. -/
example (J : Junk) {n : ℕ} (hn : 0 < n) (hn' : n < 10 ^ 7) : ∃ a L R, pydisort refExt J (Args.withIntLeg a L) = .ok R ∧ nHalf a = n ∧
    ¬ Corrected (a.withIntLeg L) ∧ a.onlyFlux = false ∧ InRange a ⟨2, fun k => (k : ℝ) + 1⟩ := by
  obtain ⟨x, _, _, _, hwp⟩ := demoInt_wellPosed hn hn' ∅
  have hwp' : WellPosed refExt (Args.withIntLeg { demoNT n x with NTcor := false } ⟨2, 2 * n, fun _ k => if k = 0 then 1 else 0⟩) :=
    { hwp with accepted := { hwp.accepted with }, angles := fun h => Bool.noConfusion h }
  obtain ⟨R, hR⟩ := pydisort_isOk hwp' J
  refine ⟨_, _, R, hR, demoNT_nHalf x, fun h => Bool.noConfusion h.1, rfl, fun t htt => ?_⟩
  change 0 ≤ (t : ℝ) + 1 ∧ (t : ℝ) + 1 ≤ ((1 : ℕ) : ℝ) + 1
  have : t ≤ 1 := by change t < 2 at htt; omega
  have h2 : (t : ℝ) ≤ ((1 : ℕ) : ℝ) := by exact_mod_cast this
  exact ⟨by positivity, by linarith⟩

end Pydisort

import Verif.Props.Eigen
import Verif.Props.Corrections
import Mathlib.Algebra.Polynomial.Degree.Lemmas
import Mathlib.Algebra.Polynomial.Roots

/-!
# C07: more than 21 coefficients

The factorials of the particular solution are a cumulative product of 64-bit integers (subroutines.py 838-841) and `21!` does not fit. With 22
source coefficients C07 is false.
-/

namespace Pydisort
open Finset Spec

variable {E : Ext} {J : Junk} {a : Args} {R : Solved}

/-- The error in the ratio of the last two factorials; it should be `21`. -/
theorem fac_ratio_pos : (0 : ℝ) < 21 - fac64 21 / fac64 20 := by
  rw [fac64_21, fac64_eq le_rfl]
  have : (0 : ℝ) < ((Nat.factorial 20 : ℕ) : ℝ) := by exact_mod_cast Nat.factorial_pos 20
  rw [neg_div, sub_neg_eq_add]
  have h2 : (0 : ℝ) < 4249290049419214848 / ((Nat.factorial 20 : ℕ) : ℝ) := div_pos (by norm_num) this
  linarith

/-- **C07 is false for 22 coefficients, in `_mathscr_v` itself.** The particular solution computed from eigenvectors `G` and eigenvalues `K` of `A`
and from `g = G⁻¹ r` does not satisfy `v' = A v - (Σ_k s_k t^k) r`: there is a constant `c > 0`, independent of everything, such that
`c s_21 t^20 A⁻¹ r` is left over (`Σ_k G_ik g_k / K_k` are the components of `A⁻¹ r`). -/
theorem C07_false_for_22_coefficients : ∃ c : ℝ, 0 < c ∧ ∀ {n : ℕ} {A G : Mat} {K g r : Vec} (s : Vec),
    (∀ j < n, K j ≠ 0) → (∀ i < n, ∀ j < n, ∑ q ∈ range n, A i q * G q j = K j * G i j) →
    (∀ i < n, ∑ k ∈ range n, G i k * g k = r i) → ∀ t : ℝ, ∀ i < n,
    HasDerivAt (fun x => mathscrV n 22 s G K g x i)
      (∑ q ∈ range n, A i q * mathscrV n 22 s G K g t q - (∑ k ∈ range 22, s k * t ^ k) * r i
        + c * s 21 * t ^ 20 * ∑ k ∈ range n, G i k * g k / K k) t := by
  refine ⟨_, fac_ratio_pos, ?_⟩
  intro n A G K g r s hK hA hg t i hi
  refine (hasDerivAt_mathscrV (n := n) (Nc := 22) (by norm_num) s G K g t i).congr_deriv ?_
  rw [hg i hi]
  congr 1
  · congr 1
    simp_rw [mathscrV_eq (n := n) (Nc := 22) (by norm_num) s G K g t, mul_sum]
    rw [sum_comm]
    refine sum_congr rfl fun k hk => ?_
    rw [mem_range] at hk
    rw [← hA i hi k hk, sum_mul]
    exact sum_congr rfl fun q _ => by ring
  · rw [mul_sum]
    refine sum_congr rfl fun k hk => ?_
    rw [resid_22 s (hK k (mem_range.mp hk))]; ring

/-- The hypotheses are met, and something is left over. -/
example : (∀ j < 1, (fun _ => 2 : Vec) j ≠ 0) ∧ (∀ i < 1, ∀ j < 1, ∑ q ∈ range 1, (fun _ _ => 2 : Mat) i q * (fun _ _ => 1 : Mat) q j
      = (fun _ => 2 : Vec) j * (fun _ _ => 1 : Mat) i j) ∧ (∀ i < 1, ∑ k ∈ range 1, (fun _ _ => 1 : Mat) i k * (fun _ => 3 : Vec) k
      = (fun _ => 3 : Vec) i) ∧ ∑ k ∈ range 1, (fun _ _ => 1 : Mat) 0 k * (fun _ => 3 : Vec) k / (fun _ => 2 : Vec) k ≠ (0 : ℝ) := by
  norm_num

/-- If two polynomials of degree `n`, one of them in a linearly transformed variable, agree and the leading coefficient of one does not vanish,
nor does that of the other. -/
theorem lead_ne {n : ℕ} {o s : Vec} {c d α β : ℝ}
    (h : ∀ t, c * ∑ k ∈ range (n + 1), o k * (α + β * t) ^ k = d * ∑ k ∈ range (n + 1), s k * t ^ k) (hd : d ≠ 0) (hs : s n ≠ 0) :
    o n ≠ 0 := by
  intro ho
  have hp : (Polynomial.C c * ∑ k ∈ range n, Polynomial.C (o k) * (Polynomial.C α + Polynomial.C β * Polynomial.X) ^ k : Polynomial ℝ)
      = Polynomial.C d * ∑ k ∈ range (n + 1), Polynomial.C (s k) * Polynomial.X ^ k := by
    refine Polynomial.funext fun t => ?_
    have := h t
    rw [sum_range_succ, ho, zero_mul, add_zero] at this
    simpa [Polynomial.eval_finset_sum] using this
  have hq := congrArg (fun p => Polynomial.coeff p n) hp
  simp only [Polynomial.coeff_C_mul, Polynomial.finset_sum_coeff, Polynomial.coeff_X_pow] at hq
  have h0 : ∀ k ∈ range n, o k * ((Polynomial.C α + Polynomial.C β * Polynomial.X : Polynomial ℝ) ^ k).coeff n = 0 := by
    intro k hk
    rw [Polynomial.coeff_eq_zero_of_natDegree_lt, mul_zero]
    refine lt_of_le_of_lt (Polynomial.natDegree_pow_le_of_le k (m := 1) ?_) (by rw [mem_range] at hk; omega)
    refine (Polynomial.natDegree_add_le _ _).trans (max_le (by simp) ((Polynomial.natDegree_C_mul_le _ _).trans Polynomial.natDegree_X_le))
  rw [sum_eq_zero h0, mul_zero] at hq
  simp only [mul_ite, mul_one, mul_zero, sum_ite_eq, mem_range, Nat.lt_succ_self, if_true] at hq
  exact (mul_ne_zero hd hs) hq.symm

/-- **C07 is false for 22 coefficients, in a call.** Whenever `pydisort` is given a source with 22 coefficients whose last one does not vanish in a
layer that absorbs, the returned intensity violates the transfer equation everywhere inside that layer: in some direction it is differentiable,
but its derivative is wrong. No error or warning about this is raised: the call succeeds. -/
theorem C07_false_in_call (h : pydisort E J a = .ok R) (hS : Numerics E a) (hres : Rescalable a) (hc : a.s.c = 22) {l : ℕ}
    (hl : l < a.tauArr.n) (hlr : l < a.s.r) (hw : a.omega.get l < 1) (hs21 : a.s.get l 21 ≠ 0) {U : ℕ → ℝ → ℕ → ℝ} (hU : IsModes a R U) {t : ℝ}
    (h1 : bdry a.tauArr.get l < t) (h2 : t < bdry a.tauArr.get (l + 1)) :
    ∃ i < 2 * nHalf a, ∃ d, HasDerivAt (fun x => U 0 x i) d t ∧
      stream (nHalf a) (node E a) i * d ≠ rteUser a (node E a) (weight E a) 0 l t (U 0 t) i := by
  obtain ⟨hacc, O, r, hO, hr, hI, hsol, _⟩ := pydisort_ok h
  have hs := Args.optics_spec hacc hO
  have hgood := asm_good (r := r) hacc hs hS
  have hm : 0 < nFourier a := by rw [← nFourier_eq]; exact hgood.F
  have hn : 0 < nHalf a := by
    have := hacc.streams
    unfold nHalf
    omega
  have hsrc : ¬ NoSource a := fun hh => hs21 (hh l hlr 21 (by omega))
  have hi : a.Iso := Args.iso_iff.2 hsrc
  have hiso : R.I.iso = true := by rw [hI]; simpa [Args.asmIn] using hi
  have hNc : R.I.Nscoeffs = 22 := by rw [hI, ← hc]; exact Args.nsc_of_iso hi
  have hrr : R.I.rescale = r := by rw [hI]; rfl
  have hr0 : r ≠ 0 := by
    intro h0
    have := rescale_s hacc hs hr hres hi 1
    rw [h0] at this; norm_num at this
  have hsl : ∀ k, R.I.s l k = O.s.get l k / r := by
    intro k; rw [hI]; simp [Args.asmIn, hi]
  have hsc : 0 < scale a l := Args.scale_pos hacc hl
  have hO21 : O.s.get l 21 ≠ 0 := by
    refine lead_ne (n := 21) (o := O.s.get l) (s := a.s.get l) (c := scale a l) (d := 1 - a.omega.get l)
      (α := bdryStar a l - scale a l * bdry a.tauArr.get l) (β := scale a l) ?_ (by linarith) hs21
    intro x
    have e := hs.src hi l hl x
    rw [hc] at e
    unfold source at e
    rw [if_pos hlr, hc] at e
    rw [← e]
    congr 1
    refine sum_congr rfl fun k _ => ?_
    unfold tauStar
    congr 2; ring
  have htau : 0 < tauStar a l t := by
    unfold tauStar
    have := bdryStar_nonneg hacc hl.le
    have := mul_pos hsc (sub_pos.mpr h1)
    linarith
  obtain ⟨V, hV⟩ := isFieldR h hS hres
  -- the part left over
  obtain ⟨i, hi2, hy⟩ : ∃ i < 2 * nHalf a, ∑ k ∈ range (2 * nHalf a), R.S.G 0 l i k * R.S.Gim l k / R.S.K 0 l k ≠ 0 := by
    by_contra hcon
    push Not at hcon
    have e := gim_spec h hS hsrc hl (i := 0) (by omega)
    have hst : stream (nHalf a) (node E a) 0 ≠ 0 := stream_ne hS.gauss (by omega)
    refine inv_ne_zero hst ?_
    rw [← e]
    have hA := (C08_eigenvectors_diagonalise h hS hm hl).1
    have e3 : ∑ q ∈ range (2 * nHalf a), coefMatrix a (node E a) (weight E a) 0 l 0 q *
        ∑ k ∈ range (2 * nHalf a), R.S.G 0 l q k * R.S.Gim l k / R.S.K 0 l k = 0 :=
      sum_eq_zero fun q hq => by rw [hcon q (mem_range.mp hq), mul_zero]
    rw [← e3]
    simp_rw [mul_sum]
    rw [sum_comm]
    refine sum_congr rfl fun k hk => ?_
    rw [mem_range] at hk
    have hk0 := K_ne_zero_of h hS hm hl hk
    have e4 : R.S.G 0 l 0 k * R.S.Gim l k = (R.S.K 0 l k * R.S.G 0 l 0 k) * (R.S.Gim l k / R.S.K 0 l k) := by field_simp
    rw [e4, ← hA 0 (by omega) k hk, sum_mul]
    exact sum_congr rfl fun q _ => by ring
  have hd := hV.odeR 0 hm l hl t i hi2
  rw [if_pos ⟨rfl, hiso⟩, hNc, hrr] at hd
  have key : ∀ x, InLayer a l x → ∀ j < 2 * nHalf a, U 0 x j = V 0 l x j := by
    intro x hx j hj
    have h0 : 0 ≤ x := by
      have := bdry_le hacc (Nat.zero_le l) hl.le
      rw [bdry_zero] at this
      exact this.trans hx.1
    have h3 : x ≤ a.tauArr.get (a.tauArr.n - 1) := by
      have := bdry_le hacc (show l + 1 ≤ a.tauArr.n by omega) le_rfl
      rw [bdry_bottom hacc] at this
      exact hx.2.trans this
    rw [C02_modes_unique hU hV.modes 0 hm x h0 h3 j hj]
    exact hV.eq_layer h hm hl hx hj
  refine ⟨i, hi2, _, hd.congr_of_eventuallyEq ?_, ?_⟩
  · filter_upwards [Ioo_mem_nhds h1 h2] with x hx
    exact key x ⟨hx.1.le, hx.2.le⟩ i hi2
  · have hst : stream (nHalf a) (node E a) i ≠ 0 := stream_ne hS.gauss hi2
    have e5 : rteUser a (node E a) (weight E a) 0 l t (U 0 t) i = rteUser a (node E a) (weight E a) 0 l t (V 0 l t) i := by
      unfold rteUser rteRHS
      have e7 : ∀ j < 2 * nHalf a, U 0 t j = V 0 l t j := fun j hj => key t ⟨h1.le, h2.le⟩ j hj
      rw [e7 i hi2, sum_congr rfl fun j hj => by rw [e7 j (mem_range.mp hj)]]
    rw [e5, mul_add, mul_div_cancel₀ _ hst]
    have e6 : ∑ k ∈ range (2 * nHalf a), R.S.G 0 l i k * (resid 22 (R.I.s l) (R.S.K 0 l k) (tauStar a l t) * R.S.Gim l k)
        = (21 - fac64 21 / fac64 20) * R.I.s l 21 * tauStar a l t ^ 20
          * ∑ k ∈ range (2 * nHalf a), R.S.G 0 l i k * R.S.Gim l k / R.S.K 0 l k := by
      rw [mul_sum]
      refine sum_congr rfl fun k hk => ?_
      rw [resid_22 _ (K_ne_zero_of h hS hm hl (mem_range.mp hk))]; ring
    rw [e6]
    have hne : stream (nHalf a) (node E a) i * (r * scale a l * ((21 - fac64 21 / fac64 20) * R.I.s l 21 * tauStar a l t ^ 20
          * ∑ k ∈ range (2 * nHalf a), R.S.G 0 l i k * R.S.Gim l k / R.S.K 0 l k)) ≠ 0 := by
      refine mul_ne_zero hst (mul_ne_zero (mul_ne_zero hr0 hsc.ne') (mul_ne_zero (mul_ne_zero (mul_ne_zero fac_ratio_pos.ne' ?_)
        (pow_ne_zero _ htau.ne')) hy))
      rw [hsl]; exact div_ne_zero hO21 hr0
    intro hcon
    apply hne
    linarith

/-- The atmosphere `demoDark` with the source `τ^21`. -/
noncomputable def demoHigh (n : ℕ) : Args := { demoDark n with s := ⟨2, 22, fun _ k => if k = 21 then 1 else 0⟩ }

/-- The hypotheses are met: the call succeeds. -/
example {n : ℕ} (hn : 0 < n) (J : Junk) : ∃ R U, pydisort refExt J (demoHigh n) = .ok R ∧ Numerics refExt (demoHigh n)
    ∧ Rescalable (demoHigh n) ∧ (demoHigh n).s.c = 22 ∧ 0 < (demoHigh n).tauArr.n ∧ 0 < (demoHigh n).s.r ∧ (demoHigh n).omega.get 0 < 1
    ∧ (demoHigh n).s.get 0 21 ≠ 0 ∧ IsModes (demoHigh n) R U ∧ bdry (demoHigh n).tauArr.get 0 < 1 / 2
    ∧ 1 / 2 < bdry (demoHigh n).tauArr.get 1 := by
  have hw := demoDark_wellPosed hn
  have hacc : Accepted (demoHigh n) := { demoDark_accepted hn with sourceRows := Or.inr rfl, nLeg := (demoDark_accepted hn).nLeg }
  have hN : Numerics refExt (demoHigh n) := ⟨hw.gauss, hw.eig, hw.peak, hw.sound.regular, fun h => absurd h (lt_irrefl _)⟩
  have hres : Rescalable (demoHigh n) := Or.inl (Or.inr (Or.inl (by show (0:ℝ) < 1; norm_num)))
  obtain ⟨O, r, p, hs, hp⟩ := prepare_isOk (E := refExt) hacc (Or.inr rfl) (fun h => by cases h)
  obtain ⟨S, hS⟩ := solveAll_isOk_of hacc hN.gauss hN.eig hw.dissipates hw.surface trivial trivial
    (fun h => absurd h (lt_irrefl _)) hs (r := r) J
  obtain ⟨R, hR⟩ : ∃ R, pydisort refExt J (demoHigh n) = .ok R := by
    unfold pydisort
    rw [hp]
    simp only [bind, Except.bind]
    rw [hS]
    exact ⟨_, rfl⟩
  obtain ⟨V, hV⟩ := isFieldR hR hN hres
  refine ⟨R, _, hR, hN, hres, rfl, ?_, ?_, ?_, ?_, hV.modes, ?_, ?_⟩
  · norm_num [demoHigh, demoDark, demo]
  · norm_num [demoHigh]
  · norm_num [demoHigh, demoDark, demo]
  · norm_num [demoHigh]
  · norm_num [bdry]
  · norm_num [bdry, demoHigh, demoDark, demo]

end Pydisort

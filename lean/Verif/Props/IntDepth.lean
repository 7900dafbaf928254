import Verif.Props.Overflow
import Verif.Props.Endless
import Verif.EvalArrLemmas
import Verif.ReturnedLemmas
import Verif.Model.IntDepth
import Verif.Spec.IntDepth

/-!
# C128: depths given as integers

Specification used: `Spec.PowersFit`, `Spec.asFloats`, `Spec.Unscaled`, `Spec.SameOutcome`.
-/

namespace Pydisort
open Finset Spec

variable {E : Ext} {J : Junk} {a : Args} {R : Solved}

theorem pow64_eq {d p : ℕ} {t : ℤ} (h : |t| ^ d < 2 ^ 63) (hp : p ≤ d) : pow64 t p = t ^ p := by
  have h1 : |t ^ p| < 2 ^ 63 := by
    rw [abs_pow]
    rcases eq_or_ne t 0 with rfl | ht
    · rcases p with _ | p
      · norm_num
      · simp
    · exact lt_of_le_of_lt (pow_le_pow_right₀ (Int.one_le_abs ht) hp) h
  obtain ⟨h2, h3⟩ := abs_lt.1 h1
  unfold pow64 wrap64
  rw [Int.bmod_eq_of_le]
  · norm_num at h2 ⊢; linarith
  · norm_num at h3 ⊢; linarith

/-- The condition under which no power wraps around. -/
def IntSafe (I : AsmIn) (anti : Bool) (tau : A1 ℤ) : Prop :=
  I.iso = false ∨ (∃ k < I.NLayers, I.scale k ≠ 1) ∨ ∀ k < tau.n, |tau.get k| ^ (if anti = true then I.Nscoeffs else I.Nscoeffs - 1) < 2 ^ 63

namespace AsmIn
variable {I : AsmIn} {S : Sols} {tau : A1 ℤ} {anti : Bool}

theorem isoPartInt_same (hi : I.iso = true) (h : IntSafe I anti tau) (row0 rows : ℕ) :
    SameOutcome A2.Same (I.isoPartInt S tau anti row0 rows) (I.isoPart S tau.toReal anti row0 rows) := by
  unfold isoPartInt
  by_cases hs : ∃ k < I.NLayers, I.scale k ≠ 1
  · rw [if_pos hs]
    exact SameOutcome.of_eq A2.Same.refl rfl
  rw [if_neg hs]
  have hf : ∀ k < tau.n, |tau.get k| ^ (if anti = true then I.Nscoeffs else I.Nscoeffs - 1) < 2 ^ 63 := by
    rcases h with h | h | h
    · rw [hi] at h; cases h
    · exact absurd h hs
    · exact h
  have hst : ∀ t, I.scaledTau t = t := fun t => by unfold scaledTau; rw [if_neg hs]
  cases anti
  · simp only [Bool.false_eq_true, if_false, isoPart] at hf ⊢
    refine ⟨rfl, rfl, fun q _ t ht => ?_⟩
    dsimp only [A1.toReal]
    rw [hst]
    unfold mathscrVInt mathscrV
    refine if_congr Iff.rfl rfl (if_congr Iff.rfl rfl (sum_congr rfl fun i _ => ?_))
    rw [pow64_eq (hf t ht) (Nat.sub_le _ _)]
    push_cast; rfl
  · simp only [if_true, isoPart] at hf ⊢
    have hmap : tau.toReal.map I.scaledTau = tau.toReal := by
      unfold A1.map; simp only [hst]
    rw [hmap]
    unfold mathscrVAntiInt mathscrVAnti
    by_cases h1 : I.Nscoeffs = 1
    · simp only [if_pos h1]
      exact SameOutcome.of_eq A2.Same.refl rfl
    simp only [if_neg h1]
    by_cases h2 : I.Nscoeffs = 2
    · simp only [if_pos h2]
      refine A2.bin_same' _ ⟨rfl, rfl, fun q _ t ht => ?_⟩ (A2.Same.refl _)
      have ht' : t < tau.n := ht
      have e : wrap64 (tau.get t * tau.get t) = tau.get t * tau.get t := by
        have := pow64_eq (p := 2) (hf t ht') (by omega)
        unfold pow64 at this
        rwa [sq] at this
      change _ = _ * ((tau.get t : ℝ) * (tau.get t : ℝ) / 2) + _
      dsimp only
      rw [e]
      push_cast; rfl
    · simp only [if_neg h2]
      rcases A1.bin (fun a b => a * b) ⟨I.Nscoeffs, fun i => (((I.Nscoeffs - 1 - i) + 1 : ℕ) : ℝ)⟩ ⟨I.NLayers, I.scale⟩ with e | den
      · exact rfl
      simp only [bind, Except.bind]
      rcases bdim I.Nscoeffs den.n with e | d
      · exact rfl
      refine ⟨rfl, rfl, fun q _ t ht => ?_⟩
      have ht' : t < tau.n := ht
      dsimp only [A1.toReal]
      refine sum_congr rfl fun i hi => ?_
      rw [mem_range] at hi
      rw [pow64_eq (hf t ht') (by omega)]
      push_cast; rfl

theorem addIsoInt_same (h : IntSafe I anti tau) {row0 rows : ℕ} {x y : A2 ℝ} (hx : A2.Same x y) :
    SameOutcome A2.Same (I.addIsoInt S tau anti row0 rows x) (I.addIso S tau.toReal anti row0 rows y) := by
  unfold addIsoInt addIso
  by_cases hi : I.iso = true
  · simp only [if_pos hi]
    exact SameOutcome.bind (isoPartInt_same hi h row0 rows) fun u v huv => A2.bin_same' _ hx huv
  · simp only [if_neg hi]
    exact hx

theorem addIso_rowsInt {tau : A1 ℝ} {row0 rows : ℕ} {x w : A2 ℝ} (hx : x.r = rows) (h : I.addIso S tau anti row0 rows x = .ok w) : w.r = rows := by
  unfold addIso at h
  split_ifs at h
  · rcases h1 : I.isoPart S tau anti row0 rows with e | v <;> rw [h1] at h
    · cases h
    rw [ok_bind] at h
    have hv := I.isoPart_rows S h1
    exact (bin_rows (A := x.get) (B := v.get) h (by rw [hv, hx])).trans hx
  · cases h; exact hx

theorem fluxQuad_sameInt {x y : A2 ℝ} (hr : y.r = I.N) (h : A2.Same x y) : A1.Same (I.fluxQuad x) (I.fluxQuad y) :=
  ⟨h.2.1, fun t ht => by
    dsimp only [fluxQuad] at ht ⊢
    exact sum_congr rfl fun i hi => by rw [h.2.2 i (by rw [h.1, hr]; exact mem_range.1 hi) t ht]⟩

theorem fluxDownRaw_rows {tau : A1 ℝ} {w : A2 ℝ} (h : I.fluxDownRaw S tau anti = .ok w) : w.r = I.N := by
  unfold fluxDownRaw at h
  split_ifs at h
  · rcases h1 : I.fluxDownAntiBeam S tau with e | v <;> rw [h1] at h
    · cases h
    cases h; rfl
  · cases h; rfl
  · cases h; rfl

theorem u0Int_same (h : IntSafe I anti tau) : SameOutcome A2.Same (I.u0Int S tau anti) (I.u0 S tau.toReal anti) := by
  unfold u0Int u0
  refine SameOutcome.bind (rel := Eq) (SameOutcome.of_eq (fun _ => rfl) rfl) fun _ _ _ =>
    SameOutcome.bind (addIsoInt_same h (A2.Same.refl _)) fun u v huv => A2.map_same' _ huv

theorem fluxUpInt_same (h : IntSafe I anti tau) : SameOutcome A1.Same (I.fluxUpInt S tau anti) (I.fluxUp S tau.toReal anti) := by
  unfold fluxUpInt fluxUp
  refine SameOutcome.bind (rel := Eq) (SameOutcome.of_eq (fun _ => rfl) rfl) fun _ _ _ =>
    SameOutcome.bind_right (addIsoInt_same h (A2.Same.refl _)) fun u v hv huv => A1.map_same' _ (fluxQuad_sameInt ?_ huv)
  exact addIso_rowsInt rfl hv

theorem fluxDownInt_same (h : IntSafe I anti tau) : SameOutcome SameDown (I.fluxDownInt S tau anti) (I.fluxDown S tau.toReal anti) := by
  unfold fluxDownInt fluxDown
  refine SameOutcome.bind (rel := Eq) (SameOutcome.of_eq (fun _ => rfl) rfl) fun _ _ _ =>
    SameOutcome.bind_right (rel := A2.Same) (SameOutcome.of_eq A2.Same.refl rfl) fun p p' hp' hp =>
    SameOutcome.bind_right (addIsoInt_same h hp) fun u v hv huv => ?_
  have hq := fluxQuad_sameInt (addIso_rowsInt (fluxDownRaw_rows hp') hv) huv
  by_cases hb : I.beam = true
  · simp only [if_pos hb]
    refine SameOutcome.bind (A1.bin_same' _ hq (A1.Same.refl _)) fun x y hxy => SameOutcome.bind (A1.bin_same' _ hxy (A1.Same.refl _)) fun z w hzw => ?_
    exact ⟨A1.map_same' _ hzw, A1.Same.refl _, rfl⟩
  · simp only [if_neg hb]
    exact ⟨A1.map_same' _ hq, A1.Same.refl _, rfl⟩

theorem uInt_same (h : IntSafe I anti tau) (phi : A1 ℝ) : SameOutcome A3.Same (I.uInt S tau phi anti) (I.u S tau.toReal phi anti) := by
  unfold uInt u uRaw
  rw [bind_assoc]
  refine SameOutcome.bind (rel := Eq) (SameOutcome.of_eq (fun _ => rfl) rfl) fun _ _ _ => ?_
  rw [bind_assoc]
  have hm : SameOutcome A2.Same (I.um0Int S tau anti) (I.um0 S tau.toReal anti) := by
    unfold um0Int um0
    by_cases hi : I.iso = true
    · simp only [if_pos hi]
      refine SameOutcome.bind (addIsoInt_same h (A2.Same.refl _)) fun u v huv => ?_
      rw [huv.2.1]
      by_cases hc : I.NFourier = 1 ∨ v.c = tau.n
      · rw [if_pos hc]
        exact (show SameOutcome A2.Same (.ok u) (if I.NFourier = 1 ∨ v.c = tau.n then .ok v else .error .shapeError) by rw [if_pos hc]; exact huv)
      · rw [if_neg hc]
        exact (show SameOutcome A2.Same (.error .shapeError) (if I.NFourier = 1 ∨ v.c = tau.n then .ok v else .error .shapeError) by rw [if_neg hc]; exact rfl)
    · simp only [if_neg hi]
      exact A2.Same.refl _
  refine SameOutcome.bind_right hm fun u v hv huv => ⟨rfl, huv.2.1, rfl, fun i hi t ht p hp => ?_⟩
  have hr : u.r = 2 * I.N := by
    rw [huv.1]
    unfold um0 at hv
    by_cases hi : I.iso = true
    · simp only [if_pos hi] at hv
      rcases h1 : I.addIso S tau.toReal anti 0 (2 * I.N) ⟨2 * I.N, tau.toReal.n, fun i t =>
        if anti = true then I.umAnti S 0 i (tau.toReal.get t) else I.umPlain S 0 i (tau.toReal.get t)⟩ with e | w <;> rw [h1] at hv
      · cases hv
      rw [ok_bind] at hv
      split_ifs at hv
      cases hv
      exact addIso_rowsInt rfl h1
    · simp only [if_neg hi] at hv
      cases hv; rfl
  dsimp only at hi ht hp ⊢
  congr 1
  refine sum_congr rfl fun m _ => ?_
  rw [huv.2.2 i (by rw [hr]; exact hi) t ht]
  rfl

end AsmIn

theorem intSafe_of (h : pydisort E J a = .ok R) {anti : Bool} {tau : A1 ℤ}
    (hsafe : NoSource a ∨ ¬ Unscaled a ∨ PowersFit (if anti = true then a.s.c else a.s.c - 1) tau) : IntSafe R.I anti tau := by
  obtain ⟨hacc, O, r, hO, hr, hI, hsol, _⟩ := pydisort_ok h
  have hs := Args.optics_spec hacc hO
  rcases hsafe with h1 | h1 | h1
  · left
    rw [hI]
    have : ¬ a.Iso := fun hi => Args.iso_iff.1 hi h1
    simpa [Args.asmIn] using this
  · right; left
    unfold Unscaled at h1
    push Not at h1
    obtain ⟨l, hl, h2⟩ := h1
    refine ⟨l, by rw [hI]; exact hl, ?_⟩
    rw [hI]
    change O.scale l ≠ 1
    rw [hs.scale l hl]; exact h2
  · by_cases hn : NoSource a
    · left
      rw [hI]
      have : ¬ a.Iso := fun hi => Args.iso_iff.1 hi hn
      simpa [Args.asmIn] using this
    · right; right
      have hNc : R.I.Nscoeffs = a.s.c := by rw [hI]; exact Args.nsc_of_iso (Args.iso_iff.2 hn)
      rw [hNc]; exact h1

/-- **C128, as far as it is true.** If there is no internal source, or a layer is delta-M scaled, or the powers of the depths that the code forms fit into 64 bits, the returned functions give the
same for depths passed as integers as for the same depths passed as floats. (`a.s.c` is the number of source coefficients; the antiderivatives form one more power.) Missing: larger depths,
see `C128_false`. -/
theorem C128_partial (h : pydisort E J a = .ok R) {anti : Bool} {tau : A1 ℤ}
    (hsafe : NoSource a ∨ ¬ Unscaled a ∨ PowersFit (if anti = true then a.s.c else a.s.c - 1) tau) :
    SameOutcome A2.Same (R.u0Int tau anti) (R.u0 (asFloats tau) anti) ∧
    SameOutcome A1.Same (R.fluxUpInt tau anti) (R.fluxUp (asFloats tau) anti) ∧
    SameOutcome SameDown (R.fluxDownInt tau anti) (R.fluxDown (asFloats tau) anti) ∧
    ∀ phi, SameOutcome A3.Same (R.uInt tau phi anti) (R.u (asFloats tau) phi anti) := by
  have hI := intSafe_of h hsafe
  refine ⟨AsmIn.u0Int_same hI, AsmIn.fluxUpInt_same hI, AsmIn.fluxDownInt_same hI, fun phi => ?_⟩
  have hu := AsmIn.uInt_same (S := R.S) hI phi
  unfold Solved.uInt Solved.u
  by_cases ho : R.onlyFlux = true
  · rw [if_pos ho, if_pos ho]; exact rfl
  · rw [if_neg ho, if_neg ho]
    rcases R.nt with _ | n
    · exact hu
    · refine SameOutcome.bind hu fun x y hxy => SameOutcome.bind (rel := A3.Same) (SameOutcome.of_eq A3.Same.refl rfl) fun c c' hc => ?_
      exact addSqueezed_same _ hxy hc

/-- The particular solution of a constant source does not vanish in all streams. -/
theorem left_over (h : pydisort E J a = .ok R) (hS : Numerics E a) (hsrc : ¬ NoSource a) {l : ℕ} (hl : l < a.tauArr.n) :
    ∃ i < 2 * nHalf a, ∑ k ∈ range (2 * nHalf a), R.S.G 0 l i k * R.S.Gim l k / R.S.K 0 l k ≠ 0 := by
  obtain ⟨hacc, O, r, hO, hr, hI, hsol, _⟩ := pydisort_ok h
  have hs := Args.optics_spec hacc hO
  have hgood := asm_good (r := r) hacc hs hS
  have hm : 0 < nFourier a := by rw [← nFourier_eq]; exact hgood.F
  have hn : 0 < nHalf a := streams_pos hacc
  by_contra hcon
  push Not at hcon
  have e := gim_spec h hS hsrc hl (i := 0) (by omega)
  have hst : stream (nHalf a) (node E a) 0 ≠ 0 := stream_ne hS.gauss (by omega)
  refine inv_ne_zero hst ?_
  rw [← e]
  have hA := (C08_eigenvectors_diagonalise h hS hm hl).1
  have e3 : ∑ q ∈ range (2 * nHalf a), coefMatrix a (node E a) (weight E a) 0 l 0 q *
      ∑ k ∈ range (2 * nHalf a), R.S.G 0 l q k * R.S.Gim l k / R.S.K 0 l k = 0 :=
    sum_eq_zero fun q hq => by rw [hcon q (mem_range.mp hq), mul_zero]
  rw [← e3]
  simp_rw [mul_sum]
  rw [sum_comm]
  refine sum_congr rfl fun k hk => ?_
  rw [mem_range] at hk
  have hk0 := K_ne_zero_of h hS hm hl hk
  have e4 : R.S.G 0 l 0 k * R.S.Gim l k = (R.S.K 0 l k * R.S.G 0 l 0 k) * (R.S.Gim l k / R.S.K 0 l k) := by field_simp
  rw [e4, ← hA 0 (by omega) k hk, sum_mul]
  exact sum_congr rfl fun q _ => by ring

theorem mathscrVInt_wraps {n : ℕ} (s : Vec) (G : Mat) (K g : Vec) (q : ℕ) :
    mathscrVInt n 3 s G K g (2 ^ 32) q = mathscrV n 3 s G K g ((2 ^ 32 : ℤ) : ℝ) q - 2 ^ 64 * s 2 * ∑ k ∈ range n, G q k * g k / K k := by
  have w2 : pow64 4294967296 2 = 0 := by unfold pow64 wrap64; rw [Int.bmod_def]; norm_num
  have w1 : pow64 4294967296 1 = 4294967296 := by unfold pow64 wrap64; rw [Int.bmod_def]; norm_num
  have w0 : pow64 4294967296 0 = 1 := by unfold pow64 wrap64; rw [Int.bmod_def]; norm_num
  have f2 : fac64 2 = 2 := by rw [fac64_eq (by norm_num)]; norm_num
  unfold mathscrVInt mathscrV
  rw [if_neg (by norm_num), if_neg (by norm_num), if_neg (by norm_num), if_neg (by norm_num)]
  have e : ∑ k ∈ range n, G q k * (bSigma 3 s K k 0 * g k) = s 2 * ∑ k ∈ range n, G q k * g k / K k := by
    rw [mul_sum]
    refine sum_congr rfl fun k _ => ?_
    unfold bSigma
    simp [sum_range_succ, f2]
    ring
  rw [sum_range_succ, sum_range_succ, sum_range_succ, sum_range_succ, sum_range_succ, sum_range_succ]
  norm_num [w0, w1, w2, e]
  ring

/-- **C128 is false.** Let an atmosphere without delta-M scaling have three source coefficients, and let the third not vanish in the layer in which the depth `2^32` lies. Passed as an integer, that depth
yields another intensity than passed as a float: in some direction the two differ, though no error is raised. -/
theorem C128_false (h : pydisort E J a = .ok R) (hS : Numerics E a) (hres : Rescalable a) (hu : Unscaled a) (hc : a.s.c = 3) {l : ℕ}
    (hl : l < a.tauArr.n) (hlr : l < a.s.r) (hs2 : a.s.get l 2 ≠ 0)
    (h1 : bdry a.tauArr.get l < 2 ^ 32) (h2 : 2 ^ 32 ≤ bdry a.tauArr.get (l + 1)) {tau : A1 ℤ} (ht : tau = ⟨1, fun _ => 2 ^ 32⟩) :
    ∃ A B, R.u0Int tau false = .ok A ∧ R.u0 (asFloats tau) false = .ok B ∧ ∃ i < 2 * nHalf a, A.get i 0 ≠ B.get i 0 := by
  subst ht
  obtain ⟨hacc, O, r, hO, hr, hI, hsol, _⟩ := pydisort_ok h
  have hs := Args.optics_spec hacc hO
  have hsrc : ¬ NoSource a := fun hh => hs2 (hh l hlr 2 (by omega))
  have hi : a.Iso := Args.iso_iff.2 hsrc
  have hiso : R.I.iso = true := by rw [hI]; simpa [Args.asmIn] using hi
  have hNc : R.I.Nscoeffs = 3 := by rw [hI, ← hc]; exact Args.nsc_of_iso hi
  have hrr : R.I.rescale = r := by rw [hI]; rfl
  have hN : R.I.N = nHalf a := by rw [hI]; rfl
  have hr0 : r ≠ 0 := by
    intro h0
    have := rescale_s hacc hs hr hres hi 1
    rw [h0] at this; norm_num at this
  have hsl : ∀ k, R.I.s l k = O.s.get l k / r := by
    intro k; rw [hI]; simp [Args.asmIn, hi]
  have hw : a.omega.get l < 1 := (hacc.omega l hl).2
  have hO2 : O.s.get l 2 ≠ 0 := by
    refine lead_ne (n := 2) (o := O.s.get l) (s := a.s.get l) (c := scale a l) (d := 1 - a.omega.get l)
      (α := bdryStar a l - scale a l * bdry a.tauArr.get l) (β := scale a l) ?_ (by linarith) hs2
    intro x
    have e := hs.src hi l hl x
    rw [hc] at e
    unfold source at e
    rw [if_pos hlr, hc] at e
    rw [← e]
    congr 1
    refine sum_congr rfl fun k _ => ?_
    unfold tauStar
    congr 2; ring
  have hns : ¬ ∃ k < R.I.NLayers, R.I.scale k ≠ 1 := by
    rintro ⟨k, hk, hk1⟩
    rw [hI] at hk hk1
    have hk' : k < a.tauArr.n := hk
    exact hk1 ((hs.scale k hk').trans (hu k hk'))
  have h32 : ((2 ^ 32 : ℤ) : ℝ) = 2 ^ 32 := by norm_num
  have hlay : R.I.layer ((2 ^ 32 : ℤ) : ℝ) = l := by
    rw [hI]
    refine AsmIn.layer_eq (asm_depthOK (E := E) (r := r) hacc hs) hl (Or.inl ?_) ?_
    · rw [h32]; exact h1
    · rw [h32]; exact h2
  have hchk : R.I.checkTau (⟨1, fun _ => 2 ^ 32⟩ : A1 ℤ).toReal = .ok () := by
    unfold AsmIn.checkTau
    refine if_neg ?_
    rintro (⟨k, _, hk⟩ | ⟨k, _, hk⟩)
    · change ((2 ^ 32 : ℤ) : ℝ) < 0 at hk
      norm_num at hk
    · rw [hI] at hk
      change a.tauArr.get (a.tauArr.n - 1) < ((2 ^ 32 : ℤ) : ℝ) at hk
      have := bdry_le hacc (show l + 1 ≤ a.tauArr.n by omega) le_rfl
      rw [bdry_bottom hacc] at this
      rw [h32] at hk
      exact absurd (hk.trans_le (h2.trans this)) (lt_irrefl _)
  have hst : R.I.scaledTau ((2 ^ 32 : ℤ) : ℝ) = ((2 ^ 32 : ℤ) : ℝ) := by unfold AsmIn.scaledTau; rw [if_neg hns]
  obtain ⟨i, hi2, hy⟩ := left_over h hS hsrc hl
  have hA : ∃ A, R.u0Int ⟨1, fun _ => 2 ^ 32⟩ false = .ok A ∧ A.get i 0 = r * (R.I.umPlain R.S 0 i ((2 ^ 32 : ℤ) : ℝ)
      + mathscrVInt (2 * nHalf a) 3 (R.I.s l) (fun q => R.S.G 0 l (0 + q)) (R.S.K 0 l) (R.S.Gim l) (2 ^ 32) i) := by
    unfold Solved.u0Int AsmIn.u0Int AsmIn.addIsoInt AsmIn.isoPartInt AsmIn.u0Raw
    rw [hchk, ok_bind, if_pos hiso, if_neg hns]
    simp only [Bool.false_eq_true, if_false, false_and, ok_bind, A2.bin, A1.toReal, bdim_self, pure, Except.pure]
    refine ⟨_, rfl, ?_⟩
    simp only [A2.map, hlay, hN, hNc, hrr, bix_of_lt hi2, bix_of_lt (show 0 < 1 by norm_num)]
  have hB : ∃ B, R.u0 (asFloats ⟨1, fun _ => 2 ^ 32⟩) false = .ok B ∧ B.get i 0 = r * (R.I.umPlain R.S 0 i ((2 ^ 32 : ℤ) : ℝ)
      + mathscrV (2 * nHalf a) 3 (R.I.s l) (fun q => R.S.G 0 l (0 + q)) (R.S.K 0 l) (R.S.Gim l) ((2 ^ 32 : ℤ) : ℝ) i) := by
    have hchk' : R.I.checkTau (asFloats ⟨1, fun _ => 2 ^ 32⟩) = .ok () := hchk
    unfold Solved.u0 AsmIn.u0 AsmIn.addIso AsmIn.isoPart AsmIn.u0Raw
    rw [hchk', ok_bind, if_pos hiso]
    simp only [Bool.false_eq_true, if_false, false_and, ok_bind, A2.bin, asFloats, bdim_self, pure, Except.pure]
    refine ⟨_, rfl, ?_⟩
    simp only [A2.map, hlay, hst, hN, hNc, hrr, bix_of_lt hi2, bix_of_lt (show 0 < 1 by norm_num)]
  obtain ⟨A, hA1, hA2⟩ := hA
  obtain ⟨B, hB1, hB2⟩ := hB
  refine ⟨A, B, hA1, hB1, i, hi2, fun heq => ?_⟩
  rw [hA2, hB2, mathscrVInt_wraps] at heq
  have h3 : r * (2 ^ 64 * R.I.s l 2 * ∑ k ∈ range (2 * nHalf a), R.S.G 0 l (0 + i) k * R.S.Gim l k / R.S.K 0 l k) = 0 := by linarith
  rw [zero_add] at h3
  refine (mul_ne_zero hr0 (mul_ne_zero (mul_ne_zero (by norm_num) ?_) hy)) h3
  rw [hsl]; exact div_ne_zero hO2 hr0

/-- `demoEndless` without scaling, with the source `τ²`; it reaches down to the depth `2^33`. -/
noncomputable def demoWide (n : ℕ) (x : ℝ) : Args :=
  { demoEndless n x 0 with tauArr := ⟨2, fun k => if k = 0 then 1 else 2 ^ 33⟩, s := ⟨2, 3, fun _ k => if k = 2 then 1 else 0⟩ }

theorem demoWide_call {n : ℕ} (hn : 0 < n) (J : Junk) : ∃ x R, pydisort refExt J (demoWide n x) = .ok R ∧ Numerics refExt (demoWide n x) := by
  obtain ⟨x, h0, h1, hw⟩ := demoEndless_wellPosed hn (f := 0) le_rfl (by norm_num)
  have hacc : Accepted (demoWide n x) :=
    { hw.accepted with
      top := by change (0 : ℝ) < 1; exact one_pos
      increasing := fun k hk => by
        have hk' : k + 1 < 2 := hk
        have : k = 0 := by omega
        subst this
        change (if 0 = 0 then (1 : ℝ) else 2 ^ 33) < if 1 = 0 then 1 else 2 ^ 33
        norm_num
      sourceRows := Or.inr rfl }
  have hw' : WellPosed refExt (demoWide n x) := { hw with accepted := hacc, sourceShape := Or.inr rfl, degree := Or.inr (by change 3 ≤ 21; norm_num) }
  obtain ⟨R, hR⟩ := pydisort_isOk hw' J
  exact ⟨x, R, hR, hw'.sound.toNumerics⟩

/-- The hypotheses of `C128_false` are met. -/
example {n : ℕ} (hn : 0 < n) (J : Junk) : ∃ x R, pydisort refExt J (demoWide n x) = .ok R ∧ Numerics refExt (demoWide n x) ∧ Rescalable (demoWide n x)
    ∧ Unscaled (demoWide n x) ∧ (demoWide n x).s.c = 3 ∧ 1 < (demoWide n x).tauArr.n ∧ 1 < (demoWide n x).s.r ∧ (demoWide n x).s.get 1 2 ≠ 0
    ∧ bdry (demoWide n x).tauArr.get 1 < 2 ^ 32 ∧ 2 ^ 32 ≤ bdry (demoWide n x).tauArr.get 2 := by
  obtain ⟨x, R, hR, hN⟩ := demoWide_call hn J
  refine ⟨x, R, hR, hN, Or.inl (Or.inl one_pos), fun l hl => ?_, rfl, by change 1 < 2; norm_num, by change 1 < 2; norm_num, ?_, ?_, ?_⟩
  · have : peak (demoWide n x) l = 0 := by unfold peak; exact if_pos hl
    unfold scale
    rw [this]; ring
  · norm_num [demoWide]
  · norm_num [demoWide, bdry]
  · norm_num [demoWide, bdry]

/-- The hypotheses of `C128_partial` are met by a call with an internal source and without scaling, at the depths 0, 1 and 2^31. -/
example {n : ℕ} (hn : 0 < n) (J : Junk) : ∃ x R, pydisort refExt J (demoWide n x) = .ok R ∧ ¬ NoSource (demoWide n x) ∧
    PowersFit (if false = true then (demoWide n x).s.c else (demoWide n x).s.c - 1) ⟨3, fun k => if k = 2 then 2 ^ 31 else k⟩ := by
  obtain ⟨x, R, hR, _⟩ := demoWide_call hn J
  refine ⟨x, R, hR, fun h => ?_, fun k hk => ?_⟩
  · have := h 0 (by change 0 < 2; norm_num) 2 (by change 2 < 3; norm_num)
    norm_num [demoWide] at this
  · rw [if_neg (by norm_num)]
    change |if k = 2 then (2 : ℤ) ^ 31 else k| ^ 2 < 2 ^ 63
    have hk' : k < 3 := hk
    interval_cases k <;> norm_num

end Pydisort

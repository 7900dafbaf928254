import Verif.Subroutines.Core
import Verif.Spec.Tools
import Verif.Spec.Problem
import Verif.AffineLemmas
import Verif.GaussExists
import Mathlib.MeasureTheory.Integral.IntervalIntegral.FundThmCalculus
import Mathlib.Analysis.SpecialFunctions.Integrals.Basic

/-!
# C47-C49, C51, C53, C59, C60: the array helpers of `subroutines.py`
-/

namespace Pydisort
open Finset Spec

noncomputable section

/-! ## C47: `prepend` -/

/-- **C47.** With the right length the result is the value followed by the array. -/
theorem C47_prepend (arr : A1 ℝ) (v : ℝ) :
    ∃ r, prepend arr arr.n v = .ok r ∧ entries r = v :: entries arr := by
  unfold prepend assign1
  rw [if_pos rfl]
  refine ⟨_, rfl, ?_⟩
  simp only [entries]
  rw [List.range_succ_eq_map, List.map_cons, List.map_map]
  rfl

/-- **C47.** With a wrong length a one-element array is repeated and every other array is refused. -/
theorem C47_wrong_length (arr : A1 ℝ) (n : ℕ) (v : ℝ) (h : n ≠ arr.n) :
    if arr.n = 1 then ∃ r, prepend arr n v = .ok r ∧ entries r = v :: List.replicate n (arr.get 0)
    else prepend arr n v = .error .shapeError := by
  unfold prepend assign1
  rw [if_neg h.symm]
  split_ifs with h1
  · refine ⟨_, rfl, ?_⟩
    simp only [entries]
    rw [List.range_succ_eq_map, List.map_cons, List.map_map]
    simp [Function.comp_def, List.map_const']
  · rfl

example : ∃ r, prepend ⟨2, fun i => i⟩ 2 7 = .ok r ∧ entries r = [7, 0, 1] := by
  obtain ⟨r, h1, h2⟩ := C47_prepend ⟨2, fun i => (i : ℝ)⟩ 7
  exact ⟨r, h1, by rw [h2]; simp [entries, List.range_succ]⟩

/-! ## C48: `transform_interval` -/

/-- **C48.** The function is applied to each entry separately and is the affine function taking `a` to `c` and `b` to `d`. -/
theorem C48_affine {a b : ℝ} (hab : a ≠ b) (c d : ℝ) :
    ∃ f : ℝ → ℝ, (∀ arr, entries (transformInterval arr c d a b) = (entries arr).map f) ∧ f a = c ∧ f b = d ∧
      ∀ s x y, f ((1 - s) * x + s * y) = (1 - s) * f x + s * f y := by
  have h : b - a ≠ 0 := sub_ne_zero.mpr hab.symm
  refine ⟨fun x => (x - a) * (d - c) / (b - a) + c, fun arr => ?_, by simp, ?_, fun s x y => ?_⟩
  · simp [entries, transformInterval, A1.map]
  · field_simp; ring
  · field_simp; ring

/-- **C48.** For increasing intervals order is preserved and `[a, b]` is mapped onto `[c, d]`. -/
theorem C48_bijection {a b c d : ℝ} (hab : a < b) (hcd : c < d) :
    ∃ f : ℝ → ℝ, (∀ arr, entries (transformInterval arr c d a b) = (entries arr).map f) ∧ StrictMono f ∧
      f '' Set.Icc a b = Set.Icc c d := by
  have h : 0 < b - a := sub_pos.mpr hab
  have h' : 0 < d - c := sub_pos.mpr hcd
  have mono : StrictMono fun x : ℝ => (x - a) * (d - c) / (b - a) + c := fun x y hxy => by
    change (x - a) * (d - c) / (b - a) + c < (y - a) * (d - c) / (b - a) + c
    gcongr
  refine ⟨_, fun arr => by simp [entries, transformInterval, A1.map], mono, ?_⟩
  ext y
  simp only [Set.mem_image, Set.mem_Icc]
  constructor
  · rintro ⟨x, ⟨h1, h2⟩, rfl⟩
    refine ⟨?_, ?_⟩
    · have := div_nonneg (mul_nonneg (sub_nonneg.mpr h1) h'.le) h.le
      linarith
    · have := mono.monotone h2
      change (_ : ℝ) ≤ (b - a) * (d - c) / (b - a) + c at this
      rwa [show (b - a) * (d - c) / (b - a) + c = d by field_simp; ring] at this
  · rintro ⟨h1, h2⟩
    refine ⟨(y - c) * (b - a) / (d - c) + a, ⟨?_, ?_⟩, by field_simp; ring⟩
    · have := div_nonneg (mul_nonneg (sub_nonneg.mpr h1) h.le) h'.le
      linarith
    · rw [← sub_nonneg]
      rw [show b - ((y - c) * (b - a) / (d - c) + a) = (d - y) * (b - a) / (d - c) by field_simp; ring]
      exact div_nonneg (mul_nonneg (sub_nonneg.mpr h2) h.le) h'.le

/-- **C48.** Exchanging the two intervals inverts the transformation. -/
theorem C48_inverse {a b c d : ℝ} (hab : a ≠ b) (hcd : c ≠ d) (arr : A1 ℝ) :
    entries (transformInterval (transformInterval arr c d a b) a b c d) = entries arr := by
  have h : b - a ≠ 0 := sub_ne_zero.mpr hab.symm
  have h' : d - c ≠ 0 := sub_ne_zero.mpr hcd.symm
  simp only [entries, transformInterval, A1.map]
  refine List.map_congr_left fun i _ => ?_
  field_simp; ring

example : ((-1 : ℝ) ≠ 1) ∧ ((0 : ℝ) < 2 * Real.pi) := ⟨by norm_num, by positivity⟩

/-! ## C49: `Gauss_Legendre_quad` -/

/-- Affine change of variable in the integral of a polynomial. -/
theorem integral_affine (p : Polynomial ℝ) (c d : ℝ) :
    ∫ x in c..d, p.eval x = (d - c) / 2 * ∫ x in (-1 : ℝ)..1, p.eval ((x + 1) * (d - c) / 2 + c) := by
  rcases eq_or_ne c d with rfl | hcd
  · simp
  have h : (d - c) / 2 ≠ 0 := div_ne_zero (sub_ne_zero.mpr hcd.symm) two_ne_zero
  have := intervalIntegral.integral_comp_mul_add (a := (-1 : ℝ)) (b := 1) (fun x => p.eval x) h ((d - c) / 2 + c)
  rw [show (fun x => p.eval ((x + 1) * (d - c) / 2 + c)) = fun x => p.eval ((d - c) / 2 * x + ((d - c) / 2 + c)) from
    funext fun x => by congr 1; ring]
  rw [this, smul_eq_mul, ← mul_assoc, mul_inv_cancel₀ h, one_mul]
  congr 1 <;> ring

/-- **C49.** Whatever degree the rule of `leggauss` integrates exactly on `[-1, 1]`, the transported rule integrates exactly on
`[c, d]`, including reversed and empty intervals. -/
theorem C49_exact (E : Ext) {N : ℕ} (hN : 0 < N) (c d : ℝ) (k : ℕ)
    (hE : ∀ p : Polynomial ℝ, p.natDegree ≤ k →
      ∑ i ∈ range N, (E.leggauss N).2 i * p.eval ((E.leggauss N).1 i) = ∫ x in (-1 : ℝ)..1, p.eval x) :
    ∃ x w, gaussLegendreQuad E N c d = .ok (x, w) ∧ x.n = N ∧ w.n = N ∧ ∀ p : Polynomial ℝ, p.natDegree ≤ k →
      ∑ i ∈ range N, w.get i * p.eval (x.get i) = ∫ x in c..d, p.eval x := by
  unfold gaussLegendreQuad
  rw [if_neg hN.ne']
  refine ⟨_, _, rfl, rfl, rfl, fun p hp => ?_⟩
  rw [integral_affine]
  let q : Polynomial ℝ := p.comp (Polynomial.C ((d - c) / 2) * Polynomial.X + Polynomial.C ((d - c) / 2 + c))
  have hq : ∀ x, q.eval x = p.eval ((x + 1) * (d - c) / 2 + c) := fun x => by
    simp only [q, Polynomial.eval_comp, Polynomial.eval_add, Polynomial.eval_mul, Polynomial.eval_C, Polynomial.eval_X]
    congr 1; ring
  have hdeg : q.natDegree ≤ k := by
    refine Polynomial.natDegree_comp_le.trans ?_
    calc p.natDegree * _ ≤ p.natDegree * 1 := Nat.mul_le_mul le_rfl Polynomial.natDegree_linear_le
      _ ≤ k := by omega
  simp_rw [← hq]
  rw [← hE q hdeg, mul_sum]
  refine sum_congr rfl fun i _ => ?_
  rw [hq]
  simp only [transformWeights, transformInterval, A1.map]
  rw [show ((E.leggauss N).1 i - -1) * (d - c) / (1 - -1) + c = ((E.leggauss N).1 i + 1) * (d - c) / 2 + c by ring]
  ring

/-- **C49.** Under the contract of `leggauss` the rule on `[c, d]` has nodes strictly inside, positive weights with sum `d - c`, and is
exact up to degree `2 N - 1`. -/
theorem C49_gauss (E : Ext) {N : ℕ} (hN : 0 < N) (hE : GaussContract E N) {c d : ℝ} (hcd : c < d) :
    ∃ x w, gaussLegendreQuad E N c d = .ok (x, w) ∧ x.n = N ∧ w.n = N ∧
      (∀ i < N, c < x.get i ∧ x.get i < d) ∧ (∀ i < N, 0 < w.get i) ∧ ∑ i ∈ range N, w.get i = d - c ∧
      ∀ p : Polynomial ℝ, p.natDegree ≤ 2 * N - 1 → ∑ i ∈ range N, w.get i * p.eval (x.get i) = ∫ x in c..d, p.eval x := by
  obtain ⟨x, w, h1, h2, h3, h4⟩ := C49_exact E hN c d (2 * N - 1) hE.exact
  refine ⟨x, w, h1, h2, h3, ?_, ?_, ?_, h4⟩
  · intro i hi
    unfold gaussLegendreQuad at h1
    rw [if_neg hN.ne'] at h1
    injection h1 with h1
    injection h1 with hx hw
    subst hx
    simp only [transformInterval, A1.map]
    obtain ⟨l, r⟩ := hE.node i hi
    constructor
    · have : 0 < ((E.leggauss N).1 i - -1) * (d - c) / (1 - -1) :=
        div_pos (mul_pos (by linarith) (by linarith)) (by norm_num)
      linarith
    · have : 0 < (1 - (E.leggauss N).1 i) * (d - c) / 2 :=
        div_pos (mul_pos (by linarith) (by linarith)) (by norm_num)
      linarith
  · intro i hi
    unfold gaussLegendreQuad at h1
    rw [if_neg hN.ne'] at h1
    injection h1 with h1
    injection h1 with hx hw
    subst hw
    simp only [transformWeights, A1.map]
    exact div_pos (mul_pos (hE.weight i hi) (by linarith)) (by norm_num)
  · have := h4 1 (by simp)
    simpa using this

/-- **C49.** Zero nodes are refused. -/
theorem C49_zero (E : Ext) (c d : ℝ) : ∃ msg, gaussLegendreQuad E 0 c d = .error (.valueError msg) := ⟨_, if_pos rfl⟩

/-- The contract is met by a quadrature rule for every number of nodes. -/
example (N : ℕ) (hN : 0 < N) : ∃ E, GaussContract E N ∧ ∃ x w, gaussLegendreQuad E N 0 1 = .ok (x, w) ∧ ∑ i ∈ range N, w.get i = 1 := by
  refine ⟨refExt, refExt_gauss hN, ?_⟩
  obtain ⟨x, w, h1, -, -, -, -, h2, -⟩ := C49_gauss refExt hN (refExt_gauss hN) (c := 0) (d := 1) (by norm_num)
  exact ⟨x, w, h1, by rw [h2]; norm_num⟩

/-! ## C51: `calculate_nu` -/

theorem squeezeIx_squeezedIx {shape ix : List ℕ} (h : ValidIx shape ix) : squeezeIx shape (squeezedIx shape ix) = ix := by
  induction h with
  | nil => rfl
  | @cons d i ds is hd _ ih =>
    simp only [squeezedIx, squeezeIx]
    split_ifs with h1
    · rw [ih]; congr 1; omega
    · simp only [ih]

/-- Squeezing loses no entry. -/
theorem squeeze_get {α : Type} (a : ND α) {ix : List ℕ} (h : ValidIx a.shape ix) :
    a.squeeze.get (squeezedIx a.shape ix) = a.get ix := by
  unfold ND.squeeze
  simp only [squeezeIx_squeezedIx h]

/-- The entry of `calculate_nu(mu, phi, mu_p, phi_p)` for the angles with positions `i`, `j`, `k`, `l`. -/
def Spec.nuAt (mu phi mup phip : A1 ℝ) (i j k l : ℕ) : ℝ :=
  (calculateNu mu phi mup phip).get (squeezedIx [mu.n, phi.n, mup.n, phip.n] [i, j, k, l])

/-- An array of cosines. -/
def Spec.Cosines (mu : A1 ℝ) : Prop := ∀ i < mu.n, -1 ≤ mu.get i ∧ mu.get i ≤ 1

theorem nuAt_eq {mu phi mup phip : A1 ℝ} {i j k l : ℕ} (hi : i < mu.n) (hj : j < phi.n) (hk : k < mup.n) (hl : l < phip.n) :
    nuAt mu phi mup phip i j k l = nuVal (mu.get i) (phi.get j) (mup.get k) (phip.get l) := by
  unfold nuAt calculateNu
  exact squeeze_get _ (.cons hi (.cons hj (.cons hk (.cons hl .nil))))

/-- **C51.** Every entry is the scalar product of the two direction vectors. -/
theorem C51_dot (mu phi mup phip : A1 ℝ) {i j k l : ℕ} (hi : i < mu.n) (hj : j < phi.n) (hk : k < mup.n) (hl : l < phip.n) :
    nuAt mu phi mup phip i j k l = dot3 (direction (mu.get i) (phi.get j)) (direction (mup.get k) (phip.get l)) := by
  rw [nuAt_eq hi hj hk hl]
  unfold nuVal dot3 direction
  simp only [Matrix.cons_val_zero, Matrix.cons_val_one, Matrix.cons_val]
  rw [Real.cos_sub]; ring

/-- The direction vectors are unit vectors. -/
theorem C51_unit {mu : ℝ} (h : -1 ≤ mu ∧ mu ≤ 1) (phi : ℝ) : dot3 (direction mu phi) (direction mu phi) = 1 := by
  unfold dot3 direction
  simp only [Matrix.cons_val_zero, Matrix.cons_val_one, Matrix.cons_val]
  have h1 : Real.sqrt (1 - mu ^ 2) ^ 2 = 1 - mu ^ 2 := Real.sq_sqrt (by nlinarith)
  have h2 := Real.sin_sq_add_cos_sq phi
  linear_combination h1 * (Real.cos phi ^ 2 + Real.sin phi ^ 2) + (1 - mu ^ 2) * h2

/-- **C51.** Every entry lies in `[-1, 1]`. -/
theorem C51_range (mu phi mup phip : A1 ℝ) (h : Cosines mu) (h' : Cosines mup) {i j k l : ℕ} (hi : i < mu.n) (hj : j < phi.n)
    (hk : k < mup.n) (hl : l < phip.n) : -1 ≤ nuAt mu phi mup phip i j k l ∧ nuAt mu phi mup phip i j k l ≤ 1 := by
  rw [C51_dot mu phi mup phip hi hj hk hl]
  have h1 := C51_unit (h i hi) (phi.get j)
  have h2 := C51_unit (h' k hk) (phip.get l)
  generalize direction (mu.get i) (phi.get j) = v at *
  generalize direction (mup.get k) (phip.get l) = w at *
  unfold dot3 at *
  constructor
  · nlinarith [sq_nonneg (v 0 + w 0), sq_nonneg (v 1 + w 1), sq_nonneg (v 2 + w 2)]
  · nlinarith [sq_nonneg (v 0 - w 0), sq_nonneg (v 1 - w 1), sq_nonneg (v 2 - w 2)]

/-- **C51.** Exchanging the directions transposes the array. -/
theorem C51_symmetric (mu phi mup phip : A1 ℝ) {i j k l : ℕ} (hi : i < mu.n) (hj : j < phi.n) (hk : k < mup.n) (hl : l < phip.n) :
    nuAt mup phip mu phi k l i j = nuAt mu phi mup phip i j k l := by
  rw [C51_dot _ _ _ _ hk hl hi hj, C51_dot _ _ _ _ hi hj hk hl]
  unfold dot3; ring

/-- **C51.** Identical directions give 1. -/
theorem C51_same (mu phi mup phip : A1 ℝ) (h : Cosines mu) {i j k l : ℕ} (hi : i < mu.n) (hj : j < phi.n) (hk : k < mup.n)
    (hl : l < phip.n) (hm : mup.get k = mu.get i) (hp : phip.get l = phi.get j) : nuAt mu phi mup phip i j k l = 1 := by
  rw [C51_dot _ _ _ _ hi hj hk hl, hm, hp]
  exact C51_unit (h i hi) _

/-- **C51.** Opposite directions give -1. -/
theorem C51_opposite (mu phi mup phip : A1 ℝ) (h : Cosines mu) {i j k l : ℕ} (hi : i < mu.n) (hj : j < phi.n) (hk : k < mup.n)
    (hl : l < phip.n) (hm : mup.get k = -mu.get i) (hp : phip.get l = phi.get j + Real.pi) :
    nuAt mu phi mup phip i j k l = -1 := by
  rw [C51_dot _ _ _ _ hi hj hk hl, hm, hp, ← C51_unit (h i hi) (phi.get j)]
  unfold dot3 direction
  simp only [Matrix.cons_val_zero, Matrix.cons_val_one, Matrix.cons_val, Real.cos_add_pi, Real.sin_add_pi]
  rw [neg_sq]; ring

/-- **C51.** Whole turns of either azimuth change nothing. -/
theorem C51_periodic (mu phi mup phip : A1 ℝ) (z z' : ℤ) {i j k l : ℕ} (hi : i < mu.n) (hj : j < phi.n) (hk : k < mup.n)
    (hl : l < phip.n) :
    nuAt mu (phi.map (· + z * (2 * Real.pi))) mup (phip.map (· + z' * (2 * Real.pi))) i j k l = nuAt mu phi mup phip i j k l := by
  rw [nuAt_eq hi hj hk hl, nuAt_eq hi (by simpa [A1.map] using hj) hk (by simpa [A1.map] using hl)]
  unfold nuVal A1.map
  simp only
  rw [show phip.get l + z' * (2 * Real.pi) - (phi.get j + z * (2 * Real.pi)) = phip.get l - phi.get j + ((z' - z : ℤ) : ℝ) * (2 * Real.pi) by
    push_cast; ring]
  rw [Real.cos_add_int_mul_two_pi]

/-- **C51.** The axes of the result are `mu, phi, mu_p, phi_p`, without those of size one. -/
theorem C51_shape (mu phi mup phip : A1 ℝ) :
    (calculateNu mu phi mup phip).shape = [mu.n, phi.n, mup.n, phip.n].filter (· ≠ 1) := rfl

example : Cosines ⟨2, fun i => if i = 0 then 1 / 2 else -1⟩ := by
  intro i _
  simp only
  split_ifs <;> norm_num

/-! ## C53: `atleast_2d_append` -/

/-- **C53.** A 0-d array becomes a `(1, 1)` array with the same entry. -/
theorem C53_scalar (a : ND ℝ) (h : a.shape = []) :
    (atleast2dAppend a).shape = [1, 1] ∧ (atleast2dAppend a).get [0, 0] = a.get [] := by
  unfold atleast2dAppend
  rw [h]
  exact ⟨rfl, rfl⟩

/-- **C53.** A 1-d array becomes a column with the same entries. -/
theorem C53_vector (a : ND ℝ) {n : ℕ} (h : a.shape = [n]) :
    (atleast2dAppend a).shape = [n, 1] ∧ ∀ i < n, (atleast2dAppend a).get [i, 0] = a.get [i] := by
  unfold atleast2dAppend
  rw [h]
  exact ⟨rfl, fun _ _ => rfl⟩

/-- **C53.** Arrays with two or more axes are returned unchanged. -/
theorem C53_higher (a : ND ℝ) (h : 2 ≤ a.shape.length) : atleast2dAppend a = a := by
  unfold atleast2dAppend
  match hs : a.shape with
  | [] => rw [hs] at h; simp at h
  | [_] => rw [hs] at h; simp at h
  | _ :: _ :: _ => rfl

/-- **C53.** The result always has at least two axes. -/
theorem C53_rank (a : ND ℝ) : 2 ≤ (atleast2dAppend a).shape.length := by
  match hs : a.shape with
  | [] => rw [(C53_scalar a hs).1]; simp
  | [_] => rw [(C53_vector a hs).1]; simp
  | _ :: _ :: _ => rw [C53_higher a (by rw [hs]; simp), hs]; simp

/-- **C53.** One argument gives one array; any other number of arguments gives the list of the arrays, in order. -/
theorem C53_arguments (arys : List (ND ℝ)) :
    (∀ a, arys = [a] → atleast2dAppendArgs arys = .inl (atleast2dAppend a)) ∧
      (arys.length ≠ 1 → atleast2dAppendArgs arys = .inr (arys.map atleast2dAppend)) := by
  constructor
  · rintro a rfl; rfl
  · intro h
    match arys with
    | [] => rfl
    | [_] => simp at h
    | _ :: _ :: _ => rfl

/-! ## C59, C60: `affine_transform_poly_coeffs` -/

/-- **C59.** Row by row, the returned coefficients describe the same polynomial in the variable `a x + b`. -/
theorem C59_affine (poly : A2 ℝ) (a b : A1 ℝ) (hn : a.n = poly.r) (hb : b.n = poly.r) (h0 : 0 < poly.r)
    (ha : ∀ l < a.n, a.get l ≠ 0) :
    ∃ D, affineTransform poly a b = .ok D ∧ D.r = poly.r ∧ D.c = poly.c ∧
      ∀ l < poly.r, ∀ x, polyVal poly.c (D.get l) (a.get l * x + b.get l) = polyVal poly.c (poly.get l) x := by
  have hb1 : bdim a.n b.n = .ok a.n := by unfold bdim; rw [if_pos (by rw [hn, hb])]
  have hb2 : bdim a.n poly.r = .ok a.n := by unfold bdim; rw [if_pos hn]
  have hix : ∀ l < a.n, bix a.n l = l := fun l hl => by unfold bix; split_ifs <;> omega
  unfold affineTransform
  rw [if_neg (by push Not; exact ⟨0, by omega, ha 0 (by omega)⟩)]
  simp only [hb1, bind, Except.bind, hb2]
  refine ⟨_, rfl, hn, rfl, fun l hl x => ?_⟩
  unfold polyVal
  simp only
  rw [hix l (by omega), show bix poly.r l = l by rw [← hn]; exact hix l (by omega), hix l (by omega),
    show bix b.n l = l by rw [hb, ← hn]; exact hix l (by omega)]
  exact affineT_sum (ha l (by omega)) _ _ _ _

/-- **C60 is false.** The test on line 594 is `np.any(a_arr) == 0`: with the scale factors `1, 0` nothing is raised. -/
theorem C60_false : ¬ ∀ (poly : A2 ℝ) (a b : A1 ℝ), a.n = poly.r → b.n = poly.r → (∃ l < a.n, a.get l = 0) →
    ∃ msg, affineTransform poly a b = .error (.valueError msg) := by
  intro h
  obtain ⟨msg, hm⟩ := h ⟨2, 1, fun _ _ => 1⟩ ⟨2, fun i => if i = 0 then 1 else 0⟩ ⟨2, fun _ => 0⟩ rfl rfl ⟨1, by norm_num, by simp⟩
  unfold affineTransform at hm
  rw [if_neg (by push Not; exact ⟨0, by norm_num, by norm_num⟩)] at hm
  simp [bdim, bind, Except.bind, pure, Except.pure] at hm

/-- **C60, what holds.** `ValueError` is raised exactly when *all* scale factors are zero. Missing: arrays with both zero and non-zero
scale factors, for which the code goes on to divide by zero. -/
theorem C60_all_zero_partial (poly : A2 ℝ) (a b : A1 ℝ) :
    (∃ msg, affineTransform poly a b = .error (.valueError msg)) ↔ ∀ l < a.n, a.get l = 0 := by
  unfold affineTransform
  constructor
  · rintro ⟨msg, h⟩
    by_contra hc
    push Not at hc
    rw [if_neg (by push Not; exact hc)] at h
    have hs : ∀ x y : ℕ, (∃ z, bdim x y = .ok z) ∨ bdim x y = .error .shapeError := fun x y => by
      unfold bdim; split_ifs <;> simp
    rcases hs a.n b.n with ⟨z, hz⟩ | hz
    · rcases hs z poly.r with ⟨z', hz'⟩ | hz'
      · simp [hz, hz', bind, Except.bind, pure, Except.pure] at h
      · simp [hz, hz', bind, Except.bind] at h
    · simp [hz, bind, Except.bind] at h
  · intro h
    rw [if_pos (by push Not; exact h)]
    exact ⟨_, rfl⟩

example : ∃ D, affineTransform ⟨1, 2, fun _ j => if j = 0 then 1 else 2⟩ ⟨1, fun _ => 2⟩ ⟨1, fun _ => 3⟩ = .ok D ∧
    ∀ x, polyVal 2 (D.get 0) (2 * x + 3) = 1 + 2 * x := by
  obtain ⟨D, h1, -, -, h2⟩ := C59_affine ⟨1, 2, fun _ j => if j = 0 then 1 else 2⟩ ⟨1, fun _ => 2⟩ ⟨1, fun _ => 3⟩ rfl rfl
    (by norm_num) (by simp)
  exact ⟨D, h1, fun x => by rw [h2 0 (by norm_num) x]; simp [polyVal, sum_range_succ]⟩

end

end Pydisort

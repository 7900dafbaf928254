import Verif.Subroutines.FD
import Mathlib.Tactic.FieldSimp
import Mathlib.Tactic.LinearCombination
import Mathlib.Analysis.Calculus.MeanValue
import Mathlib.Analysis.Calculus.Deriv.Pow

/-!
# C52: `generate_FD_mat`
-/

namespace Pydisort
open Finset

noncomputable section

theorem setItem_nonneg {n : ℕ} (M : Mat) {i j : ℕ} (hi : i < n) (hj : j < n) (v : ℝ) :
    setItem n M i j v = .ok fun r c => if r = i ∧ c = j then v else M r c := by
  unfold setItem
  simp only
  have e1 : (if (i : ℤ) < 0 then (i : ℤ) + n else i) = i := if_neg (by omega)
  have e2 : (if (j : ℤ) < 0 then (j : ℤ) + n else j) = j := if_neg (by omega)
  rw [e1, e2, if_pos (by omega)]
  rfl

theorem setItem_last {n : ℕ} (M : Mat) {i j : ℕ} (hi : i < n) (hj : j < n) (v : ℝ) :
    setItem n M (-((i : ℤ) + 1)) (-((j : ℤ) + 1)) v = .ok fun r c => if r = n - 1 - i ∧ c = n - 1 - j then v else M r c := by
  unfold setItem
  simp only
  rw [if_pos (by omega), if_pos (by omega), if_pos (by omega)]
  have h1 : (-((i : ℤ) + 1) + n).toNat = n - 1 - i := by omega
  have h2 : (-((j : ℤ) + 1) + n).toNat = n - 1 - j := by omega
  rw [h1, h2]

/-- Grid and matrix for at least three points: the grid is equally spaced from `a` to `b`, and a row of the matrix is a forward,
central or backward difference. -/
theorem generateFDMat_eq {n : ℕ} (hn : 3 ≤ n) (a b : ℝ) :
    ∃ tau M, generateFDMat n a b = .ok (tau, M) ∧ tau.n = n ∧ M.r = n ∧ M.c = n ∧
      (∀ k < n, tau.get k = a + k * ((b - a) / ((n : ℝ) - 1))) ∧ ∀ f : ℕ → ℝ, ∀ k < n, ∑ c ∈ range n, M.get k c * f c =
        if k = 0 then (-3 * f 0 + 4 * f 1 - f 2) / (2 * ((b - a) / ((n : ℝ) - 1)))
        else if k = n - 1 then (3 * f (n - 1) - 4 * f (n - 2) + f (n - 3)) / (2 * ((b - a) / ((n : ℝ) - 1)))
        else (f (k + 1) - f (k - 1)) / (2 * ((b - a) / ((n : ℝ) - 1))) := by
  have hh : (linspace a b n).get 1 - (linspace a b n).get 0 = (b - a) / ((n : ℝ) - 1) := by
    unfold linspace
    simp only
    rw [if_neg (by omega), if_neg (by omega)]
    push_cast; ring
  unfold generateFDMat
  rw [if_neg (by omega)]
  simp only [show (n : ℤ).toNat = n by omega, hh]
  rw [if_neg (by simp [linspace]; omega)]
  set h := (b - a) / ((n : ℝ) - 1) with hdef
  have s1 := fun M v => setItem_nonneg (n := n) M (i := 0) (j := 0) (by omega) (by omega) v
  have s2 := fun M v => setItem_nonneg (n := n) M (i := 0) (j := 1) (by omega) (by omega) v
  have s3 := fun M v => setItem_nonneg (n := n) M (i := 0) (j := 2) (by omega) (by omega) v
  have s4 := fun M v => setItem_last (n := n) M (i := 0) (j := 0) (by omega) (by omega) v
  have s5 := fun M v => setItem_last (n := n) M (i := 0) (j := 1) (by omega) (by omega) v
  have s6 := fun M v => setItem_last (n := n) M (i := 0) (j := 2) (by omega) (by omega) v
  norm_num at s1 s2 s3 s4 s5 s6
  simp only [s1, s2, s3, s4, s5, s6, bind, Except.bind, pure, Except.pure]
  refine ⟨_, _, rfl, rfl, rfl, rfl, fun k _ => ?_, fun f k hk => ?_⟩
  · unfold linspace; simp only; rw [if_neg (by omega)]
  · obtain ⟨m, rfl⟩ : ∃ m, n = m + 3 := ⟨n - 3, by omega⟩
    simp only [show m + 3 - 1 = m + 2 by omega, show m + 3 - 1 - 1 = m + 1 by omega, show m + 3 - 1 - 2 = m by omega,
      show m + 3 - 2 = m + 1 by omega, show m + 3 - 3 = m by omega]
    by_cases h0 : k = 0
    · subst h0
      rw [if_pos rfl]
      rw [← sum_subset (s₁ := {0, 1, 2}) (fun x hx => by simp at hx; rw [mem_range]; omega)]
      · rw [sum_insert (by simp), sum_insert (by simp), sum_singleton]
        simp
        ring_nf
      · intro c hc hc'
        simp only [mem_insert, mem_singleton, not_or] at hc'
        rw [if_neg (by omega), if_neg (by omega), if_neg (by omega), if_neg (by omega), if_neg (by omega), if_neg (by omega),
          if_neg (by omega), if_neg (by omega), zero_mul]
    · rw [if_neg h0]
      by_cases h1 : k = m + 2
      · subst h1
        rw [if_pos rfl]
        rw [← sum_subset (s₁ := {m, m + 1, m + 2}) (fun x hx => by simp at hx; rw [mem_range]; omega)]
        · rw [sum_insert (by simp), sum_insert (by simp), sum_singleton]
          simp
          ring_nf
        · intro c hc hc'
          simp only [mem_insert, mem_singleton, not_or] at hc'
          have := mem_range.mp hc
          rw [if_neg (by omega), if_neg (by omega), if_neg (by omega), if_neg (by omega), if_neg (by omega), if_neg (by omega),
            if_neg (by omega), if_neg (by omega), zero_mul]
      · rw [if_neg h1]
        rw [← sum_subset (s₁ := {k - 1, k + 1}) (fun x hx => by simp at hx; rw [mem_range]; omega)]
        · rw [sum_insert (by simp), sum_singleton]
          rw [if_neg (by omega), if_neg (by omega), if_neg (by omega), if_neg (by omega), if_neg (by omega), if_neg (by omega),
            if_pos (by omega), if_neg (by omega), if_neg (by omega), if_neg (by omega), if_neg (by omega), if_neg (by omega),
            if_neg (by omega), if_neg (by omega), if_pos (by omega)]
          ring
        · intro c hc hc'
          simp only [mem_insert, mem_singleton, not_or] at hc'
          rw [if_neg (by omega), if_neg (by omega), if_neg (by omega), if_neg (by omega), if_neg (by omega), if_neg (by omega),
            if_neg (by omega), if_neg (by omega), zero_mul]

/-- **C52.** Fewer than three grid points raise an error. -/
theorem C52_too_few (Ntau : ℤ) (h : Ntau < 3) (a b : ℝ) : ∃ e, generateFDMat Ntau a b = .error e := by
  unfold generateFDMat
  by_cases h0 : Ntau < 0
  · rw [if_pos h0]; exact ⟨_, rfl⟩
  rw [if_neg h0]
  obtain ⟨n, rfl⟩ : ∃ n : ℕ, Ntau = n := ⟨Ntau.toNat, by omega⟩
  by_cases h1 : n < 2
  · simp only [show (n : ℤ).toNat = n by omega]
    rw [if_pos (by simpa [linspace] using h1)]
    exact ⟨_, rfl⟩
  · have h2 : n = 2 := by omega
    subst h2
    refine ⟨.indexError, ?_⟩
    simp [linspace, setItem, bind, Except.bind, pure, Except.pure]

/-- **C52.** On the returned grid, which runs from `a` to `b` in equal steps, the matrix applied to the samples of a quadratic gives its
derivative at every grid point. -/
theorem C52_quadratic {n : ℕ} (hn : 3 ≤ n) {a b : ℝ} (hab : a ≠ b) :
    ∃ tau M, generateFDMat n a b = .ok (tau, M) ∧ tau.n = n ∧ M.r = n ∧ M.c = n ∧ tau.get 0 = a ∧ tau.get (n - 1) = b ∧
      (∀ k, k + 1 < n → tau.get (k + 1) - tau.get k = (b - a) / (n - 1)) ∧
      ∀ p q r : ℝ, ∀ k < n, ∑ c ∈ range n, M.get k c * (p + q * tau.get c + r * tau.get c ^ 2) = q + 2 * r * tau.get k := by
  obtain ⟨tau, M, h1, h2, h3, h4, h5, h6⟩ := generateFDMat_eq hn a b
  have hn' : (n : ℝ) - 1 ≠ 0 := by
    have : (3 : ℝ) ≤ n := by exact_mod_cast hn
    intro hc; linarith
  have hh : (b - a) / ((n : ℝ) - 1) ≠ 0 := div_ne_zero (sub_ne_zero.mpr hab.symm) hn'
  have hstep : ∀ k, k + 1 < n → tau.get (k + 1) - tau.get k = (b - a) / ((n : ℝ) - 1) := fun k hk => by
    rw [h5 _ hk, h5 k (by omega)]; push_cast; ring
  refine ⟨tau, M, h1, h2, h3, h4, ?_, ?_, hstep, fun p q r k hk => ?_⟩
  · rw [h5 0 (by omega)]; simp
  · rw [h5 _ (by omega), Nat.cast_sub (by omega)]; push_cast; field_simp; ring
  · rw [h6 (fun c => p + q * tau.get c + r * tau.get c ^ 2) k hk]
    set h := (b - a) / ((n : ℝ) - 1)
    split_ifs with c1 c2
    · have e1 : tau.get 1 = tau.get 0 + h := by have := hstep 0 (by omega); linarith
      have e2 : tau.get 2 = tau.get 0 + 2 * h := by have := hstep 1 (by omega); norm_num at this; linarith
      rw [c1, e1, e2]; field_simp; ring
    · have e1 : tau.get (n - 2) = tau.get (n - 1) - h := by
        have := hstep (n - 2) (by omega); rw [show n - 2 + 1 = n - 1 by omega] at this; linarith
      have e2 : tau.get (n - 3) = tau.get (n - 1) - 2 * h := by
        have := hstep (n - 3) (by omega); rw [show n - 3 + 1 = n - 2 by omega] at this; linarith
      rw [c2, e1, e2]; field_simp; ring
    · have e1 : tau.get (k + 1) = tau.get k + h := by have := hstep k (by omega); linarith
      have e2 : tau.get (k - 1) = tau.get k - h := by
        have := hstep (k - 1) (by omega); rw [show k - 1 + 1 = k by omega] at this; linarith
      rw [e1, e2]; field_simp; ring

/-- A function with zero value at `x` whose derivative is at most `C |t - x|^k` is at most `C |t - x|^(k+1)`. -/
theorem abs_le_of_deriv {g g' : ℝ → ℝ} {a b x C : ℝ} {k : ℕ} (hx : x ∈ Set.uIcc a b) (hC : 0 ≤ C)
    (hg : ∀ t ∈ Set.uIcc a b, HasDerivAt g (g' t) t) (h0 : g x = 0) (hb : ∀ t ∈ Set.uIcc a b, |g' t| ≤ C * |t - x| ^ k) :
    ∀ t ∈ Set.uIcc a b, |g t| ≤ C * |t - x| ^ (k + 1) := by
  intro t ht
  have hsub : Set.uIcc x t ⊆ Set.uIcc a b := Set.uIcc_subset_uIcc hx ht
  have := Convex.norm_image_sub_le_of_norm_hasDerivWithin_le (f := g) (f' := g') (s := Set.uIcc x t) (x := x) (y := t)
    (C := C * |t - x| ^ k) (fun y hy => (hg y (hsub hy)).hasDerivWithinAt) (fun y hy => ?_) (convex_uIcc x t)
    Set.left_mem_uIcc Set.right_mem_uIcc
  · rw [h0, sub_zero, Real.norm_eq_abs, Real.norm_eq_abs] at this
    calc |g t| ≤ C * |t - x| ^ k * |t - x| := this
      _ = C * |t - x| ^ (k + 1) := by ring
  · rw [Real.norm_eq_abs]
    refine (hb y (hsub hy)).trans ?_
    have : |y - x| ≤ |t - x| := Set.abs_sub_left_of_mem_uIcc hy
    gcongr

/-- **C52, second order.** For a function with third derivative at most `C` in absolute value the matrix gives the derivative at every grid
point up to `6 C` times the square of the step. -/
theorem C52_second_order {n : ℕ} (hn : 3 ≤ n) {a b C : ℝ} (hab : a ≠ b) (f f1 f2 f3 : ℝ → ℝ)
    (d1 : ∀ t ∈ Set.uIcc a b, HasDerivAt f (f1 t) t) (d2 : ∀ t ∈ Set.uIcc a b, HasDerivAt f1 (f2 t) t)
    (d3 : ∀ t ∈ Set.uIcc a b, HasDerivAt f2 (f3 t) t) (hC : ∀ t ∈ Set.uIcc a b, |f3 t| ≤ C) :
    ∃ tau M, generateFDMat n a b = .ok (tau, M) ∧ ∀ k < n,
      |∑ c ∈ range n, M.get k c * f (tau.get c) - f1 (tau.get k)| ≤ 6 * C * ((b - a) / (n - 1)) ^ 2 := by
  obtain ⟨tau, M, h1, h2, h3, h4, h5, h6⟩ := generateFDMat_eq hn a b
  have hn1 : (0 : ℝ) < (n : ℝ) - 1 := by
    have : (3 : ℝ) ≤ n := by exact_mod_cast hn
    linarith
  have hh : (b - a) / ((n : ℝ) - 1) ≠ 0 := div_ne_zero (sub_ne_zero.mpr hab.symm) hn1.ne'
  have hC0 : 0 ≤ C := (abs_nonneg _).trans (hC a Set.left_mem_uIcc)
  refine ⟨tau, M, h1, fun k hk => ?_⟩
  have hmem : ∀ c < n, tau.get c ∈ Set.uIcc a b := fun c hc => by
    rw [h5 c hc]
    have hc' : (c : ℝ) ≤ (n : ℝ) - 1 := by
      have : (c : ℝ) + 1 ≤ n := by exact_mod_cast hc
      linarith
    have hs0 : (0 : ℝ) ≤ c / ((n : ℝ) - 1) := by positivity
    have hs1 : (c : ℝ) / ((n : ℝ) - 1) ≤ 1 := (div_le_one hn1).mpr hc'
    rw [show (c : ℝ) * ((b - a) / ((n : ℝ) - 1)) = c / ((n : ℝ) - 1) * (b - a) by ring]
    rcases le_total a b with hle | hle
    · rw [Set.uIcc_of_le hle]
      constructor <;> nlinarith
    · rw [Set.uIcc_of_ge hle]
      constructor <;> nlinarith
  set h := (b - a) / ((n : ℝ) - 1) with hdef
  set x := tau.get k with hxdef
  have hx := hmem k hk
  -- the remainder of the second Taylor polynomial at the grid point
  have taylor : ∀ t ∈ Set.uIcc a b, |f t - f x - f1 x * (t - x) - f2 x * (t - x) ^ 2 / 2| ≤ C * |t - x| ^ 3 := by
    have b3 : ∀ t ∈ Set.uIcc a b, |f2 t - f2 x| ≤ C * |t - x| ^ (0 + 1) :=
      abs_le_of_deriv (g' := f3) hx hC0 (fun t ht => (d3 t ht).sub_const _) (by ring) (fun t ht => by simpa using hC t ht)
    have b2 : ∀ t ∈ Set.uIcc a b, |f1 t - f1 x - f2 x * (t - x)| ≤ C * |t - x| ^ (0 + 1 + 1) := by
      refine abs_le_of_deriv (g' := fun t => f2 t - f2 x) hx hC0 (fun t ht => ?_) (by ring) b3
      exact (((d2 t ht).sub_const _).fun_sub (((hasDerivAt_id' t).sub_const x).const_mul (f2 x))).congr_deriv (by ring)
    refine abs_le_of_deriv (g' := fun t => f1 t - f1 x - f2 x * (t - x)) hx hC0 (fun t ht => ?_) (by ring) b2
    have e := ((((hasDerivAt_id' t).sub_const x).fun_pow 2).const_mul (f2 x)).div_const 2
    have e' := (((d1 t ht).sub_const (f x)).fun_sub (((hasDerivAt_id' t).sub_const x).const_mul (f1 x))).fun_sub e
    exact e'.congr_deriv (by norm_num; ring)
  rw [h6 (fun c => f (tau.get c)) k hk]
  have hgrid : ∀ c < n, tau.get c = x + ((c : ℝ) - k) * h := fun c hc => by rw [hxdef, h5 c hc, h5 k hk]; ring
  have rem : ∀ c < n, ∀ j : ℝ, tau.get c = x + j * h →
      ∃ e, f (tau.get c) = f x + f1 x * (j * h) + f2 x * (j * h) ^ 2 / 2 + e ∧ |e| ≤ C * |j| ^ 3 * |h| ^ 3 := fun c hc j hj => by
    refine ⟨f (tau.get c) - f x - f1 x * (j * h) - f2 x * (j * h) ^ 2 / 2, by ring, ?_⟩
    have := taylor _ (hmem c hc)
    rw [hj] at this ⊢
    rw [show x + j * h - x = j * h by ring] at this
    calc _ ≤ C * |j * h| ^ 3 := this
      _ = C * |j| ^ 3 * |h| ^ 3 := by rw [abs_mul]; ring
  have habs : 0 < |h| := abs_pos.mpr hh
  have hsq : |h| ^ 3 = h ^ 2 * |h| := by rw [pow_succ, sq_abs]
  have fin : ∀ E : ℝ, |E| ≤ 12 * C * |h| ^ 3 → |E / (2 * h)| ≤ 6 * C * h ^ 2 := fun E hE => by
    rw [abs_div, abs_mul, abs_two, div_le_iff₀ (by positivity)]
    rw [hsq] at hE
    linarith
  split_ifs with c1 c2
  · have e0 : tau.get 0 = x := by rw [hxdef, c1]
    obtain ⟨r1, q1, q1'⟩ := rem 1 (by omega) 1 (by rw [hgrid 1 (by omega), c1]; push_cast; ring)
    obtain ⟨r2, q2, q2'⟩ := rem 2 (by omega) 2 (by rw [hgrid 2 (by omega), c1]; push_cast; ring)
    beta_reduce
    rw [q1, q2, e0]
    have : (-3 * f x + 4 * (f x + f1 x * (1 * h) + f2 x * (1 * h) ^ 2 / 2 + r1) - (f x + f1 x * (2 * h) + f2 x * (2 * h) ^ 2 / 2 + r2)) / (2 * h) - f1 x
        = (4 * r1 - r2) / (2 * h) := by field_simp; ring
    rw [this]
    apply fin
    norm_num at q1' q2'
    rw [abs_le] at q1' q2' ⊢
    constructor <;> linarith [q1'.1, q1'.2, q2'.1, q2'.2]
  · have e0 : tau.get (n - 1) = x := by rw [hxdef, c2]
    have hk' : (k : ℝ) = n - 1 := by rw [c2, Nat.cast_sub (by omega)]; push_cast; ring
    obtain ⟨r1, q1, q1'⟩ := rem (n - 2) (by omega) (-1) (by
      rw [hgrid (n - 2) (by omega), hk', Nat.cast_sub (by omega)]; push_cast; ring)
    obtain ⟨r2, q2, q2'⟩ := rem (n - 3) (by omega) (-2) (by
      rw [hgrid (n - 3) (by omega), hk', Nat.cast_sub (by omega)]; push_cast; ring)
    beta_reduce
    rw [q1, q2, e0]
    have : (3 * f x - 4 * (f x + f1 x * (-1 * h) + f2 x * (-1 * h) ^ 2 / 2 + r1) + (f x + f1 x * (-2 * h) + f2 x * (-2 * h) ^ 2 / 2 + r2)) / (2 * h) - f1 x
        = (-4 * r1 + r2) / (2 * h) := by field_simp; ring
    rw [this]
    apply fin
    norm_num at q1' q2'
    rw [abs_le] at q1' q2' ⊢
    constructor <;> linarith [q1'.1, q1'.2, q2'.1, q2'.2]
  · obtain ⟨r1, q1, q1'⟩ := rem (k + 1) (by omega) 1 (by rw [hgrid (k + 1) (by omega)]; push_cast; ring)
    obtain ⟨r2, q2, q2'⟩ := rem (k - 1) (by omega) (-1) (by
      rw [hgrid (k - 1) (by omega), Nat.cast_sub (by omega)]; push_cast; ring)
    beta_reduce
    rw [q1, q2]
    have : (f x + f1 x * (1 * h) + f2 x * (1 * h) ^ 2 / 2 + r1 - (f x + f1 x * (-1 * h) + f2 x * (-1 * h) ^ 2 / 2 + r2)) / (2 * h) - f1 x
        = (r1 - r2) / (2 * h) := by field_simp; ring
    rw [this]
    apply fin
    norm_num at q1' q2'
    have hp : 0 ≤ C * |h| ^ 3 := by positivity
    rw [abs_le] at q1' q2' ⊢
    constructor <;> linarith [q1'.1, q1'.2, q2'.1, q2'.2]

example : (3 ≤ 4) ∧ ((0 : ℝ) ≠ 1) := ⟨by norm_num, by norm_num⟩

end

end Pydisort

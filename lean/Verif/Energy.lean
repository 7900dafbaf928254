import Mathlib.Analysis.Calculus.Deriv.MeanValue
import Mathlib.Analysis.Calculus.Deriv.Pow
import Mathlib.Analysis.Calculus.Deriv.Add
import Mathlib.Analysis.Calculus.Deriv.Mul
import Verif.NumPyLemmas

/-! The energy argument: a linear two-point boundary value problem whose operator dissipates energy has
only the zero solution when it has no source and its boundaries do not amplify. -/

namespace Pydisort
open Finset Set

/-- Hypotheses: `s i` is the (positive) flux weight of upward stream `i < n`, `-s (i - n)` that of the downward
stream; in every layer the quadratic form of the operator is positive. -/
structure Dissipative (n L : ℕ) (s : ℕ → ℝ) (A : ℕ → Mat) : Prop where
  pos : ∀ i < n, 0 < s i
  form : ∀ l < L, ∀ x : Vec, (∃ i < 2 * n, x i ≠ 0) →
    0 < ∑ i ∈ range (2 * n), (if i < n then s i else -s (i - n)) * x i * mulVec (2 * n) (A l) x i

/-- Signed flux weight. -/
noncomputable def sgn (n : ℕ) (s : ℕ → ℝ) (i : ℕ) : ℝ := if i < n then s i else -s (i - n)

theorem energy_zero_of {n L : ℕ} {s : ℕ → ℝ} {A : ℕ → Mat} (hL : 0 < L) (hD : Dissipative n L s A)
    {T : ℕ → ℝ} (hT : ∀ l < L, T l < T (l + 1)) {u : ℕ → ℝ → Vec}
    (hc : ∀ l < L, ∀ i < 2 * n, ContinuousOn (fun t => u l t i) (Icc (T l) (T (l + 1))))
    (hd : ∀ l < L, ∀ t ∈ Ioo (T l) (T (l + 1)), ∀ i < 2 * n,
      HasDerivAt (fun t => u l t i) (mulVec (2 * n) (A l) (u l t) i) t)
    (htop : ∑ i ∈ range n, s i * u 0 (T 0) (n + i) ^ 2 ≤ ∑ i ∈ range n, s i * u 0 (T 0) i ^ 2)
    (hmid : ∀ k < L - 1, ∀ i < 2 * n, u k (T (k + 1)) i = u (k + 1) (T (k + 1)) i)
    (hbot : ∑ i ∈ range n, s i * u (L - 1) (T L) i ^ 2 ≤ ∑ i ∈ range n, s i * u (L - 1) (T L) (n + i) ^ 2) :
    ∀ l < L, ∀ t ∈ Icc (T l) (T (l + 1)), ∀ i < 2 * n, u l t i = 0 := by
  set F : ℕ → ℝ → ℝ := fun l t => ∑ i ∈ range (2 * n), sgn n s i * u l t i ^ 2 with hF
  have hsplit : ∀ l t, F l t = ∑ i ∈ range n, s i * u l t i ^ 2 - ∑ i ∈ range n, s i * u l t (n + i) ^ 2 := by
    intro l t
    simp only [hF]
    rw [sum_range_two_mul, sub_eq_add_neg, ← sum_neg_distrib]
    congr 1
    · refine Finset.sum_congr rfl fun i hi => ?_
      rw [Finset.mem_range] at hi; simp [sgn, hi]
    · refine Finset.sum_congr rfl fun i _ => ?_
      simp [sgn]
  have hder : ∀ l < L, ∀ t ∈ Ioo (T l) (T (l + 1)), HasDerivAt (F l)
      (2 * ∑ i ∈ range (2 * n), sgn n s i * u l t i * mulVec (2 * n) (A l) (u l t) i) t := by
    intro l hl t ht
    have : HasDerivAt (F l) (∑ i ∈ range (2 * n), sgn n s i * (2 * u l t i * mulVec (2 * n) (A l) (u l t) i)) t := by
      refine HasDerivAt.fun_sum fun i hi => ?_
      have := ((hd l hl t ht i (Finset.mem_range.mp hi)).fun_pow 2).const_mul (sgn n s i)
      refine this.congr_deriv ?_
      simp
    refine this.congr_deriv ?_
    rw [mul_sum]
    exact Finset.sum_congr rfl fun i _ => by ring
  have hpos : ∀ l < L, ∀ x : Vec, (∃ i < 2 * n, x i ≠ 0) →
      0 < 2 * ∑ i ∈ range (2 * n), sgn n s i * x i * mulVec (2 * n) (A l) x i :=
    fun l hl x hx => mul_pos two_pos (hD.form l hl x hx)
  have hnn : ∀ l < L, ∀ x : Vec, 0 ≤ 2 * ∑ i ∈ range (2 * n), sgn n s i * x i * mulVec (2 * n) (A l) x i := by
    intro l hl x
    by_cases hx : ∃ i < 2 * n, x i ≠ 0
    · exact (hpos l hl x hx).le
    · push Not at hx
      rw [Finset.sum_eq_zero, mul_zero]
      intro i hi
      rw [hx i (Finset.mem_range.mp hi)]; ring
  have hcont : ∀ l < L, ContinuousOn (F l) (Icc (T l) (T (l + 1))) := by
    intro l hl
    refine continuousOn_finset_sum _ fun i hi => ?_
    exact continuousOn_const.mul ((hc l hl i (Finset.mem_range.mp hi)).pow 2)
  have hmono : ∀ l < L, MonotoneOn (F l) (Icc (T l) (T (l + 1))) := by
    intro l hl
    refine monotoneOn_of_deriv_nonneg (convex_Icc _ _) (hcont l hl) ?_ ?_
    · intro t ht
      rw [interior_Icc] at ht
      exact (hder l hl t ht).differentiableAt.differentiableWithinAt
    · intro t ht
      rw [interior_Icc] at ht
      rw [(hder l hl t ht).deriv]
      exact hnn l hl _
  have hlink : ∀ k < L - 1, F k (T (k + 1)) = F (k + 1) (T (k + 1)) := by
    intro k hk
    refine Finset.sum_congr rfl fun i hi => ?_
    rw [hmid k hk i (Finset.mem_range.mp hi)]
  have h0 : 0 ≤ F 0 (T 0) := by rw [hsplit]; linarith
  have hl : F (L - 1) (T L) ≤ 0 := by rw [hsplit]; linarith
  have hlow : ∀ l < L, 0 ≤ F l (T l) := by
    intro l
    induction l with
    | zero => exact fun _ => h0
    | succ l ih =>
      intro hl'
      have h1 := ih (by omega)
      rw [← hlink l (by omega)]
      have := hT l (by omega)
      exact h1.trans (hmono l (by omega) (left_mem_Icc.mpr this.le) (right_mem_Icc.mpr this.le) this.le)
  have hhigh : ∀ k < L, F (L - 1 - k) (T (L - 1 - k + 1)) ≤ 0 := by
    intro k
    induction k with
    | zero => intro _; rw [Nat.sub_zero, show L - 1 + 1 = L by omega]; exact hl
    | succ k ih =>
      intro hk
      have h1 := ih (by omega)
      set j := L - 1 - (k + 1) with hj
      rw [hlink j (by omega), show j + 1 = L - 1 - k by omega]
      have := hT (L - 1 - k) (by omega)
      exact (hmono _ (by omega) (left_mem_Icc.mpr this.le) (right_mem_Icc.mpr this.le) this.le).trans h1
  have hzero : ∀ l < L, ∀ t ∈ Icc (T l) (T (l + 1)), F l t = 0 := by
    intro l hl' t ht
    have h1 := hlow l hl'
    have h2 := hhigh (L - 1 - l) (by omega)
    rw [show L - 1 - (L - 1 - l) = l by omega] at h2
    have h := hT l hl'
    have h3 := hmono l hl' (left_mem_Icc.mpr h.le) ht ht.1
    have h4 := hmono l hl' ht (right_mem_Icc.mpr h.le) ht.2
    linarith
  have hin : ∀ l < L, ∀ t ∈ Ioo (T l) (T (l + 1)), ∀ i < 2 * n, u l t i = 0 := by
    intro l hl' t ht
    by_contra hne
    push Not at hne
    have h1 := hpos l hl' (u l t) (by obtain ⟨i, hi, h⟩ := hne; exact ⟨i, hi, h⟩)
    have h2 : HasDerivAt (F l) 0 t := by
      refine (hasDerivAt_const t (0 : ℝ)).congr_of_eventuallyEq ?_
      filter_upwards [Ioo_mem_nhds ht.1 ht.2] with x hx
      exact hzero l hl' x (Ioo_subset_Icc_self hx)
    rw [(hder l hl' t ht).unique h2] at h1
    exact lt_irrefl _ h1
  intro l hl' t ht i hi
  have h := hT l hl'
  have : EqOn (fun t => u l t i) (fun _ => 0) (Icc (T l) (T (l + 1))) := by
    refine EqOn.of_subset_closure (s := Ioo (T l) (T (l + 1))) (fun x hx => hin l hl' x hx i hi)
      (hc l hl' i hi) continuousOn_const Ioo_subset_Icc_self ?_
    rw [closure_Ioo h.ne]
  exact this ht

theorem energy_zero {n L : ℕ} {s : ℕ → ℝ} {A : ℕ → Mat} (hL : 0 < L) (hD : Dissipative n L s A)
    {T : ℕ → ℝ} (hT : ∀ l < L, T l < T (l + 1)) {u : ℕ → ℝ → Vec}
    (hc : ∀ l < L, ∀ i < 2 * n, ContinuousOn (fun t => u l t i) (Icc (T l) (T (l + 1))))
    (hd : ∀ l < L, ∀ t ∈ Ioo (T l) (T (l + 1)), ∀ i < 2 * n,
      HasDerivAt (fun t => u l t i) (mulVec (2 * n) (A l) (u l t) i) t)
    (htop : ∀ i < n, u 0 (T 0) (n + i) = 0)
    (hmid : ∀ k < L - 1, ∀ i < 2 * n, u k (T (k + 1)) i = u (k + 1) (T (k + 1)) i)
    (hbot : ∑ i ∈ range n, s i * u (L - 1) (T L) i ^ 2 ≤ ∑ i ∈ range n, s i * u (L - 1) (T L) (n + i) ^ 2) :
    ∀ l < L, ∀ t ∈ Icc (T l) (T (l + 1)), ∀ i < 2 * n, u l t i = 0 := by
  refine energy_zero_of hL hD hT hc hd ?_ hmid hbot
  rw [Finset.sum_eq_zero fun i hi => by rw [htop i (Finset.mem_range.mp hi)]; ring]
  exact Finset.sum_nonneg fun i hi => mul_nonneg (hD.pos i (Finset.mem_range.mp hi)).le (sq_nonneg _)

end Pydisort

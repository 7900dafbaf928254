import Mathlib.Analysis.Calculus.Deriv.MeanValue
import Mathlib.Topology.Order.Compact
import Mathlib.Algebra.Order.BigOperators.Group.Finset
import Mathlib.Tactic.Linarith
import Mathlib.Tactic.Positivity

/-!
# A minimum principle for systems of transfer equations

Purely analytic; nothing here refers to the model of the code.
-/

namespace Pydisort
open Finset Set

/-- A function that starts to decrease is smaller a little later. -/
theorem exists_lt_right {f : ℝ → ℝ} {t b : ℝ} (hb : t < b) (hc : ContinuousOn f (Icc t b))
    (hd : ∃ c, t < c ∧ ∀ x, t < x → x < c → x < b → ∃ d, HasDerivAt f d x ∧ d < 0) : ∃ x, t < x ∧ x ≤ b ∧ f x < f t := by
  obtain ⟨c, hc1, hd⟩ := hd
  have hlt : t < min c b := lt_min hc1 hb
  have hanti : StrictAntiOn f (Icc t (min c b)) := by
    refine strictAntiOn_of_deriv_neg (convex_Icc _ _) (hc.mono (Icc_subset_Icc_right (min_le_right _ _))) fun x hx => ?_
    rw [interior_Icc] at hx
    obtain ⟨d, h1, h2⟩ := hd x hx.1 (lt_of_lt_of_le hx.2 (min_le_left _ _)) (lt_of_lt_of_le hx.2 (min_le_right _ _))
    rw [h1.deriv]; exact h2
  exact ⟨min c b, hlt, min_le_right _ _, hanti (left_mem_Icc.2 hlt.le) (right_mem_Icc.2 hlt.le) hlt⟩

/-- A function that increases up to `t` is smaller a little earlier. -/
theorem exists_lt_left {f : ℝ → ℝ} {t b : ℝ} (hb : b < t) (hc : ContinuousOn f (Icc b t))
    (hd : ∃ c, c < t ∧ ∀ x, x < t → c < x → b < x → ∃ d, HasDerivAt f d x ∧ 0 < d) : ∃ x, b ≤ x ∧ x < t ∧ f x < f t := by
  obtain ⟨c, hc1, hd⟩ := hd
  have hlt : max c b < t := max_lt hc1 hb
  have hmono : StrictMonoOn f (Icc (max c b) t) := by
    refine strictMonoOn_of_deriv_pos (convex_Icc _ _) (hc.mono (Icc_subset_Icc_left (le_max_right _ _))) fun x hx => ?_
    rw [interior_Icc] at hx
    obtain ⟨d, h1, h2⟩ := hd x hx.2 (lt_of_le_of_lt (le_max_left _ _) hx.1) (lt_of_le_of_lt (le_max_right _ _) hx.1)
    rw [h1.deriv]; exact h2
  exact ⟨max c b, le_max_right _ _, hlt, hmono (left_mem_Icc.2 hlt.le) (right_mem_Icc.2 hlt.le) hlt⟩

/-- **Minimum principle.** `V t i` (`i < 2 N`; the first `N` components travel towards smaller, the others towards larger `t`) satisfies, in each of
the layers `[b l, b (l + 1)]`, `σ_i V_i' ≤ c (V_i - Σ_j k_ij V_j)` with a non-negative kernel whose row sums are below one. The light that enters at the top is
non-negative, and what leaves the bottom is at least what a surface with non-negative reflectances of total at most one reflects. Then `V` is
non-negative. -/
theorem min_principle {N L : ℕ} {b : ℕ → ℝ} (hb0 : b 0 = 0) (hb : ∀ l < L, b l < b (l + 1)) {V : ℝ → ℕ → ℝ}
    (hV : ∀ i < 2 * N, ContinuousOn (fun t => V t i) (Icc 0 (b L))) {σ : ℕ → ℝ} (hσ : ∀ i < N, 0 < σ i)
    (hσ' : ∀ i, N ≤ i → i < 2 * N → σ i < 0) {c : ℕ → ℝ} (hc : ∀ l < L, 0 < c l) {k : ℕ → ℕ → ℕ → ℝ}
    (hk : ∀ l < L, ∀ i < 2 * N, ∀ j < 2 * N, 0 ≤ k l i j) (hk1 : ∀ l < L, ∀ i < 2 * N, ∑ j ∈ range (2 * N), k l i j < 1)
    (hode : ∀ l < L, ∀ t, b l < t → t < b (l + 1) → ∀ i < 2 * N, ∃ d, HasDerivAt (fun x => V x i) d t ∧
      σ i * d ≤ c l * (V t i - ∑ j ∈ range (2 * N), k l i j * V t j))
    (htop : ∀ i < N, 0 ≤ V 0 (N + i)) {r : ℕ → ℕ → ℝ} (hr : ∀ i < N, ∀ j < N, 0 ≤ r i j)
    (hr1 : ∀ i < N, ∑ j ∈ range N, r i j ≤ 1) (hbot : ∀ i < N, ∑ j ∈ range N, r i j * V (b L) (N + j) ≤ V (b L) i) :
    ∀ t, 0 ≤ t → t ≤ b L → ∀ i < 2 * N, 0 ≤ V t i := by
  have hbl : ∀ l l', l ≤ l' → l' ≤ L → b l ≤ b l' := by
    intro l l' h
    induction l', h using Nat.le_induction with
    | base => intro _; exact le_rfl
    | succ n hn ih => intro hL; exact (ih (by omega)).trans (hb n (by omega)).le
  have hT : 0 ≤ b L := hb0 ▸ hbl 0 L (Nat.zero_le _) le_rfl
  intro t ht0 ht1 i hi
  by_contra hneg
  push Not at hneg
  -- a global minimum
  have hmin : ∃ t0 ∈ Icc 0 (b L), ∃ i0 < 2 * N, ∀ x ∈ Icc 0 (b L), ∀ j < 2 * N, V t0 i0 ≤ V x j := by
    have h1 : ∀ j < 2 * N, ∃ x ∈ Icc 0 (b L), ∀ y ∈ Icc 0 (b L), V x j ≤ V y j := fun j hj =>
      isCompact_Icc.exists_isMinOn ⟨0, left_mem_Icc.2 hT⟩ (hV j hj)
    choose! x hx hxm using h1
    obtain ⟨j0, hj0, hm⟩ := (range (2 * N)).exists_min_image (fun j => V (x j) j) ⟨i, mem_range.2 hi⟩
    exact ⟨x j0, hx j0 (mem_range.1 hj0), j0, mem_range.1 hj0, fun y hy j hj => (hm j (mem_range.2 hj)).trans (hxm j hj y hy)⟩
  obtain ⟨t0, ht0', i0, hi0, hm⟩ := hmin
  set M := V t0 i0 with hM
  have hM0 : M < 0 := lt_of_le_of_lt (hm t ⟨ht0, ht1⟩ i hi) hneg
  -- at any minimum the net gain is negative
  have hgain : ∀ l < L, ∀ x ∈ Icc 0 (b L), ∀ j < 2 * N, V x j = M → V x j - ∑ q ∈ range (2 * N), k l j q * V x q < 0 := by
    intro l hl x hx j hj hxj
    have h1 : ∑ q ∈ range (2 * N), k l j q * M ≤ ∑ q ∈ range (2 * N), k l j q * V x q :=
      sum_le_sum fun q hq => mul_le_mul_of_nonneg_left (hm x hx q (mem_range.1 hq)) (hk l hl j hj q (mem_range.1 hq))
    rw [← sum_mul] at h1
    have h2 := hk1 l hl j hj
    rw [hxj]
    nlinarith
  have hcont : ∀ l, ∀ j < 2 * N, ContinuousOn (fun x => V x j - ∑ q ∈ range (2 * N), k l j q * V x q) (Icc 0 (b L)) := by
    intro l j hj
    refine (hV j hj).sub (continuousOn_finset_sum _ fun q hq => ?_)
    exact (hV q (mem_range.1 hq)).const_mul _ |>.congr fun _ _ => rfl
  -- the upward components have no minimum above the bottom
  have hup : ∀ x, 0 ≤ x → x < b L → ∀ j < N, V x j ≠ M := by
    intro x hx0 hx1 j hj hxj
    obtain ⟨l, hl, h1, h2⟩ : ∃ l < L, b l ≤ x ∧ x < b (l + 1) := by
      by_contra hno
      push Not at hno
      have : ∀ l ≤ L, b l ≤ x := by
        intro l
        induction l with
        | zero => intro _; rw [hb0]; exact hx0
        | succ n ih => intro hn; exact hno n (by omega) (ih (by omega))
      exact absurd (this L le_rfl) (not_le.2 hx1)
    have hsub : Icc x (b (l + 1)) ⊆ Icc 0 (b L) := Icc_subset_Icc hx0 (hbl _ _ (by omega) le_rfl)
    have hj2 : j < 2 * N := by omega
    have hev := (hcont l j hj2 x ⟨hx0, hx1.le⟩).eventually_lt_const (hgain l hl x ⟨hx0, hx1.le⟩ j hj2 hxj)
    rw [eventually_nhdsWithin_iff, Metric.eventually_nhds_iff] at hev
    obtain ⟨ε, hε, hev⟩ := hev
    obtain ⟨y, hy1, hy2, hy3⟩ := exists_lt_right h2 ((hV j hj2).mono hsub) ⟨x + ε, by linarith, fun y hy1 hy2 hy3 => by
      obtain ⟨d, hd1, hd2⟩ := hode l hl y (by linarith) hy3 j hj2
      refine ⟨d, hd1, ?_⟩
      have h3 := hev (y := y) (by rw [Real.dist_eq, abs_lt]; constructor <;> linarith) (hsub ⟨hy1.le, hy3.le⟩)
      have h4 := mul_neg_of_pos_of_neg (hc l hl) h3
      have h5 := hσ j hj
      by_contra hd0
      push Not at hd0
      have := mul_nonneg h5.le hd0
      linarith⟩
    have := hm y (hsub ⟨hy1.le, hy2⟩) j hj2
    rw [hxj] at hy3
    linarith
  -- the downward components have no minimum below the top
  have hdown : ∀ x, 0 < x → x ≤ b L → ∀ j, N ≤ j → j < 2 * N → V x j ≠ M := by
    intro x hx0 hx1 j hjN hj2 hxj
    obtain ⟨l, hl, h1, h2⟩ : ∃ l < L, b l < x ∧ x ≤ b (l + 1) := by
      by_contra hno
      push Not at hno
      have : ∀ l ≤ L, b l < x := by
        intro l
        induction l with
        | zero => intro _; rw [hb0]; exact hx0
        | succ n ih => intro hn; exact hno n (by omega) (ih (by omega))
      exact absurd hx1 (not_le.2 (this L le_rfl))
    have hl0 : 0 ≤ b l := hb0 ▸ hbl 0 l (Nat.zero_le _) hl.le
    have hsub : Icc (b l) x ⊆ Icc 0 (b L) := Icc_subset_Icc hl0 hx1
    have hev := (hcont l j hj2 x ⟨hx0.le, hx1⟩).eventually_lt_const (hgain l hl x ⟨hx0.le, hx1⟩ j hj2 hxj)
    rw [eventually_nhdsWithin_iff, Metric.eventually_nhds_iff] at hev
    obtain ⟨ε, hε, hev⟩ := hev
    obtain ⟨y, hy1, hy2, hy3⟩ := exists_lt_left h1 ((hV j hj2).mono hsub) ⟨x - ε, by linarith, fun y hy1 hy2 hy3 => by
      obtain ⟨d, hd1, hd2⟩ := hode l hl y hy3 (by linarith) j hj2
      refine ⟨d, hd1, ?_⟩
      have h3 := hev (y := y) (by rw [Real.dist_eq, abs_lt]; constructor <;> linarith) (hsub ⟨hy3.le, hy1.le⟩)
      have h4 := mul_neg_of_pos_of_neg (hc l hl) h3
      have h5 := hσ' j hjN hj2
      by_contra hd0
      push Not at hd0
      have := mul_nonneg_of_nonpos_of_nonpos h5.le hd0
      linarith⟩
    have := hm y (hsub ⟨hy1, hy2.le⟩) j hj2
    rw [hxj] at hy3
    linarith
  by_cases hN : i0 < N
  · rcases lt_or_eq_of_le ht0'.2 with hlt | heq
    · exact hup t0 ht0'.1 hlt i0 hN hM.symm
    · rw [heq] at hM
      have h1 := hbot i0 hN
      rw [← hM] at h1
      by_cases hz : ∃ j < N, 0 < r i0 j
      · obtain ⟨j, hj, hrj⟩ := hz
        rcases hT.lt_or_eq with hTpos | hT0
        · have h2 : ∑ q ∈ range N, r i0 q * M < ∑ q ∈ range N, r i0 q * V (b L) (N + q) := by
            refine sum_lt_sum (fun q hq => ?_) ⟨j, mem_range.2 hj, ?_⟩
            · exact mul_le_mul_of_nonneg_left (hm _ ⟨hT, le_rfl⟩ _ (by have := mem_range.1 hq; omega)) (hr i0 hN q (mem_range.1 hq))
            · refine mul_lt_mul_of_pos_left (lt_of_le_of_ne (hm _ ⟨hT, le_rfl⟩ _ (by omega)) ?_) hrj
              exact fun e => hdown (b L) hTpos le_rfl (N + j) (by omega) (by omega) e.symm
          rw [← sum_mul] at h2
          have h3 := hr1 i0 hN
          nlinarith
        · have h2 : 0 ≤ ∑ q ∈ range N, r i0 q * V (b L) (N + q) := sum_nonneg fun q hq =>
            mul_nonneg (hr i0 hN q (mem_range.1 hq)) (by rw [← hT0]; exact htop q (mem_range.1 hq))
          linarith
      · push Not at hz
        have h2 : ∑ q ∈ range N, r i0 q * V (b L) (N + q) = 0 := sum_eq_zero fun q hq => by
          rw [le_antisymm (hz q (mem_range.1 hq)) (hr i0 hN q (mem_range.1 hq)), zero_mul]
        linarith
  · push Not at hN
    rcases ht0'.1.lt_or_eq with hlt | heq
    · exact hdown t0 hlt ht0'.2 i0 hN hi0 hM.symm
    · rw [← heq] at hM
      have := htop (i0 - N) (by omega)
      rw [show N + (i0 - N) = i0 by omega, ← hM] at this
      linarith

/-- The same with a continuum of components: `V t ph i`, where the azimuths `ph` range over a compact set. `G l i ph t` is the light scattered
into component `(i, ph)` of layer `l`, bounded below by `κ l` times any lower bound `M ≤ 0` of the light field. -/
theorem min_principle_azimuth {N L : ℕ} {b : ℕ → ℝ} (hb0 : b 0 = 0) (hb : ∀ l < L, b l < b (l + 1)) {K : Set ℝ} (hK : IsCompact K)
    {V : ℝ → ℝ → ℕ → ℝ} (hV : ∀ i < 2 * N, ContinuousOn (fun p : ℝ × ℝ => V p.1 p.2 i) (Icc 0 (b L) ×ˢ K))
    {σ : ℕ → ℝ} (hσ : ∀ i < N, 0 < σ i) (hσ' : ∀ i, N ≤ i → i < 2 * N → σ i < 0) {c κ : ℕ → ℝ} (hc : ∀ l < L, 0 < c l)
    (hκ : ∀ l < L, κ l < 1) {G : ℕ → ℕ → ℝ → ℝ → ℝ} (hGc : ∀ l < L, ∀ i < 2 * N, ∀ ph ∈ K, ContinuousOn (G l i ph) (Icc 0 (b L)))
    (hG : ∀ l < L, ∀ t ∈ Icc 0 (b L), ∀ i < 2 * N, ∀ ph ∈ K, ∀ M ≤ 0, (∀ j < 2 * N, ∀ ph' ∈ K, M ≤ V t ph' j) → κ l * M ≤ G l i ph t)
    (hode : ∀ l < L, ∀ t, b l < t → t < b (l + 1) → ∀ i < 2 * N, ∀ ph ∈ K, ∃ d, HasDerivAt (fun x => V x ph i) d t ∧
      σ i * d ≤ c l * (V t ph i - G l i ph t))
    (htop : ∀ i < N, ∀ ph ∈ K, 0 ≤ V 0 ph (N + i))
    (hbot : ∀ i < N, ∀ ph ∈ K, ∀ M ≤ 0, (∀ j < N, ∀ ph' ∈ K, M ≤ V (b L) ph' (N + j)) → M ≤ V (b L) ph i) :
    ∀ t, 0 ≤ t → t ≤ b L → ∀ ph ∈ K, ∀ i < 2 * N, 0 ≤ V t ph i := by
  have hbl : ∀ l l', l ≤ l' → l' ≤ L → b l ≤ b l' := by
    intro l l' h
    induction l', h using Nat.le_induction with
    | base => intro _; exact le_rfl
    | succ n hn ih => intro hL; exact (ih (by omega)).trans (hb n (by omega)).le
  have hT : 0 ≤ b L := hb0 ▸ hbl 0 L (Nat.zero_le _) le_rfl
  intro t ht0 ht1 ph hph i hi
  by_contra hneg
  push Not at hneg
  have hVt : ∀ j < 2 * N, ∀ p ∈ K, ContinuousOn (fun t => V t p j) (Icc 0 (b L)) := fun j hj p hp =>
    (hV j hj).comp (continuousOn_id.prodMk continuousOn_const) fun x hx => ⟨hx, hp⟩
  have hVp : ∀ j < 2 * N, ∀ x ∈ Icc 0 (b L), ContinuousOn (fun p => V x p j) K := fun j hj x hx =>
    (hV j hj).comp (continuousOn_const.prodMk continuousOn_id) fun p hp => ⟨hx, hp⟩
  -- a global minimum
  have hmin : ∃ t0 ∈ Icc 0 (b L), ∃ p0 ∈ K, ∃ i0 < 2 * N, ∀ x ∈ Icc 0 (b L), ∀ p ∈ K, ∀ j < 2 * N, V t0 p0 i0 ≤ V x p j := by
    have h1 : ∀ j < 2 * N, ∃ x ∈ Icc 0 (b L) ×ˢ K, ∀ y ∈ Icc 0 (b L) ×ˢ K, V x.1 x.2 j ≤ V y.1 y.2 j := fun j hj =>
      (isCompact_Icc.prod hK).exists_isMinOn ⟨(0, ph), left_mem_Icc.2 hT, hph⟩ (hV j hj)
    choose! x hx hxm using h1
    obtain ⟨j0, hj0, hm⟩ := (range (2 * N)).exists_min_image (fun j => V (x j).1 (x j).2 j) ⟨i, mem_range.2 hi⟩
    exact ⟨(x j0).1, (hx j0 (mem_range.1 hj0)).1, (x j0).2, (hx j0 (mem_range.1 hj0)).2, j0, mem_range.1 hj0,
      fun y hy p hp j hj => (hm j (mem_range.2 hj)).trans (hxm j hj (y, p) ⟨hy, hp⟩)⟩
  obtain ⟨t0, ht0', p0, hp0, i0, hi0, hm⟩ := hmin
  set M := V t0 p0 i0 with hM
  have hM0 : M < 0 := lt_of_le_of_lt (hm t ⟨ht0, ht1⟩ ph hph i hi) hneg
  -- at any minimum the net gain is negative
  have hgain : ∀ l < L, ∀ x ∈ Icc 0 (b L), ∀ p ∈ K, ∀ j < 2 * N, V x p j = M → V x p j - G l j p x < 0 := by
    intro l hl x hx p hp j hj hxj
    have h1 := hG l hl x hx j hj p hp M hM0.le fun q hq p' hp' => hm x hx p' hp' q hq
    have h2 := hκ l hl
    rw [hxj]
    nlinarith
  have hcont : ∀ l < L, ∀ j < 2 * N, ∀ p ∈ K, ContinuousOn (fun x => V x p j - G l j p x) (Icc 0 (b L)) :=
    fun l hl j hj p hp => (hVt j hj p hp).sub (hGc l hl j hj p hp)
  -- the upward components have no minimum above the bottom
  have hup : ∀ x, 0 ≤ x → x < b L → ∀ p ∈ K, ∀ j < N, V x p j ≠ M := by
    intro x hx0 hx1 p hp j hj hxj
    obtain ⟨l, hl, h1, h2⟩ : ∃ l < L, b l ≤ x ∧ x < b (l + 1) := by
      by_contra hno
      push Not at hno
      have : ∀ l ≤ L, b l ≤ x := by
        intro l
        induction l with
        | zero => intro _; rw [hb0]; exact hx0
        | succ n ih => intro hn; exact hno n (by omega) (ih (by omega))
      exact absurd (this L le_rfl) (not_le.2 hx1)
    have hsub : Icc x (b (l + 1)) ⊆ Icc 0 (b L) := Icc_subset_Icc hx0 (hbl _ _ (by omega) le_rfl)
    have hj2 : j < 2 * N := by omega
    have hev := (hcont l hl j hj2 p hp x ⟨hx0, hx1.le⟩).eventually_lt_const (hgain l hl x ⟨hx0, hx1.le⟩ p hp j hj2 hxj)
    rw [eventually_nhdsWithin_iff, Metric.eventually_nhds_iff] at hev
    obtain ⟨ε, hε, hev⟩ := hev
    obtain ⟨y, hy1, hy2, hy3⟩ := exists_lt_right h2 ((hVt j hj2 p hp).mono hsub) ⟨x + ε, by linarith, fun y hy1 hy2 hy3 => by
      obtain ⟨d, hd1, hd2⟩ := hode l hl y (by linarith) hy3 j hj2 p hp
      refine ⟨d, hd1, ?_⟩
      have h3 := hev (y := y) (by rw [Real.dist_eq, abs_lt]; constructor <;> linarith) (hsub ⟨hy1.le, hy3.le⟩)
      have h4 := mul_neg_of_pos_of_neg (hc l hl) h3
      have h5 := hσ j hj
      by_contra hd0
      push Not at hd0
      have := mul_nonneg h5.le hd0
      linarith⟩
    have := hm y (hsub ⟨hy1.le, hy2⟩) p hp j hj2
    rw [hxj] at hy3
    linarith
  -- the downward components have no minimum below the top
  have hdown : ∀ x, 0 < x → x ≤ b L → ∀ p ∈ K, ∀ j, N ≤ j → j < 2 * N → V x p j ≠ M := by
    intro x hx0 hx1 p hp j hjN hj2 hxj
    obtain ⟨l, hl, h1, h2⟩ : ∃ l < L, b l < x ∧ x ≤ b (l + 1) := by
      by_contra hno
      push Not at hno
      have : ∀ l ≤ L, b l < x := by
        intro l
        induction l with
        | zero => intro _; rw [hb0]; exact hx0
        | succ n ih => intro hn; exact hno n (by omega) (ih (by omega))
      exact absurd hx1 (not_le.2 (this L le_rfl))
    have hl0 : 0 ≤ b l := hb0 ▸ hbl 0 l (Nat.zero_le _) hl.le
    have hsub : Icc (b l) x ⊆ Icc 0 (b L) := Icc_subset_Icc hl0 hx1
    have hev := (hcont l hl j hj2 p hp x ⟨hx0.le, hx1⟩).eventually_lt_const (hgain l hl x ⟨hx0.le, hx1⟩ p hp j hj2 hxj)
    rw [eventually_nhdsWithin_iff, Metric.eventually_nhds_iff] at hev
    obtain ⟨ε, hε, hev⟩ := hev
    obtain ⟨y, hy1, hy2, hy3⟩ := exists_lt_left h1 ((hVt j hj2 p hp).mono hsub) ⟨x - ε, by linarith, fun y hy1 hy2 hy3 => by
      obtain ⟨d, hd1, hd2⟩ := hode l hl y hy3 (by linarith) j hj2 p hp
      refine ⟨d, hd1, ?_⟩
      have h3 := hev (y := y) (by rw [Real.dist_eq, abs_lt]; constructor <;> linarith) (hsub ⟨hy3.le, hy1.le⟩)
      have h4 := mul_neg_of_pos_of_neg (hc l hl) h3
      have h5 := hσ' j hjN hj2
      by_contra hd0
      push Not at hd0
      have := mul_nonneg_of_nonpos_of_nonpos h5.le hd0
      linarith⟩
    have := hm y (hsub ⟨hy1, hy2.le⟩) p hp j hj2
    rw [hxj] at hy3
    linarith
  by_cases hN : i0 < N
  · rcases lt_or_eq_of_le ht0'.2 with hlt | heq
    · exact hup t0 ht0'.1 hlt p0 hp0 i0 hN hM.symm
    · rw [heq] at hM
      rcases hT.lt_or_eq with hTpos | hT0
      · -- the smallest downward intensity at the bottom is larger
        have h1 : ∀ j < N, ∃ p ∈ K, ∀ q ∈ K, V (b L) p (N + j) ≤ V (b L) q (N + j) := fun j hj =>
          hK.exists_isMinOn ⟨ph, hph⟩ (hVp (N + j) (by omega) _ ⟨hT, le_rfl⟩)
        choose! p hp hpm using h1
        obtain ⟨j0, hj0, hm0⟩ := (range N).exists_min_image (fun j => V (b L) (p j) (N + j)) ⟨i0, mem_range.2 hN⟩
        have hj0' := mem_range.1 hj0
        have h2 : M < V (b L) (p j0) (N + j0) := lt_of_le_of_ne (hm _ ⟨hT, le_rfl⟩ _ (hp j0 hj0') _ (by omega))
          fun e => hdown (b L) hTpos le_rfl (p j0) (hp j0 hj0') (N + j0) (by omega) (by omega) e.symm
        have h3 := hbot i0 hN p0 hp0 (min (V (b L) (p j0) (N + j0)) 0) (min_le_right _ _) fun j hj q hq =>
          (min_le_left _ _).trans ((hm0 j (mem_range.2 hj)).trans (hpm j hj q hq))
        rw [← hM] at h3
        exact absurd h3 (not_le.2 (lt_min h2 hM0))
      · have h2 := hbot i0 hN p0 hp0 0 le_rfl fun j hj q hq => by rw [← hT0]; exact htop j hj q hq
        rw [← hM] at h2
        linarith
  · push Not at hN
    rcases ht0'.1.lt_or_eq with hlt | heq
    · exact hdown t0 hlt ht0'.2 p0 hp0 i0 hN hi0 hM.symm
    · rw [← heq] at hM
      have := htop (i0 - N) (by omega) p0 hp0
      rw [show N + (i0 - N) = i0 by omega, ← hM] at this
      linarith

end Pydisort

import Verif.Spec.Endless
import Verif.EndlessField
import Verif.Uniqueness
import Mathlib.Topology.Order.Compact

/-!
# The bounded solution without bottom is unique
-/

namespace Pydisort
open Finset Spec Filter
open Spec (bdry)

/-- A dissipative layer increases the energy flux at a rate. -/
theorem Dissipative.coercive {n L : ℕ} {s : Vec} {A : ℕ → Mat} (hD : Dissipative n L s A) {l : ℕ} (hl : l < L) :
    ∃ κ, 0 < κ ∧ ∀ x : Vec, κ * energyFlux n s x ≤ ∑ i ∈ range (2 * n), sgn n s i * x i * mulVec (2 * n) (A l) x i := by
  set q : Vec → ℝ := fun x => ∑ i ∈ range (2 * n), sgn n s i * x i * mulVec (2 * n) (A l) x i with hq
  have hcont : Continuous fun y : Fin (2 * n) → ℝ => q (ofV (2 * n) y) := by
    have h1 : ∀ i, Continuous fun y : Fin (2 * n) → ℝ => ofV (2 * n) y i := by
      intro i
      unfold ofV
      by_cases hi : i < 2 * n
      · simp only [hi, dif_pos]; exact continuous_apply _
      · simp only [hi, dif_neg, not_false_iff]; exact continuous_const
    simp only [hq]
    refine continuous_finset_sum _ fun i _ => (continuous_const.mul (h1 i)).mul ?_
    unfold mulVec
    exact continuous_finset_sum _ fun j _ => continuous_const.mul (h1 j)
  obtain ⟨δ, hδ, hle⟩ := (isCompact_sphere (0 : Fin (2 * n) → ℝ) 1).exists_forall_le' hcont.continuousOn (a := 0) (fun y hy => by
    refine hD.form l hl _ ?_
    by_contra hc
    push Not at hc
    have : y = 0 := by
      funext i
      have := hc i i.2
      simpa [ofV] using this
    rw [this] at hy
    simp at hy)
  have hS : 0 ≤ ∑ i ∈ range n, s i := sum_nonneg fun i hi => (hD.pos i (mem_range.1 hi)).le
  refine ⟨δ / (1 + ∑ i ∈ range n, s i), by positivity, fun x => ?_⟩
  set N := ‖toV (2 * n) x‖ with hN
  have hx : ∀ i < 2 * n, |x i| ≤ N := fun i hi => norm_le_pi_norm (toV (2 * n) x) ⟨i, hi⟩
  have hF : energyFlux n s x ≤ (1 + ∑ i ∈ range n, s i) * N ^ 2 := by
    unfold energyFlux
    have h1 : ∑ i ∈ range n, s i * x i ^ 2 ≤ ∑ i ∈ range n, s i * N ^ 2 := by
      refine sum_le_sum fun i hi => mul_le_mul_of_nonneg_left ?_ (hD.pos i (mem_range.1 hi)).le
      rw [← sq_abs]
      exact pow_le_pow_left₀ (abs_nonneg _) (hx i (by have := mem_range.1 hi; omega)) 2
    have h2 : 0 ≤ ∑ i ∈ range n, s i * x (n + i) ^ 2 := sum_nonneg fun i hi => mul_nonneg (hD.pos i (mem_range.1 hi)).le (sq_nonneg _)
    rw [← sum_mul] at h1
    nlinarith [sq_nonneg N]
  have hQ : δ * N ^ 2 ≤ q x := by
    by_cases hz : N = 0
    · have h0 : ∀ i < 2 * n, x i = 0 := fun i hi => abs_eq_zero.1 (le_antisymm ((hx i hi).trans hz.le) (abs_nonneg _))
      rw [hz]
      have : q x = 0 := sum_eq_zero fun i hi => by rw [h0 i (mem_range.1 hi)]; ring
      rw [this]; simp
    · have h1 := hle (N⁻¹ • toV (2 * n) x) (by
        rw [mem_sphere_zero_iff_norm, norm_smul, norm_inv, Real.norm_of_nonneg (norm_nonneg _)]
        exact inv_mul_cancel₀ hz)
      have h2 : q (ofV (2 * n) (N⁻¹ • toV (2 * n) x)) = N⁻¹ ^ 2 * q x := by
        have e : ∀ i < 2 * n, ofV (2 * n) (N⁻¹ • toV (2 * n) x) i = N⁻¹ * x i := by
          intro i hi
          simp [ofV, toV, hi]
        simp only [hq, mul_sum]
        refine sum_congr rfl fun i hi => ?_
        have e2 : mulVec (2 * n) (A l) (ofV (2 * n) (N⁻¹ • toV (2 * n) x)) i = N⁻¹ * mulVec (2 * n) (A l) x i := by
          unfold mulVec
          rw [mul_sum]
          exact sum_congr rfl fun j hj => by rw [e j (mem_range.1 hj)]; ring
        rw [e i (mem_range.1 hi), e2]; ring
      rw [h2] at h1
      have h3 : 0 < N ^ 2 := by positivity
      have := mul_le_mul_of_nonneg_right h1 h3.le
      calc δ * N ^ 2 ≤ N⁻¹ ^ 2 * q x * N ^ 2 := this
        _ = q x := by field_simp
  refine le_trans ?_ hQ
  rw [div_mul_eq_mul_div, div_le_iff₀ (by positivity), mul_assoc]
  refine mul_le_mul_of_nonneg_left ?_ hδ.le
  linarith [hF]

section
variable {E : Ext} {a : Args} {O : Optics} {r : ℝ} {m : ℕ}

/-- The matrix of layer `l` in the caller's depth. -/
noncomputable def userA (I : AsmIn) (a : Args) (m l : ℕ) : Mat := fun i j => scale a l * I.genIn.effA m l i j

theorem userA_mulVec (I : AsmIn) (n l : ℕ) (x : Vec) (i : ℕ) : mulVec n (userA I a m l) x i = scale a l * mulVec n (I.genIn.effA m l) x i := by
  unfold mulVec userA
  rw [mul_sum]
  exact sum_congr rfl fun j _ => by ring

theorem userA_dissipative (hw : WellPosed E a) (hs : Args.OpticsSpec a O) (hm : m < nFourier a) :
    Dissipative (nHalf a) a.tauArr.n (fun i => weight E a i * node E a i) (userA (a.asm E O r) a m) := by
  have h := asm_dissipative (r := r) hw hs hm
  refine ⟨h.pos, fun l hl x hx => ?_⟩
  have h1 := h.form l hl x hx
  have h2 : 0 < scale a l := Args.scale_pos hw.accepted hl
  have : ∀ i ∈ range (2 * nHalf a), sgn (nHalf a) (fun i => weight E a i * node E a i) i * x i * mulVec (2 * nHalf a) (userA (a.asm E O r) a m l) x i
      = scale a l * (sgn (nHalf a) (fun i => weight E a i * node E a i) i * x i * mulVec (2 * nHalf a) ((a.asm E O r).genIn.effA m l) x i) := by
    intro i _
    rw [userA_mulVec]; ring
  refine lt_of_lt_of_eq (mul_pos h2 h1) ?_
  rw [mul_sum]
  exact (sum_congr rfl this).symm

theorem deepMode_diff (hw : WellPosed E a) (hs : Args.OpticsSpec a O) {V W : ℝ → ℕ → ℝ} (hV : IsDeepMode a (node E a) (weight E a) m V)
    (hW : IsDeepMode a (node E a) (weight E a) m W) {l : ℕ} (hl : l < a.tauArr.n) {t : ℝ} (ht : InsideDeep a l t) {i : ℕ} (hi : i < 2 * nHalf a) :
    HasDerivAt (fun x => V x i - W x i) (mulVec (2 * nHalf a) (userA (a.asm E O r) a m l) (fun j => V t j - W t j) i) t := by
  obtain ⟨d1, h1, e1⟩ := hV.ode l hl t ht i hi
  obtain ⟨d2, h2, e2⟩ := hW.ode l hl t ht i hi
  refine (h1.sub h2).congr_deriv (mul_left_cancel₀ (stream_ne hw.gauss hi) ?_)
  rw [mul_sub, e1, e2, userA_mulVec, mul_left_comm, effA_spec hs hw.gauss hl m _ hi]
  unfold rteUser rteRHS
  simp only [mul_sub, sum_sub_distrib]
  ring

/-- A bounded function that grows at least like its own positive part. -/
theorem bounded_growth {F F' : ℝ → ℝ} {T κ M : ℝ} (hκ : 0 < κ) (hd : ∀ t, T < t → HasDerivAt F (F' t) t) (h0 : ∀ t, T < t → 0 ≤ F' t)
    (hg : ∀ t, T < t → κ * F t ≤ F' t) (hM : ∀ t, T < t → F t ≤ M) : ∀ t, T < t → F t ≤ 0 := by
  intro t0 ht0
  by_contra hc
  push Not at hc
  have hmono : ∀ t, t0 ≤ t → F t0 ≤ F t := by
    intro t ht
    have := monotoneOn_of_deriv_nonneg (convex_Ici t0) (f := F) (fun x hx => (hd x (ht0.trans_le hx)).continuousAt.continuousWithinAt)
      (fun x hx => by rw [interior_Ici] at hx; exact (hd x (ht0.trans hx)).differentiableAt.differentiableWithinAt)
      (fun x hx => by rw [interior_Ici] at hx; rw [(hd x (ht0.trans hx)).deriv]; exact h0 x (ht0.trans hx))
    exact this Set.self_mem_Ici ht ht
  have hlin : ∀ t, t0 ≤ t → F t0 + κ * F t0 * (t - t0) ≤ F t := by
    intro t ht
    have hd' : ∀ x, T < x → HasDerivAt (fun x => F x - κ * F t0 * x) (F' x - κ * F t0) x := fun x hx => by
      refine ((hd x hx).fun_sub ((hasDerivAt_id' x).const_mul (κ * F t0))).congr_deriv ?_
      rw [mul_one]
    have := monotoneOn_of_deriv_nonneg (convex_Ici t0) (f := fun x => F x - κ * F t0 * x) (fun x hx => (hd' x (ht0.trans_le hx)).continuousAt.continuousWithinAt)
      (fun x hx => by rw [interior_Ici] at hx; exact (hd' x (ht0.trans hx)).differentiableAt.differentiableWithinAt)
      (fun x hx => by
        rw [interior_Ici] at hx
        rw [(hd' x (ht0.trans hx)).deriv]
        have h1 := hg x (ht0.trans hx)
        have h2 := hmono x (le_of_lt hx)
        nlinarith)
    have := this Set.self_mem_Ici ht ht
    simp only at this
    linarith
  have hpos : 0 < κ * F t0 := mul_pos hκ hc
  have hMp : 0 ≤ M := hc.le.trans (hM t0 ht0)
  have h1 := hlin (t0 + M / (κ * F t0)) (by have := div_nonneg hMp hpos.le; linarith)
  have h2 := hM (t0 + M / (κ * F t0)) (by have := div_nonneg hMp hpos.le; linarith)
  rw [add_sub_cancel_left, mul_div_cancel₀ _ hpos.ne'] at h1
  linarith

theorem deepMode_unique (hw : WellPosed E a) (hm : m < nFourier a) {V W : ℝ → ℕ → ℝ} (hV : IsDeepMode a (node E a) (weight E a) m V)
    (hW : IsDeepMode a (node E a) (weight E a) m W) : ∀ t, 0 ≤ t → ∀ i < 2 * nHalf a, V t i = W t i := by
  have hacc := hw.accepted
  have hn := hacc.layers
  obtain ⟨O, hO⟩ := optics_isOk hacc hw.sourceShape
  have hs := Args.optics_spec hacc hO
  set s : Vec := fun i => weight E a i * node E a i with hsdef
  have hD := userA_dissipative (r := 1) hw hs hm
  have hdiff := fun l (hl : l < a.tauArr.n) t (ht : InsideDeep a l t) i (hi : i < 2 * nHalf a) => deepMode_diff (r := 1) hw hs hV hW hl ht hi
  obtain ⟨κ, hκ, hco⟩ := hD.coercive (l := a.tauArr.n - 1) (by omega)
  obtain ⟨C, hC⟩ := hV.bounded
  obtain ⟨C', hC'⟩ := hW.bounded
  set T0 := bdry a.tauArr.get (a.tauArr.n - 1) with hT0
  have hT0n : 0 ≤ T0 := by
    rw [← bdry_zero a.tauArr.get]
    exact bdry_le hacc (Nat.zero_le _) (by omega)
  have hin : ∀ t, T0 < t → InsideDeep a (a.tauArr.n - 1) t := fun t ht => ⟨ht, fun h => by omega⟩
  set D : ℝ → Vec := fun t i => V t i - W t i with hDdef
  have hle : ∀ t, T0 < t → energyFlux (nHalf a) s (D t) ≤ 0 := by
    refine bounded_growth (F' := fun t => 2 * ∑ i ∈ range (2 * nHalf a), sgn (nHalf a) s i * D t i * mulVec (2 * nHalf a) (userA (a.asm E O 1) a m (a.tauArr.n - 1)) (D t) i)
      (κ := 2 * κ) (M := ∑ i ∈ range (nHalf a), s i * (C + C') ^ 2) (by positivity) (fun t ht => ?_) (fun t ht => ?_) (fun t ht => ?_) (fun t ht => ?_)
    · exact energyFlux_hasDerivAt (u := D) fun i hi => hdiff _ (by omega) t (hin t ht) i hi
    · refine mul_nonneg zero_le_two ?_
      by_cases hx : ∃ i < 2 * nHalf a, D t i ≠ 0
      · exact (hD.form _ (by omega) _ hx).le
      · push Not at hx
        exact (sum_eq_zero fun i hi => by rw [hx i (mem_range.1 hi)]; ring).ge
    · have := hco (D t)
      linarith
    · unfold energyFlux
      have h2 : 0 ≤ ∑ i ∈ range (nHalf a), s i * D t (nHalf a + i) ^ 2 := sum_nonneg fun i hi => mul_nonneg (hD.pos i (mem_range.1 hi)).le (sq_nonneg _)
      have h1 : ∑ i ∈ range (nHalf a), s i * D t i ^ 2 ≤ ∑ i ∈ range (nHalf a), s i * (C + C') ^ 2 := by
        refine sum_le_sum fun i hi => mul_le_mul_of_nonneg_left ?_ (hD.pos i (mem_range.1 hi)).le
        have hi' : i < 2 * nHalf a := by have := mem_range.1 hi; omega
        rw [← sq_abs]
        refine pow_le_pow_left₀ (abs_nonneg _) ?_ 2
        exact (abs_sub _ _).trans (add_le_add (hC t (hT0n.trans ht.le) i hi') (hC' t (hT0n.trans ht.le) i hi'))
      linarith
  intro t h0 i hi
  set X := max t T0 + 1 with hX
  have hXT : T0 < X := by have := le_max_right t T0; linarith
  set T : ℕ → ℝ := fun l => if l = a.tauArr.n then X else bdry a.tauArr.get l with hTdef
  have hTl : ∀ l < a.tauArr.n, T l = bdry a.tauArr.get l := fun l hl => if_neg (by omega)
  have hTn : T a.tauArr.n = X := if_pos rfl
  have hTlt : ∀ l < a.tauArr.n, T l < T (l + 1) := by
    intro l hl
    rw [hTl l hl]
    by_cases h : l + 1 = a.tauArr.n
    · rw [h, hTn]
      rw [show l = a.tauArr.n - 1 by omega]; exact hXT
    · rw [hTl _ (by omega)]; exact bdry_lt hacc hl
  have hT00 : T 0 = 0 := by rw [hTl 0 hn, bdry_zero]
  have hTge : ∀ l ≤ a.tauArr.n, 0 ≤ T l := by
    intro l hl
    induction l with
    | zero => rw [hT00]
    | succ l ih => exact (ih (by omega)).trans (hTlt l (by omega)).le
  have hinT : ∀ l < a.tauArr.n, ∀ x ∈ Set.Ioo (T l) (T (l + 1)), InsideDeep a l x := by
    intro l hl x hx
    refine ⟨by rw [← hTl l hl]; exact hx.1, fun h => by rw [← hTl _ h]; exact hx.2⟩
  have key := energy_zero (u := fun _ t => D t) (T := T) hn hD hTlt
    (fun l hl i hi => ((hV.cont i hi).sub (hW.cont i hi)).mono fun x hx => (hTge l hl.le).trans hx.1)
    (fun l hl x hx i hi => hdiff l hl x (hinT l hl x hx) i hi)
    (fun i hi => by rw [hT00]; simp only [hDdef]; rw [hV.top i hi, hW.top i hi, sub_self])
    (fun _ _ _ _ => rfl)
    (by
      rw [hTn]
      have := hle X hXT
      unfold energyFlux at this
      linarith)
  have hex : ∃ l < a.tauArr.n, t ∈ Set.Icc (T l) (T (l + 1)) := by
    have hcov : ∀ k ≤ a.tauArr.n, 0 < k → t ≤ T k → ∃ l < k, t ∈ Set.Icc (T l) (T (l + 1)) := by
      intro k
      induction k with
      | zero => intro _ h; exact absurd h (lt_irrefl _)
      | succ k ih =>
        intro hk _ hle
        by_cases hg : T k ≤ t
        · exact ⟨k, by omega, hg, hle⟩
        · by_cases hk0 : k = 0
          · subst hk0; rw [hT00] at hg; exact absurd h0 hg
          · obtain ⟨l, hl, h⟩ := ih (by omega) (by omega) (not_le.1 hg).le
            exact ⟨l, by omega, h⟩
    exact hcov a.tauArr.n le_rfl hn (by rw [hTn]; have := le_max_left t T0; linarith)
  obtain ⟨l, hl, htl⟩ := hex
  exact sub_eq_zero.1 (key l hl t htl i hi)

end
end Pydisort

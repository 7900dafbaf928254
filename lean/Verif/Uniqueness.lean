import Verif.Spec.Solution
import Verif.Dissipation
import Verif.Props.Transfer

/-! The boundary value problem has at most one solution, and the code returns it. -/

namespace Pydisort
open Finset Spec

variable {E : Ext} {a : Args} {J : Junk} {R : Solved}

theorem Represents_unique {M : BDRFMode} {rho rho' : ℝ → ℝ → ℝ} (h : Represents M rho) (h' : Represents M rho') :
    rho = rho' := by
  funext x y
  cases M with
  | scalar c => rw [h x y, h' x y]
  | func f =>
    obtain ⟨v, hv, _, _, h1⟩ := h ⟨1, fun _ => x⟩ ⟨1, fun _ => y⟩
    obtain ⟨v', hv', _, _, h2⟩ := h' ⟨1, fun _ => x⟩ ⟨1, fun _ => y⟩
    rw [hv] at hv'; cases hv'
    have := h1 0 Nat.one_pos 0 Nat.one_pos
    rw [h2 0 Nat.one_pos 0 Nat.one_pos] at this
    exact this.symm

theorem bdry_lt (h : Accepted a) {l : ℕ} (hl : l < a.tauArr.n) : bdry a.tauArr.get l < bdry a.tauArr.get (l + 1) := by
  rw [Spec.bdry_succ]
  unfold bdry
  split_ifs with h0
  · subst h0; exact h.top
  · have := h.increasing (l - 1) (by omega)
    rwa [show l - 1 + 1 = l by omega] at this

theorem bdry_le (h : Accepted a) {j k : ℕ} (hjk : j ≤ k) (hk : k ≤ a.tauArr.n) :
    bdry a.tauArr.get j ≤ bdry a.tauArr.get k := by
  induction k with
  | zero => rw [Nat.le_zero.1 hjk]
  | succ k ih =>
    rcases Nat.lt_or_ge j (k + 1) with h1 | h1
    · exact (ih (by omega) (by omega)).trans (bdry_lt h (by omega)).le
    · rw [show j = k + 1 by omega]

theorem bdry_zero (tau : ℕ → ℝ) : bdry tau 0 = 0 := by simp [bdry]

theorem bdry_bottom (h : Accepted a) : bdry a.tauArr.get a.tauArr.n = bottom a := by
  have := h.layers
  unfold bottom
  rw [← Spec.bdry_succ a.tauArr.get, show a.tauArr.n - 1 + 1 = a.tauArr.n by omega]

theorem bottom_pos (h : Accepted a) : 0 < bottom a := by
  rw [← bdry_bottom h, ← bdry_zero a.tauArr.get]
  have := bdry_lt h h.layers
  exact this.trans_le (bdry_le h h.layers le_rfl)

theorem exists_layer (h : Accepted a) {t : ℝ} (h0 : 0 ≤ t) (h1 : t ≤ bottom a) : ∃ l < a.tauArr.n, InLayer a l t := by
  have key : ∀ k ≤ a.tauArr.n, 0 < k → t ≤ bdry a.tauArr.get k → ∃ l < a.tauArr.n, InLayer a l t := by
    intro k
    induction k with
    | zero => intro _ h; omega
    | succ k ih =>
      intro hk _ ht
      by_cases hk0 : bdry a.tauArr.get k ≤ t
      · exact ⟨k, hk, hk0, ht⟩
      · by_cases k0 : k = 0
        · subst k0; rw [bdry_zero] at hk0; exact absurd h0 hk0
        · exact ih (by omega) (by omega) (le_of_not_ge hk0)
  exact key _ le_rfl h.layers (by rwa [bdry_bottom h])

/-- The difference of two solutions solves the homogeneous problem and vanishes. -/
theorem solution_unique (hacc : Accepted a) (hg : GaussContract E (nHalf a))
    (hd : Dissipates a (node E a) (weight E a)) (hsurf : PassiveSurface a (node E a) (weight E a))
    {m : ℕ} (hm : m < nFourier a) {rho : ℝ → ℝ → ℝ} (hrho : ∀ M, a.bdrf[m]? = some M → Represents M rho)
    {V W : ℝ → ℕ → ℝ} (hV : IsSolution a (node E a) (weight E a) rho m V)
    (hW : IsSolution a (node E a) (weight E a) rho m W) :
    ∀ t, 0 ≤ t → t ≤ bottom a → ∀ i < 2 * nHalf a, V t i = W t i := by
  set mu := node E a with hmu
  set w := weight E a with hw
  set A : ℕ → Mat := fun l i j => scale a l * ((if i = j then 1 else 0)
    - streamW (nHalf a) w j * kernel a m l (stream (nHalf a) mu i) (stream (nHalf a) mu j)) / stream (nHalf a) mu i with hA
  have hmul : ∀ l, ∀ x : Vec, ∀ i < 2 * nHalf a, stream (nHalf a) mu i * mulVec (2 * nHalf a) (A l) x i
      = scale a l * (x i - ∑ j ∈ range (2 * nHalf a),
        streamW (nHalf a) w j * kernel a m l (stream (nHalf a) mu i) (stream (nHalf a) mu j) * x j) := by
    intro l x i hi
    have hne : stream (nHalf a) mu i ≠ 0 := stream_ne hg hi
    unfold mulVec
    have : x i = ∑ j ∈ range (2 * nHalf a), (if i = j then 1 else 0) * x j := by
      simp [hi]
    rw [this, ← sum_sub_distrib, mul_sum, mul_sum]
    refine sum_congr rfl fun j _ => ?_
    simp only [hA]
    field_simp
  have hD : Dissipative (nHalf a) a.tauArr.n (fun i => w i * mu i) A := by
    constructor
    · exact fun i hi => mul_pos (weight_pos hg hi) (node_pos hg hi).1
    · intro l hl x hx
      have key := hd m hm l hl x hx
      have hsc : 0 < scale a l := Args.scale_pos hacc hl
      have e : ∀ i ∈ range (2 * nHalf a),
          (if i < nHalf a then w i * mu i else -(w (i - nHalf a) * mu (i - nHalf a))) * x i * mulVec (2 * nHalf a) (A l) x i
          = scale a l * (streamW (nHalf a) w i * x i ^ 2
            - ∑ j ∈ range (2 * nHalf a), streamW (nHalf a) w i * streamW (nHalf a) w j
              * kernel a m l (stream (nHalf a) mu i) (stream (nHalf a) mu j) * x i * x j) := by
        intro i hi
        have e1 : (if i < nHalf a then w i * mu i else -(w (i - nHalf a) * mu (i - nHalf a)))
            = streamW (nHalf a) w i * stream (nHalf a) mu i := by
          unfold streamW stream; split_ifs <;> ring
        rw [e1]
        calc streamW (nHalf a) w i * stream (nHalf a) mu i * x i * mulVec (2 * nHalf a) (A l) x i
            = streamW (nHalf a) w i * x i * (stream (nHalf a) mu i * mulVec (2 * nHalf a) (A l) x i) := by ring
          _ = _ := by
            rw [hmul l x i (mem_range.1 hi), ← mul_assoc, mul_comm _ (scale a l), mul_assoc, mul_sub, mul_sum]
            congr 2
            · ring
            · exact sum_congr rfl fun j _ => by ring
      refine lt_of_lt_of_eq ?_ (sum_congr rfl e).symm
      rw [← mul_sum, sum_sub_distrib]
      exact mul_pos hsc (by linarith)
  have hin : ∀ l < a.tauArr.n, Set.Icc (bdry a.tauArr.get l) (bdry a.tauArr.get (l + 1)) ⊆ Set.Icc 0 (bottom a) := by
    intro l hl t ht
    have h1 := bdry_le hacc (Nat.zero_le l) hl.le
    have h2 := bdry_le hacc (show l + 1 ≤ a.tauArr.n by omega) le_rfl
    rw [bdry_zero] at h1
    rw [bdry_bottom hacc] at h2
    exact ⟨h1.trans ht.1, ht.2.trans h2⟩
  have key := energy_zero (u := fun _ t i => V t i - W t i) (T := bdry a.tauArr.get) hacc.layers hD
    (fun l hl => bdry_lt hacc hl)
    (fun l hl i hi => ((hV.cont i hi).sub (hW.cont i hi)).mono (hin l hl))
    (by
      intro l hl t ht i hi
      obtain ⟨d1, h1, e1⟩ := hV.ode l hl t ht.1 ht.2 i hi
      obtain ⟨d2, h2, e2⟩ := hW.ode l hl t ht.1 ht.2 i hi
      refine (h1.sub h2).congr_deriv ?_
      have hne := stream_ne hg hi
      refine mul_left_cancel₀ hne ?_
      rw [mul_sub, e1, e2, hmul l _ i hi]
      unfold rteUser rteRHS
      simp only [mul_sub, sum_sub_distrib]
      ring)
    (by
      intro i hi
      rw [bdry_zero, hV.top i hi, hW.top i hi, sub_self])
    (fun _ _ _ _ => rfl)
    (by
      rw [bdry_bottom hacc]
      rcases hM : a.bdrf[m]? with _ | M
      · have hlen : ¬ m < a.bdrf.length := by simpa using hM
        have : ∀ i ∈ range (nHalf a), w i * mu i * (V (bottom a) i - W (bottom a) i) ^ 2 = 0 := by
          intro i hi
          rw [hV.bot i (mem_range.1 hi), hW.bot i (mem_range.1 hi), if_neg hlen, if_neg hlen, sub_self]
          ring
        rw [sum_eq_zero this]
        exact sum_nonneg fun i hi => mul_nonneg (hD.pos i (mem_range.1 hi)).le (sq_nonneg _)
      · have hlen : m < a.bdrf.length := by
          by_contra hc
          rw [List.getElem?_eq_none (by omega)] at hM
          cases hM
        obtain ⟨rho', hrep, hpas⟩ := hsurf m hm M hM
        have hr := Represents_unique hrep (hrho M hM)
        subst hr
        refine le_trans (le_of_eq ?_) (hpas (fun j => V (bottom a) (nHalf a + j) - W (bottom a) (nHalf a + j)))
        refine sum_congr rfl fun i hi => ?_
        rw [hV.bot i (mem_range.1 hi), hW.bot i (mem_range.1 hi), if_pos hlen, if_pos hlen]
        unfold reflected
        simp only [mul_sub, sum_sub_distrib]
        ring)
  intro t h0 h1 i hi
  obtain ⟨l, hl, ht⟩ := exists_layer hacc h0 h1
  exact sub_eq_zero.1 (key l hl t ⟨ht.1, ht.2⟩ i hi)

/-- The modes returned by the code form a solution. -/
theorem modes_isSolution (h : pydisort E J a = .ok R) (hS : Sound E a) (hres : Rescalable a)
    (hbp : Azimuthless a.bpos) (hbn : Azimuthless a.bneg) {rho : ℕ → ℝ → ℝ → ℝ}
    (hrho : ∀ m < nFourier a, ∀ M, a.bdrf[m]? = some M → Represents M (rho m)) {U : ℕ → ℝ → ℕ → ℝ} (hU : IsModes a R U)
    {m : ℕ} (hm : m < nFourier a) : IsSolution a (node E a) (weight E a) (rho m) m (U m) := by
  have hacc := (pydisort_ok h).1
  refine ⟨fun i hi => C05_continuous_across_layers h hS hres hU m hm i hi, ?_,
    fun i hi => C03_top_boundary_condition h hS hres hbn hU m hm i hi,
    fun i hi => C04_bottom_boundary_condition h hS hres hbp hrho hU m hm i hi⟩
  intro l hl t h1 h2 i hi
  obtain ⟨V, hV, hode⟩ := C02_modes_solve_transfer_equation h hS hres
  obtain ⟨d, hd, he⟩ := hode m hm l hl t h1 h2 i hi
  have hr0 : bdry a.tauArr.get 0 ≤ bdry a.tauArr.get l := bdry_le hacc (Nat.zero_le _) hl.le
  have hr1 := bdry_le hacc (show l + 1 ≤ a.tauArr.n by omega) le_rfl
  rw [bdry_zero] at hr0
  rw [bdry_bottom hacc] at hr1
  have heq : ∀ x, bdry a.tauArr.get l < x → x < bdry a.tauArr.get (l + 1) → ∀ j < 2 * nHalf a, U m x j = V m x j :=
    fun x hx1 hx2 j hj => C02_modes_unique hU hV m hm x (by linarith) (by change x ≤ bottom a; linarith) j hj
  refine ⟨d, hd.congr_of_eventuallyEq ?_, ?_⟩
  · filter_upwards [Ioo_mem_nhds h1 h2] with x hx
    exact heq x hx.1 hx.2 i hi
  · rw [he]
    unfold rteUser rteRHS
    have hsum : ∑ j ∈ range (2 * nHalf a), streamW (nHalf a) (weight E a) j
          * kernel a m l (stream (nHalf a) (node E a) i) (stream (nHalf a) (node E a) j) * U m t j
        = ∑ j ∈ range (2 * nHalf a), streamW (nHalf a) (weight E a) j
          * kernel a m l (stream (nHalf a) (node E a) i) (stream (nHalf a) (node E a) j) * V m t j :=
      sum_congr rfl fun j hj => by rw [heq t h1 h2 j (mem_range.1 hj)]
    rw [heq t h1 h2 i hi, hsum]

end Pydisort

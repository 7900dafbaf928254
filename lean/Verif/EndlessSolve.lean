import Verif.EndlessLemmas

/-!
# The linear system of an atmosphere without bottom is non-singular
-/

namespace Pydisort
open Finset Filter

section
variable {n : ℕ} {s : Vec} {A : Mat} {u : ℝ → Vec}

/-- Signed energy flux. -/
noncomputable def energyFlux (n : ℕ) (s x : Vec) : ℝ := ∑ i ∈ range n, s i * x i ^ 2 - ∑ i ∈ range n, s i * x (n + i) ^ 2

theorem energyFlux_eq (n : ℕ) (s x : Vec) : energyFlux n s x = ∑ i ∈ range (2 * n), sgn n s i * x i ^ 2 := by
  unfold energyFlux
  rw [sum_range_two_mul, sub_eq_add_neg, ← sum_neg_distrib]
  congr 1
  · refine sum_congr rfl fun i hi => ?_
    rw [mem_range] at hi; simp [sgn, hi]
  · exact sum_congr rfl fun i _ => by simp [sgn]

theorem energyFlux_hasDerivAt {t : ℝ} {u' : Vec} (hd : ∀ i < 2 * n, HasDerivAt (fun x => u x i) (u' i) t) :
    HasDerivAt (fun x => energyFlux n s (u x)) (2 * ∑ i ∈ range (2 * n), sgn n s i * u t i * u' i) t := by
  simp only [energyFlux_eq]
  have : HasDerivAt (fun x => ∑ i ∈ range (2 * n), sgn n s i * u x i ^ 2) (∑ i ∈ range (2 * n), sgn n s i * (2 * u t i * u' i)) t := by
    refine HasDerivAt.fun_sum fun i hi => ?_
    refine (((hd i (mem_range.1 hi)).fun_pow 2).const_mul (sgn n s i)).congr_deriv ?_
    simp
  refine this.congr_deriv ?_
  rw [mul_sum]
  exact sum_congr rfl fun i _ => by ring

theorem energyFlux_monotone (hD : Dissipative n 1 s (fun _ => A)) (hd : ∀ t, ∀ i < 2 * n, HasDerivAt (fun x => u x i) (mulVec (2 * n) A (u t) i) t) :
    Monotone fun t => energyFlux n s (u t) := by
  refine monotone_of_deriv_nonneg (fun t => (energyFlux_hasDerivAt (hd t)).differentiableAt) fun t => ?_
  rw [(energyFlux_hasDerivAt (hd t)).deriv]
  refine mul_nonneg zero_le_two ?_
  by_cases hx : ∃ i < 2 * n, u t i ≠ 0
  · exact (hD.form 0 Nat.one_pos _ hx).le
  · push Not at hx
    exact (sum_eq_zero fun i hi => by rw [hx i (mem_range.1 hi)]; ring).ge

theorem energyFlux_tendsto {l : Filter ℝ} (h : ∀ i < 2 * n, Tendsto (fun t => u t i) l (nhds 0)) : Tendsto (fun t => energyFlux n s (u t)) l (nhds 0) := by
  simp only [energyFlux_eq]
  have : Tendsto (fun t => ∑ i ∈ range (2 * n), sgn n s i * u t i ^ 2) l (nhds (∑ i ∈ range (2 * n), sgn n s i * (0 : ℝ) ^ 2)) :=
    tendsto_finset_sum _ fun i hi => ((h i (mem_range.1 hi)).pow 2).const_mul _
  simpa using this

theorem energyFlux_le (hD : Dissipative n 1 s (fun _ => A)) (hd : ∀ t, ∀ i < 2 * n, HasDerivAt (fun x => u x i) (mulVec (2 * n) A (u t) i) t)
    (h : ∀ i < 2 * n, Tendsto (fun t => u t i) atTop (nhds 0)) (t : ℝ) : energyFlux n s (u t) ≤ 0 :=
  (energyFlux_monotone hD hd).ge_of_tendsto (energyFlux_tendsto h) t

theorem energyFlux_ge (hD : Dissipative n 1 s (fun _ => A)) (hd : ∀ t, ∀ i < 2 * n, HasDerivAt (fun x => u x i) (mulVec (2 * n) A (u t) i) t)
    (h : ∀ i < 2 * n, Tendsto (fun t => u t i) atBot (nhds 0)) (t : ℝ) : 0 ≤ energyFlux n s (u t) :=
  (energyFlux_monotone hD hd).le_of_tendsto (energyFlux_tendsto h) t

end

namespace CoefIn
variable {c : CoefIn} {m : ℕ}

variable (c) in
/-- The coefficients without those of the solutions that grow downwards in the lowest layer. -/
def decaying (C : Vec) : Vec := fun k => if k < c.dim - c.N then C k else 0

variable (c) in
/-- The coefficients of the solutions that grow downwards in the lowest layer. -/
def growing (C : Vec) : Vec := fun k => if k < c.dim - c.N then 0 else C k

theorem mask_row {i : ℕ} (A : Mat) (C : Vec) (hi : i < c.dim - c.N) :
    mulVec c.dim (fun i j => A i j * c.mask i j) C i = mulVec c.dim A (c.decaying C) i := by
  unfold mulVec decaying
  refine sum_congr rfl fun j _ => ?_
  beta_reduce
  by_cases hj : j < c.dim - c.N
  · rw [if_pos hj, mask_one (by tauto), mul_one]
  · rw [if_neg hj, mask_zero (by tauto), mul_zero, zero_mul]

theorem mask_row' {i : ℕ} (A : Mat) (C : Vec) (hi : ¬ i < c.dim - c.N) :
    mulVec c.dim (fun i j => A i j * c.mask i j) C i = mulVec c.dim A (c.growing C) i := by
  unfold mulVec growing
  refine sum_congr rfl fun j _ => ?_
  beta_reduce
  by_cases hj : j < c.dim - c.N
  · rw [if_pos hj, mask_zero (by tauto), mul_zero, zero_mul]
  · rw [if_neg hj, mask_one (by tauto), mul_one]

theorem decaying_low (hL : 0 < c.NLayers) (C : Vec) {j : ℕ} : c.decaying C ((c.NLayers - 1) * (2 * c.N) + j) = if j < c.N then C ((c.NLayers - 1) * (2 * c.N) + j) else 0 := by
  have hd := c.dim_pred hL
  unfold decaying
  by_cases hj : j < c.N
  · rw [if_pos hj, if_pos (by omega)]
  · rw [if_neg hj, if_neg (by omega)]

theorem growing_low (hL : 0 < c.NLayers) (C : Vec) {j : ℕ} : c.growing C ((c.NLayers - 1) * (2 * c.N) + j) = if j < c.N then 0 else C ((c.NLayers - 1) * (2 * c.N) + j) := by
  have hd := c.dim_pred hL
  unfold growing
  by_cases hj : j < c.N
  · rw [if_pos hj, if_pos (by omega)]
  · rw [if_neg hj, if_neg (by omega)]

theorem decaying_upper (hL : 0 < c.NLayers) (C : Vec) {l j : ℕ} (hl : l + 1 < c.NLayers) (hj : j < 2 * c.N) :
    c.decaying C (l * (2 * c.N) + j) = C (l * (2 * c.N) + j) := by
  have hd := c.dim_pred hL
  have := mul_succ_le (c := 2 * c.N) (show l < c.NLayers - 1 by omega)
  unfold decaying
  rw [if_pos (by omega)]

theorem hom_decays (hL : 0 < c.NLayers) (hneg : ∀ j < c.N, c.K m (c.NLayers - 1) j < 0) (C : Vec) (q : ℕ) :
    Tendsto (fun t => c.hom (c.decaying C) m (c.NLayers - 1) t q) atTop (nhds 0) := by
  unfold hom
  rw [show (0 : ℝ) = ∑ j ∈ range (2 * c.N), 0 by simp]
  refine tendsto_finset_sum _ fun j _ => ?_
  rw [decaying_low hL]
  by_cases hj : j < c.N
  · simp only [expo, if_pos hj]
    have h1 : Tendsto (fun t => c.K m (c.NLayers - 1) j * (t - c.tau0 (c.NLayers - 1))) atTop atBot :=
      (tendsto_atTop_add_const_right _ _ tendsto_id).const_mul_atTop_of_neg (hneg j hj)
    have := (Real.tendsto_exp_atBot.comp h1).const_mul (c.G m (c.NLayers - 1) q j * C ((c.NLayers - 1) * (2 * c.N) + j))
    rw [mul_zero] at this
    exact this
  · simp only [if_neg hj, mul_zero, zero_mul]
    exact tendsto_const_nhds

theorem hom_grows (hL : 0 < c.NLayers) (hpos : ∀ j < c.N, 0 < c.K m (c.NLayers - 1) (c.N + j)) (C : Vec) (q : ℕ) :
    Tendsto (fun t => c.hom (c.growing C) m (c.NLayers - 1) t q) atBot (nhds 0) := by
  unfold hom
  rw [show (0 : ℝ) = ∑ j ∈ range (2 * c.N), 0 by simp]
  refine tendsto_finset_sum _ fun j hj2 => ?_
  rw [growing_low hL]
  by_cases hj : j < c.N
  · simp only [if_pos hj, mul_zero, zero_mul]
    exact tendsto_const_nhds
  · simp only [expo, if_neg hj]
    have hp := hpos (j - c.N) (by have := mem_range.1 hj2; omega)
    rw [show c.N + (j - c.N) = j by omega] at hp
    have h1 : Tendsto (fun t => c.K m (c.NLayers - 1) j * (t - c.tau0 (c.NLayers - 1 + 1))) atBot atBot :=
      (tendsto_atBot_add_const_right _ _ tendsto_id).const_mul_atBot hp
    have := (Real.tendsto_exp_atBot.comp h1).const_mul (c.G m (c.NLayers - 1) q j * C ((c.NLayers - 1) * (2 * c.N) + j))
    rw [mul_zero] at this
    exact this

theorem hom_hasDerivAt {A : ℕ → Mat} (hA : ∀ l < c.NLayers, ∀ i < 2 * c.N, ∀ j < 2 * c.N,
      mulVec (2 * c.N) (A l) (fun q => c.G m l q j) i = c.K m l j * c.G m l i j) (C : Vec) :
    ∀ l < c.NLayers, ∀ t, ∀ i < 2 * c.N, HasDerivAt (fun t => c.hom C m l t i) (mulVec (2 * c.N) (A l) (c.hom C m l t) i) t := by
  intro l hl' t i hi
  refine (AsmIn.hasDerivAt_hom C m l t i).congr_deriv ?_
  unfold mulVec CoefIn.hom
  simp_rw [mul_sum]
  rw [sum_comm]
  refine sum_congr rfl fun j hj => ?_
  have := hA l hl' i hi j (mem_range.mp hj)
  rw [show c.K m l j * (c.G m l i j * C (l * (2 * c.N) + j) * c.expo m l t j)
    = (c.K m l j * c.G m l i j) * (C (l * (2 * c.N) + j) * c.expo m l t j) by ring, ← this]
  unfold mulVec
  rw [sum_mul]
  exact sum_congr rfl fun q _ => by ring

theorem coef_zero_of_hom {l : ℕ} (hG : (toM (2 * c.N) (c.G m l)).det ≠ 0) {C : Vec} {t : ℝ} (h : ∀ i < 2 * c.N, c.hom C m l t i = 0) :
    ∀ j < 2 * c.N, C (l * (2 * c.N) + j) = 0 := by
  intro j hj
  have := inj_of_det hG (x := fun j => C (l * (2 * c.N) + j) * c.expo m l t j) (fun i hi => by
    rw [← h i hi]
    unfold mulVec CoefIn.hom
    exact sum_congr rfl fun q _ => by ring) j hj
  rcases mul_eq_zero.mp this with h | h
  · exact h
  · exfalso
    unfold expo at h
    split_ifs at h <;> exact absurd h (Real.exp_pos _).ne'

theorem end_det (hN : 0 < c.N) (hL : 0 < c.NLayers) (hs : c.KSym) (h0 : c.tau0 0 = 0)
    (hT : ∀ l < c.NLayers, c.tau0 l < c.tau0 (l + 1)) (hm : m < c.NFourier) (R : Option Mat)
    (hneg : ∀ j < c.N, c.K m (c.NLayers - 1) j < 0) (hpos : ∀ j < c.N, 0 < c.K m (c.NLayers - 1) (c.N + j))
    {A : ℕ → Mat} {s : Vec} (hD : Dissipative c.N c.NLayers s A)
    (hA : ∀ l < c.NLayers, ∀ i < 2 * c.N, ∀ j < 2 * c.N,
      mulVec (2 * c.N) (A l) (fun q => c.G m l q j) i = c.K m l j * c.G m l i j)
    (hG : ∀ l < c.NLayers, (toM (2 * c.N) (c.G m l)).det ≠ 0)
    (hR : ∀ R', R = some R' → ∀ d : Vec,
      ∑ i ∈ range c.N, s i * (∑ q ∈ range c.N, R' i q * d q) ^ 2 ≤ ∑ i ∈ range c.N, s i * d i ^ 2) :
    (toM c.dim (fun i j => c.lhs m R i j * c.mask i j)).det ≠ 0 := by
  apply det_ne_zero_of_inj
  intro C hC
  have hl := lhs_isLhs hN hL m R
  have hd := c.dim_ge hL
  have hdp := c.dim_pred hL
  have hlow : c.NLayers - 1 < c.NLayers := by omega
  have hD1 : Dissipative c.N 1 s (fun _ => A (c.NLayers - 1)) := ⟨hD.pos, fun l hl x hx => hD.form _ hlow x hx⟩
  have e1 : ∀ i < c.N, c.hom (c.decaying C) m 0 0 (c.N + i) = 0 := by
    intro i hi
    rw [← top_sum hL hs h0 hm, ← hC i (by omega), mask_row _ _ (by omega)]
    exact sum_congr rfl fun j hj => by rw [hl.top i hi j (mem_range.mp hj)]
  have e2 : ∀ k < c.NLayers - 1, ∀ q < 2 * c.N,
      c.hom (c.decaying C) m k (c.tau0 (k + 1)) q = c.hom (c.decaying C) m (k + 1) (c.tau0 (k + 1)) q := by
    intro k hk q hq
    have hb := mul_succ_le (c := 2 * c.N) hk
    rw [← sub_eq_zero, ← mid_sum hs hm _ hk, ← hC (c.N + k * (2 * c.N) + q) (by omega), mask_row _ _ (by omega)]
    exact sum_congr rfl fun j hj => by rw [hl.mid k hk q hq j (mem_range.mp hj)]
  have e3 : ∀ i < c.N, c.hom (c.growing C) m (c.NLayers - 1) (c.tau0 c.NLayers) i
        - (match (generalizing := false) R with
          | some R => ∑ q ∈ range c.N, R i q * c.hom (c.growing C) m (c.NLayers - 1) (c.tau0 c.NLayers) (c.N + q)
          | none => 0) = 0 := by
    intro i hi
    refine (bot_sum hL m R _ i).symm.trans ?_
    rw [← hC (c.dim - c.N + i) (by omega), mask_row' _ _ (by omega)]
    exact sum_congr rfl fun j hj => by rw [hl.bot i hi j (mem_range.mp hj)]
  have z1 := energy_zero (u := fun l t => c.hom (c.decaying C) m l t) hL hD hT
    (fun l hl' i hi => fun t _ => (hom_hasDerivAt hA _ l hl' t i hi).continuousAt.continuousWithinAt)
    (fun l hl' t _ i hi => hom_hasDerivAt hA _ l hl' t i hi) (by rw [h0]; exact e1) e2
    (by
      have := energyFlux_le hD1 (hom_hasDerivAt hA (c.decaying C) _ hlow) (fun q _ => hom_decays hL hneg C q) (c.tau0 c.NLayers)
      unfold energyFlux at this
      linarith)
  have z2 := energy_zero_of (L := 1) (T := fun k => c.tau0 c.NLayers - 1 + k) (u := fun _ t => c.hom (c.growing C) m (c.NLayers - 1) t) Nat.one_pos hD1
    (fun l _ => by push_cast; linarith)
    (fun l _ i hi => fun t _ => (hom_hasDerivAt hA _ _ hlow t i hi).continuousAt.continuousWithinAt)
    (fun l _ t _ i hi => hom_hasDerivAt hA _ _ hlow t i hi)
    (by
      have := energyFlux_ge hD1 (hom_hasDerivAt hA (c.growing C) _ hlow) (fun q _ => hom_grows hL hpos C q) (c.tau0 c.NLayers - 1 + ((0 : ℕ) : ℝ))
      unfold energyFlux at this
      linarith)
    (fun k hk => by omega)
    (by
      have e : c.tau0 c.NLayers - 1 + ((1 : ℕ) : ℝ) = c.tau0 c.NLayers := by push_cast; ring
      simp only [e]
      rcases R with _ | R'
      · have : ∑ i ∈ range c.N, s i * c.hom (c.growing C) m (c.NLayers - 1) (c.tau0 c.NLayers) i ^ 2 = 0 := by
          refine sum_eq_zero fun i hi => ?_
          have := e3 i (mem_range.mp hi)
          simp only [sub_zero] at this
          rw [this]; ring
        rw [this]
        exact sum_nonneg fun i hi => mul_nonneg (hD.pos i (mem_range.mp hi)).le (sq_nonneg _)
      · refine le_trans (le_of_eq ?_) (hR R' rfl (fun q => c.hom (c.growing C) m (c.NLayers - 1) (c.tau0 c.NLayers) (c.N + q)))
        refine sum_congr rfl fun i hi => ?_
        have := e3 i (mem_range.mp hi)
        rw [sub_eq_zero.mp this])
  intro k hk
  by_cases hkd : k < c.dim - c.N
  · have h2N : 0 < 2 * c.N := by omega
    have hkl : k / (2 * c.N) < c.NLayers := Nat.div_lt_of_lt_mul (by unfold dim at hk; rwa [mul_comm] at hk)
    have hj : k % (2 * c.N) < 2 * c.N := Nat.mod_lt _ h2N
    have hkj : k / (2 * c.N) * (2 * c.N) + k % (2 * c.N) = k := by rw [mul_comm]; exact Nat.div_add_mod k (2 * c.N)
    have := coef_zero_of_hom (hG _ hkl) (z1 _ hkl (c.tau0 (k / (2 * c.N))) (Set.left_mem_Icc.mpr (hT _ hkl).le)) _ hj
    rw [hkj] at this
    unfold decaying at this
    rwa [if_pos hkd] at this
  · have := coef_zero_of_hom (hG _ hlow) (z2 0 Nat.one_pos (c.tau0 c.NLayers - 1 + ((0 : ℕ) : ℝ)) (Set.left_mem_Icc.mpr (by push_cast; linarith))) (k - (c.NLayers - 1) * (2 * c.N)) (by omega)
    rw [show (c.NLayers - 1) * (2 * c.N) + (k - (c.NLayers - 1) * (2 * c.N)) = k by omega] at this
    unfold growing at this
    rwa [if_neg hkd] at this

/-- The conditions that the coefficients of an atmosphere without bottom satisfy. -/
theorem end_conditions (hN : 0 < c.N) (hL : 0 < c.NLayers) (hs : c.KSym) (h0 : c.tau0 0 = 0) (hm : m < c.NFourier) {R : Option Mat} {X bneg bpos C : Vec}
    (hC : ∀ i < c.dim, mulVec c.dim (fun i j => c.lhs m R i j * c.mask i j) C i = c.rhsEnd m bneg bpos R X i) :
    (∀ i < c.N, c.hom (c.decaying C) m 0 0 (c.N + i) + c.part m 0 0 (c.N + i) = bneg i) ∧
    ∀ k < c.NLayers - 1, ∀ q < 2 * c.N, c.hom (c.decaying C) m k (c.tau0 (k + 1)) q + c.part m k (c.tau0 (k + 1)) q
      = c.hom (c.decaying C) m (k + 1) (c.tau0 (k + 1)) q + c.part m (k + 1) (c.tau0 (k + 1)) q := by
  have hl := lhs_isLhs hN hL m R
  have hd := c.dim_ge hL
  have hdp := c.dim_pred hL
  constructor
  · intro i hi
    have h1 := hC i (by omega)
    rw [mask_row _ _ (by omega), rhsEnd, if_pos (by omega), rhs_top c hN hL m _ _ _ _ _ hi] at h1
    have h2 := top_sum hL hs h0 hm (c.decaying C) i
    rw [← h2]
    have h3 : mulVec c.dim (c.lhs m R) (c.decaying C) i = ∑ j ∈ range c.dim, c.topRow m i j * c.decaying C j :=
      sum_congr rfl fun j hj => by rw [hl.top i hi j (mem_range.mp hj)]
    linarith
  · intro k hk q hq
    have hb := mul_succ_le (c := 2 * c.N) hk
    have h1 := hC (c.N + k * (2 * c.N) + q) (by omega)
    rw [mask_row _ _ (by omega), rhsEnd, if_pos (by omega), rhs_mid c m _ _ _ _ _ hk hq] at h1
    have h2 := mid_sum hs hm (c.decaying C) hk q
    have h3 : mulVec c.dim (c.lhs m R) (c.decaying C) (c.N + k * (2 * c.N) + q) = ∑ j ∈ range c.dim, c.midRow m k q j * c.decaying C j :=
      sum_congr rfl fun j hj => by rw [hl.mid k hk q hq j (mem_range.mp hj)]
    linarith

end CoefIn
end Pydisort

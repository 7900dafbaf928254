import Verif.ExponentsLhs
import Verif.ExponentsEnergy
import Verif.EndlessField
import Verif.Spec.Exponents

/-! The linear system for the coefficients is non-singular for any damping factors in place of the exponentials. -/

namespace Pydisort
open Finset Spec

namespace CoefIn
variable (I : CoefIn) (ex : ℝ → ℝ)

/-- The factor shared by columns `j` and `N + j` of a layer. -/
noncomputable def fac (m l j : ℕ) : ℝ :=
  ex (I.K m l (if j < I.N then j else j - I.N) * (I.tau0 (l + 1) - I.tau0 l))
/-- Factor of column `j` at the upper boundary of the layer. -/
noncomputable def facT (m l j : ℕ) : ℝ := if j < I.N then 1 else I.fac ex m l j
/-- Factor of column `j` at the lower boundary of the layer. -/
noncomputable def facB (m l j : ℕ) : ℝ := if j < I.N then I.fac ex m l j else 1
/-- Homogeneous solution at the upper boundary of the layer. -/
noncomputable def homT (C : Vec) (m l q : ℕ) : ℝ :=
  ∑ j ∈ range (2 * I.N), (I.facT ex m l j * C (l * (2 * I.N) + j)) * I.G m l q j
/-- Homogeneous solution at the lower boundary of the layer. -/
noncomputable def homB (C : Vec) (m l q : ℕ) : ℝ :=
  ∑ j ∈ range (2 * I.N), (I.facB ex m l j * C (l * (2 * I.N) + j)) * I.G m l q j

variable {I} {ex}

theorem topX_sum (hL : 0 < I.NLayers) (h0 : I.tau0 0 = 0) {m : ℕ} (C : Vec)
    (i : ℕ) : ∑ j ∈ range I.dim, I.topRowX ex m i j * C j = I.homT ex C m 0 (I.N + i) := by
  rw [sum_dim, sum_eq_single 0]
  · unfold homT
    refine sum_congr rfl fun j hj => ?_
    rw [mem_range] at hj
    unfold topRowX facT fac E01X
    rw [Nat.zero_mul, Nat.zero_add]
    by_cases h1 : j < I.N
    · simp [h1]; ring
    · simp only [h1, hj, if_true, if_false, h0, sub_zero, Nat.zero_add]
      ring
  · intro l _ hl
    refine sum_eq_zero fun j hj => ?_
    have : 2 * I.N ≤ l * (2 * I.N) := Nat.le_mul_of_pos_left _ (by omega)
    unfold topRowX
    rw [if_neg (by omega), if_neg (by omega), zero_mul]
  · intro h; exact absurd (mem_range.mpr hL) h

theorem midX_sum (hs : I.KSym) {m : ℕ} (hm : m < I.NFourier) (C : Vec) {k : ℕ} (hk : k < I.NLayers - 1) (q : ℕ) :
    ∑ j ∈ range I.dim, I.midRowX ex m k q j * C j = I.homB ex C m k q - I.homT ex C m (k + 1) q := by
  rw [sum_dim, sum_eq_add k (k + 1) (by omega)]
  · rw [sub_eq_add_neg]
    congr 1
    · unfold homB
      refine sum_congr rfl fun j hj => ?_
      rw [mem_range] at hj
      unfold midRowX midBlockX facB fac Elm1lX
      rw [if_neg (by omega), Nat.add_sub_cancel_left]
      by_cases h1 : j < I.N
      · have := hs m hm k (by omega) j h1
        simp only [h1, if_true, this]
        rw [show -I.K m k j * (I.tau0 k - I.tau0 (k + 1)) = I.K m k j * (I.tau0 (k + 1) - I.tau0 k) by ring]
        ring
      · simp [h1, hj]; ring
    · unfold homT
      rw [← sum_neg_distrib]
      refine sum_congr rfl fun j hj => ?_
      rw [mem_range] at hj
      unfold midRowX midBlockX facT fac Ellp1X
      have e : (k + 1) * (2 * I.N) + j - k * (2 * I.N) = 2 * I.N + j := by rw [Nat.succ_mul]; omega
      have e0 : ¬ ((k + 1) * (2 * I.N) + j < k * (2 * I.N)) := by rw [Nat.succ_mul]; omega
      rw [if_neg e0, e]
      by_cases h1 : j < I.N
      · rw [if_neg (by omega), if_neg (by omega), if_pos (by omega), if_pos h1, Nat.add_sub_cancel_left]
        ring
      · have := hs m hm (k + 1) (by omega) (j - I.N) (by omega)
        rw [if_neg (by omega), if_neg (by omega), if_neg (by omega), if_pos (by omega), if_neg h1, if_neg h1,
          Nat.add_sub_cancel_left, show 2 * I.N + j - 3 * I.N = j - I.N by omega, this,
          show -I.K m (k + 1) (j - I.N) * (I.tau0 (k + 1) - I.tau0 (k + 2))
            = I.K m (k + 1) (j - I.N) * (I.tau0 (k + 1 + 1) - I.tau0 (k + 1)) by ring]
        ring
  · intro l _ hl
    refine sum_eq_zero fun j hj => ?_
    rw [mem_range] at hj
    unfold midRowX
    rcases lt_or_gt_of_ne hl.1 with h | h
    · have := mul_succ_le (c := 2 * I.N) h
      rw [if_pos (by omega), zero_mul]
    · have h2 : k + 2 ≤ l := by omega
      have := Nat.mul_le_mul_right (2 * I.N) h2
      rw [Nat.add_mul] at this
      unfold midBlockX
      rw [if_neg (by omega), if_neg (by omega), if_neg (by omega), if_neg (by omega), if_neg (by omega), zero_mul]
  · intro h; simp at h; omega
  · intro h; simp at h; omega

theorem botX_sum (hL : 0 < I.NLayers) (m : ℕ) (R : Option Mat) (C : Vec) (i : ℕ) :
    ∑ j ∈ range I.dim, I.botRowX ex m R i j * C j
      = I.homB ex C m (I.NLayers - 1) i
        - match R with
          | some R => ∑ q ∈ range I.N, R i q * I.homB ex C m (I.NLayers - 1) (I.N + q)
          | none => 0 := by
  have hd := I.dim_pred hL
  have hkey : ∀ j < 2 * I.N, I.botRowX ex m R i ((I.NLayers - 1) * (2 * I.N) + j)
      = (I.G m (I.NLayers - 1) i j - match R with
          | some R => ∑ q ∈ range I.N, R i q * I.G m (I.NLayers - 1) (I.N + q) j
          | none => 0) * I.facB ex m (I.NLayers - 1) j := by
    intro j hj
    unfold botRowX botLX botR facB fac ELm1LX
    rw [if_neg (by omega)]
    by_cases h1 : j < I.N
    · rw [if_pos (by omega), if_pos h1, if_pos h1, show (I.NLayers - 1) * (2 * I.N) + j - (I.dim - 2 * I.N) = j by omega,
        show I.NLayers - 1 + 1 = I.NLayers by omega]
      cases R <;> simp
    · rw [if_neg (by omega), if_neg h1,
        show I.N + ((I.NLayers - 1) * (2 * I.N) + j - (I.dim - I.N)) = j by omega]
      cases R <;> simp
  rw [sum_dim, sum_eq_single (I.NLayers - 1)]
  · rw [sum_congr rfl (fun j hj => by rw [hkey j (mem_range.mp hj)])]
    unfold homB
    rcases R with _ | R
    · simp only [sub_zero]
      exact sum_congr rfl fun j _ => by ring
    · simp only [sub_mul, sum_sub_distrib]
      congr 1
      · exact sum_congr rfl fun j _ => by ring
      · simp only [sum_mul, mul_sum]
        rw [sum_comm]
        exact sum_congr rfl fun j _ => sum_congr rfl fun q _ => by ring
  · intro l hl hne
    refine sum_eq_zero fun j hj => ?_
    rw [mem_range] at hl hj
    have hlt : l < I.NLayers - 1 := by omega
    have := mul_succ_le (c := 2 * I.N) hlt
    unfold botRowX
    rw [if_pos (by omega), zero_mul]
  · intro h; simp at h; omega

/-- Whatever damping factors stand in place of the exponentials, the matrix is non-singular. -/
theorem lhsX_det {c : CoefIn} (hex : Damping ex) (hN : 0 < c.N) (hL : 0 < c.NLayers) (hs : c.KSym) (h0 : c.tau0 0 = 0)
    (hT : ∀ l < c.NLayers, c.tau0 l < c.tau0 (l + 1)) {m : ℕ} (hm : m < c.NFourier) (R : Option Mat)
    (hneg : ∀ l < c.NLayers, ∀ j < c.N, c.K m l j < 0)
    {A : ℕ → Mat} {s : Vec} (hD : Dissipative c.N c.NLayers s A) (hsym : ∀ l < c.NLayers, FluxSymm c.N s (A l))
    (hA : ∀ l < c.NLayers, ∀ i < 2 * c.N, ∀ j < 2 * c.N,
      mulVec (2 * c.N) (A l) (fun q => c.G m l q j) i = c.K m l j * c.G m l i j)
    (hG : ∀ l < c.NLayers, (toM (2 * c.N) (c.G m l)).det ≠ 0)
    (hR : ∀ R', R = some R' → ∀ d : Vec,
      ∑ i ∈ range c.N, s i * (∑ q ∈ range c.N, R' i q * d q) ^ 2 ≤ ∑ i ∈ range c.N, s i * d i ^ 2)
    {M : Mat} (hl : c.IsLhsX ex m R M) :
    (toM c.dim M).det ≠ 0 := by
  apply det_ne_zero_of_inj
  intro C hC
  have hd := c.dim_ge hL
  have e1 : ∀ i < c.N, c.homT ex C m 0 (c.N + i) = 0 := by
    intro i hi
    rw [← topX_sum hL h0, ← hC i (by omega)]
    exact sum_congr rfl fun j hj => by rw [hl.top i hi j (mem_range.mp hj)]
  have hbl : ∀ k < c.NLayers - 1, ∀ q < 2 * c.N, c.N + k * (2 * c.N) + q < c.dim := by
    intro k hk q hq
    have := c.block_le hk
    rw [Nat.succ_mul] at this; omega
  have e2 : ∀ k < c.NLayers - 1, ∀ q < 2 * c.N, c.homB ex C m k q = c.homT ex C m (k + 1) q := by
    intro k hk q hq
    rw [← sub_eq_zero, ← midX_sum hs hm C hk, ← hC _ (hbl k hk q hq)]
    exact sum_congr rfl fun j hj => by rw [hl.mid k hk q hq j (mem_range.mp hj)]
  have e3 : ∀ i < c.N, c.homB ex C m (c.NLayers - 1) i
        - (match (generalizing := false) R with
          | some R => ∑ q ∈ range c.N, R i q * c.homB ex C m (c.NLayers - 1) (c.N + q)
          | none => 0) = 0 := by
    intro i hi
    refine (botX_sum hL m R C i).symm.trans ?_
    rw [← hC (c.dim - c.N + i) (by omega)]
    exact sum_congr rfl fun j hj => by rw [hl.bot i hi j (mem_range.mp hj)]
  have hfac : ∀ l < c.NLayers, ∀ j < 2 * c.N, 0 ≤ c.fac ex m l j ∧ c.fac ex m l j ≤ 1 := by
    intro l hl' j hj
    unfold fac
    refine hex _ (mul_neg_of_neg_of_pos (hneg l hl' _ ?_) (sub_pos.2 (hT l hl')))
    split_ifs <;> omega
  have hpos : ∀ l < c.NLayers, ∀ j < 2 * c.N, ¬ j < c.N → 0 < c.K m l j := by
    intro l hl' j hj hj'
    have := hs m hm l hl' (j - c.N) (by omega)
    rw [show c.N + (j - c.N) = j by omega] at this
    rw [this]; linarith [hneg l hl' (j - c.N) (by omega)]
  have hlay : ∀ l < c.NLayers,
      fluxForm c.N s (c.homT ex C m l) (c.homT ex C m l) ≤ fluxForm c.N s (c.homB ex C m l) (c.homB ex C m l) ∧
      (fluxForm c.N s (c.homT ex C m l) (c.homT ex C m l) = fluxForm c.N s (c.homB ex C m l) (c.homB ex C m l) →
        ∀ j < 2 * c.N, (c.facB ex m l j ^ 2 - c.facT ex m l j ^ 2) * C (l * (2 * c.N) + j) = 0) := by
    intro l hl'
    refine layer_energy (hsym l hl') (fun x hx => hD.form l hl' x hx) (hA l hl') (hG l hl') (K := c.K m l)
      (t := c.facT ex m l) (b := c.facB ex m l) ?_ ?_ ?_ (fun j => C (l * (2 * c.N) + j))
    · intro j hj
      by_cases h : j < c.N
      · exact (hneg l hl' j h).ne
      · exact (hpos l hl' j hj h).ne'
    · intro j hj
      have hf := hfac l hl' j hj
      have hf2 : c.fac ex m l j ^ 2 ≤ 1 := pow_le_one₀ hf.1 hf.2
      unfold facT facB
      by_cases h : j < c.N
      · simp only [h, if_true]
        exact div_nonneg_of_nonpos (by linarith) (hneg l hl' j h).le
      · simp only [h, if_false]
        exact div_nonneg (by linarith) (hpos l hl' j hj h).le
    · intro j hj k hk hjk
      unfold facT facB
      by_cases h : j < c.N
      · have h' : k < c.N := by
          by_contra h'
          have := hpos l hl' k hk h'
          have := hneg l hl' j h
          linarith
        simp only [h, h', if_true, true_and]
        unfold fac
        simp only [h, h', if_true, hjk]
      · have h' : ¬ k < c.N := by
          intro h'
          have := hpos l hl' j hj h
          have := hneg l hl' k h'
          linarith
        simp only [h, h', if_false, and_true]
        unfold fac
        simp only [h, h', if_false]
        have h1 := hs m hm l hl' (j - c.N) (by omega)
        have h2 := hs m hm l hl' (k - c.N) (by omega)
        rw [show c.N + (j - c.N) = j by omega] at h1
        rw [show c.N + (k - c.N) = k by omega] at h2
        rw [show c.K m l (j - c.N) = c.K m l (k - c.N) by linarith]
  have hlink : ∀ k < c.NLayers - 1, fluxForm c.N s (c.homB ex C m k) (c.homB ex C m k)
      = fluxForm c.N s (c.homT ex C m (k + 1)) (c.homT ex C m (k + 1)) :=
    fun k hk => fluxForm_congr (e2 k hk) (e2 k hk)
  have hs1 : ∀ x : Vec, 0 ≤ ∑ i ∈ range c.N, s i * x i ^ 2 :=
    fun x => sum_nonneg fun i hi => mul_nonneg (hD.pos i (mem_range.mp hi)).le (sq_nonneg _)
  have hdown : ∑ i ∈ range c.N, s i * c.homT ex C m 0 (c.N + i) ^ 2 = 0 :=
    sum_eq_zero fun i hi => by rw [e1 i (mem_range.mp hi)]; ring
  have hfirst : 0 ≤ fluxForm c.N s (c.homT ex C m 0) (c.homT ex C m 0) := by
    rw [fluxForm_split, hdown, sub_zero]; exact hs1 _
  have hlast : fluxForm c.N s (c.homB ex C m (c.NLayers - 1)) (c.homB ex C m (c.NLayers - 1)) ≤ 0 := by
    rw [fluxForm_split, sub_nonpos]
    rcases R with _ | R'
    · have : ∑ i ∈ range c.N, s i * c.homB ex C m (c.NLayers - 1) i ^ 2 = 0 := by
        refine sum_eq_zero fun i hi => ?_
        have := e3 i (mem_range.mp hi)
        simp only [sub_zero] at this
        rw [this]; ring
      rw [this]; exact hs1 (fun i => c.homB ex C m (c.NLayers - 1) (c.N + i))
    · refine le_trans (le_of_eq ?_) (hR R' rfl (fun q => c.homB ex C m (c.NLayers - 1) (c.N + q)))
      refine sum_congr rfl fun i hi => ?_
      have := e3 i (mem_range.mp hi)
      rw [sub_eq_zero.mp this]
  have hlow : ∀ l < c.NLayers, 0 ≤ fluxForm c.N s (c.homT ex C m l) (c.homT ex C m l) := by
    intro l
    induction l with
    | zero => exact fun _ => hfirst
    | succ l ih =>
      intro hl'
      rw [← hlink l (by omega)]
      exact (ih (by omega)).trans (hlay l (by omega)).1
  have hhigh : ∀ k < c.NLayers, fluxForm c.N s (c.homB ex C m (c.NLayers - 1 - k)) (c.homB ex C m (c.NLayers - 1 - k)) ≤ 0 := by
    intro k
    induction k with
    | zero => intro _; exact hlast
    | succ k ih =>
      intro hk
      have h1 := ih (by omega)
      rw [hlink _ (by omega), show c.NLayers - 1 - (k + 1) + 1 = c.NLayers - 1 - k by omega]
      exact (hlay _ (by omega)).1.trans h1
  have heq : ∀ l < c.NLayers, fluxForm c.N s (c.homT ex C m l) (c.homT ex C m l) = 0 ∧
      fluxForm c.N s (c.homB ex C m l) (c.homB ex C m l) = 0 := by
    intro l hl'
    have h1 := hlow l hl'
    have h2 := hhigh (c.NLayers - 1 - l) (by omega)
    rw [show c.NLayers - 1 - (c.NLayers - 1 - l) = l by omega] at h2
    have h3 := (hlay l hl').1
    constructor <;> linarith
  have hzero : ∀ l < c.NLayers, (∀ i < 2 * c.N, c.homT ex C m l i = 0) → ∀ j < 2 * c.N, C (l * (2 * c.N) + j) = 0 := by
    intro l hl' hz j hj
    have h1 := inj_of_det (hG l hl') (x := fun j => c.facT ex m l j * C (l * (2 * c.N) + j)) (fun i hi => by
      rw [← hz i hi]
      unfold mulVec homT
      exact sum_congr rfl fun q _ => by ring) j hj
    have h2 := (hlay l hl').2 ((heq l hl').1.trans (heq l hl').2.symm) j hj
    unfold facT at h1 h2
    unfold facB at h2
    by_cases h : j < c.N
    · simpa [h] using h1
    · simp only [h, if_false] at h1 h2
      linear_combination h2 + c.fac ex m l j * h1
  have hall : ∀ l < c.NLayers, ∀ i < 2 * c.N, c.homT ex C m l i = 0 := by
    intro l
    induction l with
    | zero =>
      intro _ i hi
      by_cases h : i < c.N
      · have h1 := (heq 0 hL).1
        rw [fluxForm_split, hdown, sub_zero] at h1
        have h2 := (sum_eq_zero_iff_of_nonneg fun i hi => mul_nonneg (hD.pos i (mem_range.mp hi)).le (sq_nonneg _)).1 h1 i (mem_range.mpr h)
        exact pow_eq_zero_iff (two_ne_zero) |>.1 ((mul_eq_zero.mp h2).resolve_left (hD.pos i h).ne')
      · have := e1 (i - c.N) (by omega)
        rwa [show c.N + (i - c.N) = i by omega] at this
    | succ l ih =>
      intro hl' i hi
      rw [← e2 l (by omega) i hi]
      have := hzero l (by omega) (ih (by omega))
      unfold homB
      exact sum_eq_zero fun j hj => by rw [this j (mem_range.mp hj)]; ring
  intro k hk
  have h2N : 0 < 2 * c.N := by omega
  have hkl : k / (2 * c.N) < c.NLayers := Nat.div_lt_of_lt_mul (by unfold dim at hk; rwa [mul_comm] at hk)
  have := hzero _ hkl (hall _ hkl) (k % (2 * c.N)) (Nat.mod_lt _ h2N)
  rwa [mul_comm, Nat.div_add_mod] at this

end CoefIn
end Pydisort

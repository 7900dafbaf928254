import Verif.ExponentsRhs
import Verif.ExponentsSolve

/-! The boundary and continuity conditions solved by `_solve_for_coeffs` for any values of the exponentials. -/

namespace Pydisort
open Finset Spec

namespace CoefIn
variable (I : CoefIn) (ex : ℝ → ℝ)

/-- Full solution of mode `m` in layer `l`. -/
noncomputable def solX (C : Vec) (m l : ℕ) (x : ℝ) (q : ℕ) : ℝ :=
  (∑ j ∈ range (2 * I.N), I.G m l q j * C (l * (2 * I.N) + j)
      * ex (if j < I.N then I.K m l j * (x - I.tau0 l) else I.K m l j * (x - I.tau0 (l + 1)))) + I.partX ex m l x q

/-- The boundary and continuity conditions for mode `m`. -/
structure BCsX (m : ℕ) (R : Option Mat) (X bneg bpos : Vec) (u : ℕ → ℝ → Vec) : Prop where
  top : ∀ i < I.N, u 0 0 (I.N + i) = bneg i
  mid : ∀ k < I.NLayers - 1, ∀ q < 2 * I.N, u k (I.tau0 (k + 1)) q = u (k + 1) (I.tau0 (k + 1)) q
  bot : ∀ i < I.N, u (I.NLayers - 1) (I.tau0 I.NLayers) i = bpos i + match R with
    | some R => (∑ q ∈ range I.N, R i q * u (I.NLayers - 1) (I.tau0 I.NLayers) (I.N + q))
        + if I.beam = true then X i * ex (-I.tau0 I.NLayers / I.mu0) else 0
    | none => 0

variable {I} {ex}

theorem solX_bot (h0 : ex 0 = 1) (C : Vec) (m l q : ℕ) :
    I.solX ex C m l (I.tau0 (l + 1)) q = I.homB ex C m l q + I.partX ex m l (I.tau0 (l + 1)) q := by
  unfold solX homB
  congr 1
  refine sum_congr rfl fun j _ => ?_
  unfold facB fac
  by_cases hj : j < I.N
  · simp only [hj, if_true]; ring
  · simp only [hj, if_false, sub_self, mul_zero, h0]; ring

theorem solX_top (h0 : ex 0 = 1) (hs : I.KSym) (C : Vec) {m l : ℕ} (hm : m < I.NFourier) (hl : l < I.NLayers) (q : ℕ) :
    I.solX ex C m l (I.tau0 l) q = I.homT ex C m l q + I.partX ex m l (I.tau0 l) q := by
  unfold solX homT
  congr 1
  refine sum_congr rfl fun j hj => ?_
  rw [mem_range] at hj
  unfold facT fac
  by_cases h1 : j < I.N
  · simp only [h1, if_true, sub_self, mul_zero, h0]; ring
  · have := hs m hm l hl (j - I.N) (by omega)
    rw [show I.N + (j - I.N) = j by omega] at this
    simp only [h1, if_false]
    rw [this, show -I.K m l (j - I.N) * (I.tau0 l - I.tau0 (l + 1)) = I.K m l (j - I.N) * (I.tau0 (l + 1) - I.tau0 l) by ring]
    ring

theorem systemX (h1 : ex 0 = 1) (hN : 0 < I.N) (hL : 0 < I.NLayers) (hs : I.KSym) (h0 : I.tau0 0 = 0) {m : ℕ}
    (hm : m < I.NFourier) (R : Option Mat) (X bneg bpos r : Vec) (C : Vec) {A : Mat} (hl : I.IsLhsX ex m R A)
    (h : ∀ i < I.dim, mulVec I.dim A C i = I.rhsX ex m bneg bpos R X r i) :
    I.BCsX ex m R X bneg bpos (fun l tau q => I.solX ex C m l tau q) := by
  have hd := I.dim_ge hL
  have e1 : ∀ i < I.N, mulVec I.dim A C i = I.homT ex C m 0 (I.N + i) := by
    intro i hi
    rw [← topX_sum hL h0]
    exact sum_congr rfl fun j hj => by rw [hl.top i hi j (mem_range.mp hj)]
  have e2 : ∀ k < I.NLayers - 1, ∀ q < 2 * I.N, mulVec I.dim A C (I.N + k * (2 * I.N) + q)
      = I.homB ex C m k q - I.homT ex C m (k + 1) q := by
    intro k hk q hq
    rw [← midX_sum hs hm C hk]
    exact sum_congr rfl fun j hj => by rw [hl.mid k hk q hq j (mem_range.mp hj)]
  have e3 : ∀ i < I.N, mulVec I.dim A C (I.dim - I.N + i)
      = I.homB ex C m (I.NLayers - 1) i
        - match (generalizing := false) R with
          | some R => ∑ q ∈ range I.N, R i q * I.homB ex C m (I.NLayers - 1) (I.N + q)
          | none => 0 := by
    intro i hi
    refine Eq.trans ?_ (botX_sum (ex := ex) hL m R C i)
    exact sum_congr rfl fun j hj => by rw [hl.bot i hi j (mem_range.mp hj)]
  have hbl : ∀ k < I.NLayers - 1, ∀ q < 2 * I.N, I.N + k * (2 * I.N) + q < I.dim := by
    intro k hk q hq
    have := I.block_le hk
    rw [Nat.succ_mul] at this; omega
  have et : ∀ q, I.solX ex C m 0 0 q = I.homT ex C m 0 q + I.partX ex m 0 0 q := by
    intro q
    have := solX_top h1 hs C hm hL q
    rwa [h0] at this
  have eb : ∀ q, I.solX ex C m (I.NLayers - 1) (I.tau0 I.NLayers) q
      = I.homB ex C m (I.NLayers - 1) q + I.partX ex m (I.NLayers - 1) (I.tau0 I.NLayers) q := by
    intro q
    have := solX_bot (I := I) h1 C m (I.NLayers - 1) q
    rwa [show I.NLayers - 1 + 1 = I.NLayers by omega] at this
  constructor
  · intro i hi
    have := h i (by omega)
    rw [e1 i hi, rhsX_top I h1 hN hL m _ _ _ _ _ hi] at this
    beta_reduce
    rw [et]; linarith
  · intro k hk q hq
    have := h _ (hbl k hk q hq)
    rw [e2 k hk q hq, rhsX_mid I m _ _ _ _ _ hk hq] at this
    beta_reduce
    rw [solX_bot h1, solX_top h1 hs C hm (by omega)]; linarith
  · intro i hi
    have := h (I.dim - I.N + i) (by omega)
    rw [e3 i hi, rhsX_bot I hN hL m _ _ _ _ _ hi] at this
    beta_reduce
    simp only [eb]
    rcases R with _ | R
    · simp only at this ⊢; linarith
    · simp only [mul_add, sum_add_distrib] at this ⊢; linarith

end CoefIn

/-- Every mode is solved for. -/
theorem coefLoopX_spec {I : CoefIn} {ex : ℝ → ℝ} (h1 : ex 0 = 1) (hN : 0 < I.N) (hL : 0 < I.NLayers) (hs : I.KSym) (h0 : I.tau0 0 = 0)
    (junk : ℕ → Vec) {st : CoefState} (h : st.OK I) (n : ℕ) (hn : n ≤ I.NFourier) :
    ∀ st', forRangeM n (coefBodyX ex I junk) st = .ok st' → st'.OK I ∧ ∀ m < n, ∃ R X bneg bpos, coefR I m = .ok R ∧ coefX I m = .ok X
      ∧ bcMode I.N m I.bnegScalar I.bnegVector I.bneg = .ok bneg ∧ bcMode I.N m I.bposScalar I.bposVector I.bpos = .ok bpos
      ∧ I.BCsX ex m R X bneg bpos (fun l tau q => I.solX ex (st'.C m) m l tau q) := by
  induction n with
  | zero =>
    intro st' h'
    cases h'; exact ⟨h, fun m hm => by omega⟩
  | succ n ih =>
    intro st' h'
    unfold forRangeM at h'
    rcases hf : forRangeM n (coefBodyX ex I junk) st with e | s1
    · rw [hf] at h'; cases h'
    rw [hf] at h'
    obtain ⟨hok, hC⟩ := ih (by omega) s1 hf
    simp only [bind, Except.bind] at h'
    unfold coefBodyX at h'
    rcases hR : coefR I n with e | R
    · rw [hR] at h'; cases h'
    rcases hX : coefX I n with e | X
    · rw [hR, hX] at h'; cases h'
    rcases hp : bcMode I.N n I.bposScalar I.bposVector I.bpos with e | bpos
    · rw [hR, hX, hp] at h'; cases h'
    rcases hb : bcMode I.N n I.bnegScalar I.bnegVector I.bneg with e | bneg
    · rw [hR, hX, hp, hb] at h'; cases h'
    rw [hR, hX, hp, hb] at h'
    simp only [bind, Except.bind] at h'
    have l1 := CoefIn.denseX_spec (ex := ex) hN hL n R hok.1
    have l2 := CoefIn.bandX_spec (ex := ex) hN hL n R hok.2
    have fin : ∀ {x : Vec} {A : Mat}, I.IsLhsX ex n R A → npSolve I.dim A (I.rhsX ex n bneg bpos R X s1.RHS) = .ok x → ∀ C, C = Function.update s1.C n x →
        ∀ m < n + 1, ∃ R X bneg bpos, coefR I m = .ok R ∧ coefX I m = .ok X
          ∧ bcMode I.N m I.bnegScalar I.bnegVector I.bneg = .ok bneg ∧ bcMode I.N m I.bposScalar I.bposVector I.bpos = .ok bpos
          ∧ I.BCsX ex m R X bneg bpos (fun l tau q => I.solX ex (C m) m l tau q) := by
      intro x A hA hx C hCe m hm
      by_cases hc : m = n
      · subst hc
        refine ⟨R, X, bneg, bpos, hR, hX, hb, hp, ?_⟩
        rw [hCe]
        simp only [Function.update_self]
        exact CoefIn.systemX h1 hN hL hs h0 (by omega) R X bneg bpos _ x hA (npSolve_ok hx).2
      · rw [hCe]
        simp only [Function.update_of_ne hc]
        exact hC m (by omega)
    by_cases hu : I.useBanded = true
    · rw [if_pos hu] at h'
      rcases hx : npSolve I.dim (I.bandMat (I.bandX ex n R s1.dof)) (I.rhsX ex n bneg bpos R X s1.RHS) with e | x
      · rw [hx] at h'; cases h'
      rw [hx] at h'; cases h'
      exact ⟨⟨hok.1, l2.zero⟩, fin l2 hx _ rfl⟩
    · rw [if_neg hu] at h'
      rcases hx : npSolve I.dim (I.denseX ex n R s1.LHS) (I.rhsX ex n bneg bpos R X s1.RHS) with e | x
      · rw [hx] at h'; cases h'
      rw [hx] at h'; cases h'
      exact ⟨⟨l1.zero, hok.2⟩, fin l1 hx _ rfl⟩

end Pydisort

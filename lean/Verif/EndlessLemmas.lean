import Verif.Model.Endless
import Verif.NonFiniteLemmas
import Verif.CoefSuccess
import Mathlib.Topology.Order.MonotoneConvergence

/-!
# Lemmas on the linear system of an atmosphere without bottom
-/

namespace Pydisort
open Finset Filter

namespace Fl

theorem exp_down {k : ℝ} (hk : k < 0) (x : ℝ) : exp (mul (fin k) (sub pinf (fin x))) = fin 0 := by
  show exp (infTimes k) = _
  unfold infTimes
  rw [if_neg (not_lt.2 hk.le), if_pos hk]; rfl

theorem exp_down' {k : ℝ} (hk : k < 0) : exp (mul (fin k) pinf) = fin 0 := by
  show exp (infTimes k) = _
  unfold infTimes
  rw [if_neg (not_lt.2 hk.le), if_pos hk]; rfl

theorem exp_up {k : ℝ} (hk : 0 < k) (x : ℝ) : exp (mul (fin k) (sub (fin x) pinf)) = fin 0 := by
  show exp (infTimes (-k)) = _
  unfold infTimes
  rw [if_neg (by linarith), if_pos (by linarith)]; rfl

theorem exp_beam {mu : ℝ} (h : 0 < mu) : exp (div (neg pinf) (fin mu)) = fin 0 := by
  show exp (if mu < 0 then pinf else ninf) = _
  rw [if_neg (not_lt.2 h.le)]; rfl

end Fl

theorem setBlockF_rel {z : Mat} {A : ℕ → ℕ → Fl} {B : Mat} {i0 i1 j0 j1 : ℕ} {P : ℕ → ℕ → Fl} {Q : Mat} (h : ∀ i j, A i j = .fin (B i j * z i j))
    (hb : ∀ i j, i0 ≤ i → i < i1 → j0 ≤ j → j < j1 → P (i - i0) (j - j0) = .fin (Q (i - i0) (j - j0) * z i j)) :
    ∀ i j, setBlockF A i0 i1 j0 j1 P i j = .fin (setBlock B i0 i1 j0 j1 Q i j * z i j) := by
  intro i j
  unfold setBlockF setBlock
  by_cases hc : (i0 ≤ i ∧ i < i1) ∧ (j0 ≤ j ∧ j < j1)
  · rw [if_pos hc, if_pos hc]; exact hb i j hc.1.1 hc.1.2 hc.2.1 hc.2.2
  · rw [if_neg hc, if_neg hc]; exact h i j

theorem setSliceF_rel {P : ℕ → Prop} {v : ℕ → Fl} {u : Vec} {a b : ℕ} {w : ℕ → Fl} {x : Vec} (h : ∀ i, P i → v i = .fin (u i))
    (hb : ∀ i, P i → a ≤ i → i < b → w (i - a) = .fin (x (i - a))) : ∀ i, P i → setSliceF v a b w i = .fin (setSlice u a b x i) := by
  intro i hi
  unfold setSliceF setSlice
  by_cases hc : a ≤ i ∧ i < b
  · rw [if_pos hc, if_pos hc]; exact hb i hi hc.1 hc.2
  · rw [if_neg hc, if_neg hc]; exact h i hi

theorem addSliceF_rel {P : ℕ → Prop} {v : ℕ → Fl} {u : Vec} {a b : ℕ} {w : ℕ → Fl} {x : Vec} (h : ∀ i, P i → v i = .fin (u i))
    (hb : ∀ i, P i → a ≤ i → i < b → w (i - a) = .fin (x (i - a))) : ∀ i, P i → addSliceF v a b w i = .fin (addSlice u a b x i) := by
  intro i hi
  unfold addSliceF addSlice
  by_cases hc : a ≤ i ∧ i < b
  · rw [if_pos hc, if_pos hc, h i hi, hb i hi hc.1 hc.2]; rfl
  · rw [if_neg hc, if_neg hc]; exact h i hi

namespace CoefIn
variable {c : CoefIn}

variable (c) in
/-- One for the entries of the matrix that stay when the last optical depth grows to infinity, zero for the others. -/
def mask (i j : ℕ) : ℝ := if i < c.dim - c.N ↔ j < c.dim - c.N then 1 else 0

theorem mask_one {i j : ℕ} (h : i < c.dim - c.N ↔ j < c.dim - c.N) : c.mask i j = 1 := if_pos h
theorem mask_zero {i j : ℕ} (h : ¬ (i < c.dim - c.N ↔ j < c.dim - c.N)) : c.mask i j = 0 := if_neg h

variable {tau : ℕ → Fl}

variable (c) in
/-- The scaled depths of an atmosphere without bottom. -/
structure Endless (tau : ℕ → Fl) : Prop where
  above : ∀ k < c.NLayers, tau k = .fin (c.tau0 k)
  last : tau c.NLayers = .pinf

theorem dense_rel (hN : 0 < c.N) (hL : 0 < c.NLayers) (ht : c.Endless tau) {m : ℕ} (hneg : ∀ j < c.N, c.K m (c.NLayers - 1) j < 0)
    (hpos : ∀ j < c.N, 0 < c.K m (c.NLayers - 1) (c.N + j)) (R : Option Mat) :
    ∀ i j, c.denseF tau m R i j = .fin (c.lhs m R i j * c.mask i j) := by
  have hd := c.dim_pred hL
  unfold denseF lhs dense
  have h0 : ∀ i j : ℕ, (fun _ _ => Fl.fin 0 : ℕ → ℕ → Fl) i j = .fin ((fun _ _ => 0 : Mat) i j * c.mask i j) := fun i j => by simp
  have h1 := setBlockF_rel (i0 := 0) (i1 := c.N) (j0 := 0) (j1 := c.N) (P := fun i j => .fin (c.G m 0 (c.N + i) j)) (Q := fun i j => c.G m 0 (c.N + i) j) h0
    (fun i j _ hi _ hj => by rw [mask_one (by omega), mul_one])
  have h2 := setBlockF_rel (i0 := 0) (i1 := c.N) (j0 := c.N) (j1 := 2 * c.N) (P := fun i j => Fl.mul (.fin (c.G m 0 (c.N + i) (c.N + j))) (c.E01F tau m j))
    (Q := fun i j => c.G m 0 (c.N + i) (c.N + j) * c.E01 m j) h1 (fun i j _ hi hj1 hj => by
      by_cases hc : c.NLayers = 1
      · rw [mask_zero (by rw [hd, hc]; omega), mul_zero]
        have e : tau 1 = .pinf := by rw [← hc]; exact ht.last
        have k : c.K m 0 (j - c.N) < 0 := by have := hneg (j - c.N) (by omega); rwa [hc] at this
        beta_reduce
        unfold E01F
        rw [e, Fl.exp_down' k, Fl.fin_mul, mul_zero]
      · have : 1 * (2 * c.N) ≤ (c.NLayers - 1) * (2 * c.N) := Nat.mul_le_mul_right _ (by omega)
        rw [mask_one (by omega), mul_one]
        beta_reduce
        unfold E01F E01
        rw [ht.above 1 (by omega)]; rfl)
  have h3 := setBlockF_rel (i0 := c.dim - c.N) (i1 := c.dim) (j0 := c.dim - 2 * c.N) (j1 := c.dim - c.N) (P := c.botLF tau m R) (Q := c.botL m R) h2
    (fun i j hi1 hi hj1 hj => by
      rw [mask_zero (by omega), mul_zero]
      have e : c.ELm1LF tau m (j - (c.dim - 2 * c.N)) = .fin 0 := by
        unfold ELm1LF
        rw [ht.last, ht.above _ (by omega), Fl.exp_down (hneg _ (by omega))]
      unfold botLF
      cases R <;> simp only [e, Fl.fin_mul, mul_zero])
  have h4 := setBlockF_rel (i0 := c.dim - c.N) (i1 := c.dim) (j0 := c.dim - c.N) (j1 := c.dim) (P := fun i j => .fin (c.botR m R i j)) (Q := c.botR m R) h3
    (fun i j hi1 hi hj1 hj => by rw [mask_one (by omega), mul_one])
  have inv : ∀ n ≤ c.NLayers - 1, ∀ (A : ℕ → ℕ → Fl) (B : Mat), (∀ i j, A i j = .fin (B i j * c.mask i j)) →
      ∀ i j, forRange n (fun l A => c.denseInterF tau m l A) A i j = .fin (forRange n (fun l A => c.denseInter m l A) B i j * c.mask i j) := by
    intro n
    induction n with
    | zero => intro _ A B h; exact h
    | succ n ih =>
      intro hn A B h
      have hh := ih (by omega) A B h
      have hbl := mul_succ_le (c := 2 * c.N) (show n < c.NLayers - 1 by omega)
      show ∀ i j, c.denseInterF tau m n _ i j = .fin (c.denseInter m n _ i j * c.mask i j)
      unfold denseInterF denseInter
      have hE : ∀ j, c.Elm1lF tau m n j = .fin (c.Elm1l m n j) := fun j => by
        unfold Elm1lF Elm1l
        rw [ht.above n (by omega), ht.above (n + 1) (by omega)]; rfl
      have hF : ∀ i j (x : ℝ), i < c.dim - c.N → 3 * c.N + n * (2 * c.N) ≤ j → j < 4 * c.N + n * (2 * c.N) →
          Fl.mul (.fin x) (c.Ellp1F tau m n (j - (3 * c.N + n * (2 * c.N)))) = .fin (x * c.Ellp1 m n (j - (3 * c.N + n * (2 * c.N))) * c.mask i j) := by
        intro i j x hi h1 h2
        unfold Ellp1F Ellp1
        by_cases hc : n + 2 = c.NLayers
        · have e : (c.NLayers - 1) * (2 * c.N) = n * (2 * c.N) + 2 * c.N := by rw [show c.NLayers - 1 = n + 1 by omega, Nat.succ_mul]
          rw [mask_zero (by omega), mul_zero, hc, ht.last, ht.above (n + 1) (by omega)]
          have := hpos (j - (3 * c.N + n * (2 * c.N))) (by omega)
          rw [show c.NLayers - 1 = n + 1 by omega] at this
          rw [Fl.exp_up this, Fl.fin_mul, mul_zero]
        · have := mul_succ_le (c := 2 * c.N) (show n + 1 < c.NLayers - 1 by omega)
          rw [Nat.succ_mul] at this
          rw [mask_one (by omega), mul_one, ht.above (n + 1) (by omega), ht.above (n + 2) (by omega)]; rfl
      refine setBlockF_rel (setBlockF_rel (setBlockF_rel (setBlockF_rel (setBlockF_rel (setBlockF_rel hh ?_) ?_) ?_) ?_) ?_) ?_
      · intro i j hi1 hi hj1 hj
        rw [mask_one (by omega), mul_one, hE]; rfl
      · intro i j hi1 hi hj1 hj
        rw [mask_one (by omega), mul_one, hE]; rfl
      · intro i j hi1 hi hj1 hj
        rw [mask_one (by omega), mul_one]
      · intro i j hi1 hi hj1 hj
        rw [mask_one (by omega), mul_one]
      · intro i j hi1 hi hj1 hj
        exact hF i j _ (by omega) (by omega) (by omega)
      · intro i j hi1 hi hj1 hj
        exact hF i j _ (by omega) (by omega) (by omega)
  exact inv _ le_rfl _ _ h4

variable (c) in
/-- The right-hand side of an atmosphere without bottom. -/
noncomputable def rhsEnd (m : ℕ) (bneg bpos : Vec) (R : Option Mat) (X : Vec) (i : ℕ) : ℝ :=
  if i < c.dim - c.N then c.rhs m bneg bpos R X (fun _ => 0) i else bpos (i - (c.dim - c.N))

theorem rhs_rel (hN : 0 < c.N) (hL : 0 < c.NLayers) (ht : c.Endless tau) (hiso : c.iso = false) (hmu : c.beam = true → 0 < c.mu0) (m : ℕ)
    (bneg bpos : Vec) (R : Option Mat) (X r : Vec) : ∀ i < c.dim, c.rhsF tau m bneg bpos R X (fun k => .fin (r k)) i = .fin (c.rhsEnd m bneg bpos R X i) := by
  have hd := c.dim_pred hL
  intro i hi
  unfold rhsEnd
  by_cases hc : i < c.dim - c.N
  · rw [if_pos hc, CoefIn.rhs_indep hN hL m bneg bpos R X (fun _ => 0) r i hi]
    unfold rhsF rhs rhsBC
    have hno : ¬ (m = 0 ∧ c.iso = true) := by rw [hiso]; simp
    have h1 : ∀ i, i < c.dim - c.N → (setSliceF (setSliceF (setSliceF (fun k => Fl.fin (r k)) 0 c.N fun i => .fin (bneg i)) (c.dim - c.N) c.dim fun i => .fin (bpos i))
        c.N (c.dim - c.N) fun _ => .fin 0) i = .fin (setSlice (setSlice (setSlice r 0 c.N bneg) (c.dim - c.N) c.dim bpos) c.N (c.dim - c.N) (fun _ => 0) i) :=
      setSliceF_rel (setSliceF_rel (setSliceF_rel (fun _ _ => rfl) (fun _ _ _ _ => rfl)) (fun _ _ _ _ => rfl)) (fun _ _ _ _ => rfl)
    simp only [if_neg hno]
    by_cases hb : c.beam = true
    · rw [if_pos hb, if_pos hb]
      unfold rhsBeamF rhsBeam
      have h2 := addSliceF_rel (a := 0) (b := c.N) (w := fun i => .fin (-c.B m 0 (c.N + i))) (x := fun i => -c.B m 0 (c.N + i)) h1 (fun _ _ _ _ => rfl)
      by_cases hL1 : c.NLayers > 1
      · rw [if_pos hL1, if_pos hL1]
        have h3 := addSliceF_rel (a := c.N) (b := c.dim - c.N) (w := fun i => Fl.mul (.fin (c.B m (i / (2 * c.N) + 1) (i % (2 * c.N)) - c.B m (i / (2 * c.N) + 1 - 1) (i % (2 * c.N))))
          (c.beamF (tau (i / (2 * c.N) + 1)))) (x := fun i => (c.B m (i / (2 * c.N) + 1) (i % (2 * c.N)) - c.B m (i / (2 * c.N) + 1 - 1) (i % (2 * c.N)))
          * Real.exp (-c.tau0 (i / (2 * c.N) + 1) / c.mu0)) h2 (fun i _ h1 h2 => by
            have hq : (i - c.N) / (2 * c.N) < c.NLayers - 1 := by
              rw [Nat.div_lt_iff_lt_mul (by omega)]; omega
            beta_reduce
            unfold beamF
            rw [ht.above _ (by omega), Fl.fin_neg, Fl.fin_div (hmu hb).ne', Fl.fin_exp, Fl.fin_mul])
        rcases R with _ | R
        · exact addSliceF_rel h3 (fun i h1 h2 _ => absurd h1 (by omega)) i hc
        · exact addSliceF_rel h3 (fun i h1 h2 _ => absurd h1 (by omega)) i hc
      · rw [if_neg hL1, if_neg hL1]
        rcases R with _ | R
        · exact addSliceF_rel h2 (fun i h1 h2 _ => absurd h1 (by omega)) i hc
        · exact addSliceF_rel h2 (fun i h1 h2 _ => absurd h1 (by omega)) i hc
    · rw [if_neg hb, if_neg hb]
      exact h1 i hc
  · rw [if_neg hc]
    unfold rhsF
    have h1 : (setSliceF (setSliceF (setSliceF (fun k => Fl.fin (r k)) 0 c.N fun i => .fin (bneg i)) (c.dim - c.N) c.dim fun i => .fin (bpos i))
        c.N (c.dim - c.N) fun _ => .fin 0) i = .fin (bpos (i - (c.dim - c.N))) := by
      unfold setSliceF
      rw [if_neg (by omega), if_pos (by omega)]
    by_cases hb : c.beam = true
    · rw [if_pos hb]
      have e : c.beamF (tau c.NLayers) = .fin 0 := by
        unfold beamF; rw [ht.last]; exact Fl.exp_beam (hmu hb)
      unfold rhsBeamF
      have g1 : ¬ (0 ≤ i ∧ i < c.N) := by omega
      have g2 : ¬ (c.N ≤ i ∧ i < c.dim - c.N) := by omega
      have g3 : c.dim - c.N ≤ i ∧ i < c.dim := by omega
      have h2 : ∀ (r : ℕ → Fl) (w x : ℕ → Fl), (if c.NLayers > 1 then addSliceF (addSliceF r 0 c.N w) c.N (c.dim - c.N) x else addSliceF r 0 c.N w) i = r i := by
        intro r w x
        by_cases hL1 : c.NLayers > 1
        · rw [if_pos hL1]; unfold addSliceF; rw [if_neg g2, if_neg g1]
        · rw [if_neg hL1]; unfold addSliceF; rw [if_neg g1]
      rcases R with _ | R
      · refine (if_pos g3).trans ((congrArg₂ Fl.add ((h2 _ _ _).trans h1) (y' := .fin 0) ?_).trans ?_)
        · beta_reduce
          rw [e, Fl.fin_mul, Fl.fin_neg, mul_zero, neg_zero]
        · rw [Fl.fin_add, add_zero]
      · refine (if_pos g3).trans ((congrArg₂ Fl.add ((h2 _ _ _).trans h1) (y' := .fin 0) ?_).trans ?_)
        · beta_reduce
          rw [e, Fl.fin_mul, mul_zero]
        · rw [Fl.fin_add, add_zero]
    · rw [if_neg hb]; exact h1

end CoefIn
end Pydisort

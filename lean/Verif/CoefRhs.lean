import Verif.Model.Coeffs
import Verif.NumPyLemmas
import Mathlib.Tactic.Ring
import Mathlib.Tactic.LinearCombination

/-! Helper lemmas: entries of the right-hand side assembled by `_solve_for_coeffs`. -/

namespace Pydisort
open Finset

namespace CoefIn
variable (I : CoefIn)

/-- Particular solution of mode `m`, layer `l`. -/
noncomputable def part (m l : ℕ) (tau : ℝ) (q : ℕ) : ℝ :=
  (if m = 0 ∧ I.iso = true then I.vIso l tau q else 0)
    + if I.beam = true then I.B m l q * Real.exp (-tau / I.mu0) else 0

theorem dim_ge (hL : 0 < I.NLayers) : 2 * I.N ≤ I.dim := by
  unfold dim; exact Nat.le_mul_of_pos_left _ hL

theorem dim_pred (hL : 0 < I.NLayers) : I.dim = (I.NLayers - 1) * (2 * I.N) + 2 * I.N := by
  unfold dim
  obtain ⟨L, h⟩ : ∃ L, I.NLayers = L + 1 := ⟨I.NLayers - 1, by omega⟩
  rw [h]; simp; ring

theorem block_le {k : ℕ} (hk : k < I.NLayers - 1) : (k + 1) * (2 * I.N) + 2 * I.N ≤ I.dim := by
  rw [I.dim_pred (by omega)]
  have : (k + 1) * (2 * I.N) ≤ (I.NLayers - 1) * (2 * I.N) := Nat.mul_le_mul_right _ (by omega)
  omega

theorem rhs_top (hN : 0 < I.N) (hL : 0 < I.NLayers) (m : ℕ) (bneg bpos : Vec) (R : Option Mat) (X r : Vec) {i : ℕ}
    (hi : i < I.N) :
    I.rhs m bneg bpos R X r i = bneg i - I.part m 0 0 (I.N + i) := by
  have hd := I.dim_ge hL
  have h1 : ¬ (I.N ≤ i) := by omega
  have h2 : ¬ (I.dim - I.N ≤ i) := by omega
  have e : ∀ r, I.rhsBC bneg bpos r i = bneg i := by
    intro r; simp [rhsBC, setSlice, h1, h2, hi]
  have e2 : ∀ r, I.rhsIso R r i = r i - I.vIso 0 0 (I.N + i) := by
    intro r
    unfold rhsIso
    split_ifs <;> cases R <;> simp [addSlice, h1, h2, hi] <;> ring
  have e3 : ∀ r, I.rhsBeam m R X r i = r i - I.B m 0 (I.N + i) := by
    intro r
    unfold rhsBeam
    split_ifs <;> cases R <;> simp [addSlice, h1, h2, hi] <;> ring
  unfold rhs part
  split_ifs <;> simp [e, e2, e3] <;> ring

theorem rhs_mid (m : ℕ) (bneg bpos : Vec) (R : Option Mat) (X r : Vec) {k q : ℕ}
    (hk : k < I.NLayers - 1) (hq : q < 2 * I.N) :
    I.rhs m bneg bpos R X r (I.N + k * (2 * I.N) + q)
      = I.part m (k + 1) (I.tau0 (k + 1)) q - I.part m k (I.tau0 (k + 1)) q := by
  have hb := I.block_le hk
  rw [Nat.succ_mul] at hb
  have hdiv : (k * (2 * I.N) + q) / (2 * I.N) = k := by
    rw [mul_comm, Nat.mul_add_div (by omega), Nat.div_eq_of_lt hq, Nat.add_zero]
  have hmod : (k * (2 * I.N) + q) % (2 * I.N) = q := by
    rw [mul_comm, Nat.mul_add_mod, Nat.mod_eq_of_lt hq]
  have hsub : I.N + k * (2 * I.N) + q - I.N = k * (2 * I.N) + q := by omega
  have h1 : ¬ (I.N + k * (2 * I.N) + q < I.N) := by omega
  have h2 : ¬ (I.dim - I.N ≤ I.N + k * (2 * I.N) + q) := by omega
  have h3 : I.N + k * (2 * I.N) + q < I.dim - I.N := by omega
  have h4 : I.N ≤ I.N + k * (2 * I.N) + q := by omega
  have h5 : I.NLayers > 1 := by omega
  have e : ∀ r, I.rhsBC bneg bpos r (I.N + k * (2 * I.N) + q) = 0 := by
    intro r; simp only [rhsBC, setSlice, h3, h4, and_self, if_true]
  have e2 : ∀ r, I.rhsIso R r (I.N + k * (2 * I.N) + q) = r (I.N + k * (2 * I.N) + q)
      + (I.vIso (k + 1) (I.tau0 (k + 1)) q - I.vIso k (I.tau0 (k + 1)) q) := by
    intro r
    unfold rhsIso
    cases R <;> simp only [addSlice, h1, h2, h3, h4, h5, hsub, hdiv, hmod, if_true, if_false, and_self, and_false, false_and]
  have e3 : ∀ r, I.rhsBeam m R X r (I.N + k * (2 * I.N) + q) = r (I.N + k * (2 * I.N) + q)
      + (I.B m (k + 1) q - I.B m k q) * Real.exp (-I.tau0 (k + 1) / I.mu0) := by
    intro r
    unfold rhsBeam
    cases R <;> simp only [addSlice, h1, h2, h3, h4, h5, hsub, hdiv, hmod, if_true, if_false, and_self, and_false, false_and, Nat.add_sub_cancel]
  unfold rhs part
  split_ifs <;> simp [e, e2, e3] <;> ring

theorem rhs_bot (hN : 0 < I.N) (hL : 0 < I.NLayers) (m : ℕ) (bneg bpos : Vec) (R : Option Mat) (X r : Vec) {i : ℕ}
    (hi : i < I.N) :
    I.rhs m bneg bpos R X r (I.dim - I.N + i)
      = bpos i - I.part m (I.NLayers - 1) (I.tau0 I.NLayers) i
        + (match R with
          | some R => (∑ q ∈ range I.N, R i q * I.part m (I.NLayers - 1) (I.tau0 I.NLayers) (I.N + q))
              + if I.beam = true then X i * Real.exp (-I.tau0 I.NLayers / I.mu0) else 0
          | none => 0) := by
  have hd := I.dim_ge hL
  have h1 : ¬ (I.dim - I.N + i < I.N) := by omega
  have h2 : I.dim - I.N ≤ I.dim - I.N + i := by omega
  have h3 : I.dim - I.N + i < I.dim := by omega
  have h4 : ¬ (I.dim - I.N + i < I.dim - I.N) := by omega
  have h5 : I.dim - I.N + i - (I.dim - I.N) = i := by omega
  have e : ∀ r, I.rhsBC bneg bpos r (I.dim - I.N + i) = bpos i := by
    intro r; simp only [rhsBC, setSlice, h2, h3, h4, h5, and_self, and_false, if_true, if_false]
  have e2 : ∀ r, I.rhsIso R r (I.dim - I.N + i) = r (I.dim - I.N + i)
      - I.vIso (I.NLayers - 1) (I.tau0 I.NLayers) i
      + match R with
        | some R => ∑ q ∈ range I.N, R i q * I.vIso (I.NLayers - 1) (I.tau0 I.NLayers) (I.N + q)
        | none => 0 := by
    intro r
    unfold rhsIso
    split_ifs <;> cases R <;> simp only [addSlice, h1, h2, h3, h4, h5, and_self, and_false, if_true, if_false] <;> ring
  have e3 : ∀ r, I.rhsBeam m R X r (I.dim - I.N + i) = r (I.dim - I.N + i)
      - I.B m (I.NLayers - 1) i * Real.exp (-I.tau0 I.NLayers / I.mu0)
      + match R with
        | some R => (X i + ∑ q ∈ range I.N, R i q * I.B m (I.NLayers - 1) (I.N + q))
            * Real.exp (-I.tau0 I.NLayers / I.mu0)
        | none => 0 := by
    intro r
    unfold rhsBeam
    split_ifs <;> cases R <;> simp only [addSlice, h1, h2, h3, h4, h5, and_self, and_false, if_true, if_false] <;> ring
  unfold rhs part
  rcases R with _ | R
  · split_ifs <;> simp [e, e2, e3] <;> ring
  · split_ifs <;> simp [e, e2, e3, mul_add, add_mul, sum_add_distrib, sum_mul, mul_assoc] <;> ring

end CoefIn
end Pydisort

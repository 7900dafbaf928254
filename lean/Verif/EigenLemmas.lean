import Verif.GenLemmas
import Verif.LegendreLemmas
import Verif.NumPyLemmas
import Verif.Spec.RTE
import Mathlib.Tactic.FieldSimp

/-! Helper lemmas: the matrix of the homogeneous system, its eigenvectors, and the relation of
`Dpos`, `Dneg`, `Xpos`, `Xneg` with the specification. -/

namespace Pydisort

theorem poch_eq (m k : ℕ) :
    GenIn.poch m k = ((k.factorial : ℝ) / ((2 * m + k).factorial : ℝ)) := by
  unfold GenIn.poch scPoch
  have h1 : (((m + k : ℕ) : ℝ) + m + 1) + (-2 * m) = (k : ℝ) + 1 := by push_cast; ring
  have h2 : (((m + k : ℕ) : ℝ) + m + 1) = ((2 * m + k : ℕ) : ℝ) + 1 := by push_cast; ring
  rw [h1, h2, Real.Gamma_nat_eq_factorial, Real.Gamma_nat_eq_factorial]

theorem signs_eq (k : ℕ) : GenIn.signs k = (-1) ^ k := by
  unfold GenIn.signs
  split_ifs with h
  · rw [Odd.neg_one_pow (Nat.odd_iff.mpr h)]
  · rw [Even.neg_one_pow (Nat.even_iff.mpr (by omega))]

theorem phaseMoment_eq (NLeg : ℕ) (g : ℕ → ℝ) (m : ℕ) (x y : ℝ) :
    Spec.phaseMoment NLeg g m x y = ∑ k ∈ Finset.range (NLeg - m),
      (2 * ((m + k : ℕ) : ℝ) + 1) * g (m + k) * GenIn.poch m k
        * Spec.assocLegendre m (m + k) x * Spec.assocLegendre m (m + k) y := by
  unfold Spec.phaseMoment
  rw [Finset.sum_Ico_eq_sum_range]
  refine Finset.sum_congr rfl fun k _ => ?_
  rw [poch_eq, Nat.add_sub_cancel_left, show m + k + m = 2 * m + k by ring]

theorem phaseMoment_neg_neg (NLeg : ℕ) (g : ℕ → ℝ) (m : ℕ) (x y : ℝ) :
    Spec.phaseMoment NLeg g m (-x) (-y) = Spec.phaseMoment NLeg g m x y := by
  rw [phaseMoment_eq, phaseMoment_eq]
  refine Finset.sum_congr rfl fun k _ => ?_
  rw [Spec.assocLegendre_neg, Spec.assocLegendre_neg]
  have : ((-1 : ℝ)) ^ k * (-1) ^ k = 1 := by rw [← mul_pow]; simp
  linear_combination ((2 * ((m + k : ℕ) : ℝ) + 1) * g (m + k) * GenIn.poch m k
        * Spec.assocLegendre m (m + k) x * Spec.assocLegendre m (m + k) y) * this

theorem phaseMoment_neg_left (NLeg : ℕ) (g : ℕ → ℝ) (m : ℕ) (x y : ℝ) :
    Spec.phaseMoment NLeg g m (-x) y = Spec.phaseMoment NLeg g m x (-y) := by
  rw [← phaseMoment_neg_neg, neg_neg]

theorem phaseMoment_symm (NLeg : ℕ) (g : ℕ → ℝ) (m : ℕ) (x y : ℝ) :
    Spec.phaseMoment NLeg g m x y = Spec.phaseMoment NLeg g m y x := by
  unfold Spec.phaseMoment
  exact Finset.sum_congr rfl fun k _ => by ring

namespace GenIn
variable (I : GenIn)

/-- The `2N × 2N` matrix of the homogeneous system `u' = A u`. -/
noncomputable def coefA (m l : ℕ) : Mat := fun i j =>
  if i < I.N then (if j < I.N then -I.alpha m l i j else -I.beta m l i (j - I.N))
  else (if j < I.N then I.beta m l (i - I.N) j else I.alpha m l (i - I.N) (j - I.N))

/-- The weights are `2ℓ+1` times the Legendre coefficients `g l ℓ` below `NLeg`. -/
def WLegOK (g : Mat) : Prop := ∀ l < I.NLayers, ∀ k < I.NLeg, I.wLeg l k = (2 * (k : ℝ) + 1) * g l k

variable {I}

theorem Dpos_eq {g : Mat} (h : I.WLegOK g) {l : ℕ} (hl : l < I.NLayers) (m i j : ℕ) :
    I.Dpos m l i j = Spec.scatD (I.omega l) I.NLeg (g l) m (I.mu i) (I.mu j) := by
  unfold Dpos Spec.scatD
  rw [phaseMoment_eq, Finset.mul_sum]
  refine Finset.sum_congr rfl fun k hk => ?_
  rw [Finset.mem_range] at hk
  unfold Dtemp omLeg alpP
  rw [h l hl (m + k) (by omega)]; push_cast; ring

theorem Dneg_eq {g : Mat} (h : I.WLegOK g) {l : ℕ} (hl : l < I.NLayers) (m i j : ℕ) :
    I.Dneg m l i j = Spec.scatD (I.omega l) I.NLeg (g l) m (I.mu i) (-I.mu j) := by
  unfold Dneg Spec.scatD
  rw [phaseMoment_eq, Finset.mul_sum]
  refine Finset.sum_congr rfl fun k hk => ?_
  rw [Finset.mem_range] at hk
  unfold Dtemp omLeg alpN alpP
  rw [h l hl (m + k) (by omega), signs_eq, Spec.assocLegendre_neg]; push_cast; ring

theorem Xpos_eq {g : Mat} (h : I.WLegOK g) {l : ℕ} (hl : l < I.NLayers) {I0 : ℝ}
    (h0 : I.I0div4pi = I0 / (4 * Real.pi)) (m i : ℕ) :
    I.Xpos m l i = Spec.beamX (I.omega l) I.NLeg (g l) I0 I.mu0 m (I.mu i) := by
  unfold Xpos Spec.beamX
  rw [phaseMoment_eq, Finset.mul_sum]
  refine Finset.sum_congr rfl fun k hk => ?_
  rw [Finset.mem_range] at hk
  unfold Xtemp scalarFac alpP
  rw [h l hl (m + k) (by omega), h0]; push_cast; ring

theorem Xneg_eq {g : Mat} (h : I.WLegOK g) {l : ℕ} (hl : l < I.NLayers) {I0 : ℝ}
    (h0 : I.I0div4pi = I0 / (4 * Real.pi)) (m i : ℕ) :
    I.Xneg m l i = Spec.beamX (I.omega l) I.NLeg (g l) I0 I.mu0 m (-I.mu i) := by
  unfold Xneg Spec.beamX
  rw [phaseMoment_eq, Finset.mul_sum]
  refine Finset.sum_congr rfl fun k hk => ?_
  rw [Finset.mem_range] at hk
  unfold Xtemp scalarFac alpN alpP
  rw [h l hl (m + k) (by omega), h0, signs_eq, Spec.assocLegendre_neg m k (I.mu i)]; push_cast; ring

theorem mulVec_coefA_up (m l : ℕ) (u : Vec) {i : ℕ} (hi : i < I.N) :
    mulVec (2 * I.N) (I.coefA m l) u i
      = -(∑ j ∈ Finset.range I.N, I.alpha m l i j * u j)
        - ∑ j ∈ Finset.range I.N, I.beta m l i j * u (I.N + j) := by
  unfold mulVec coefA
  rw [sum_range_two_mul, ← Finset.sum_neg_distrib, ← Finset.sum_add_distrib,
    ← Finset.sum_sub_distrib]
  refine Finset.sum_congr rfl fun j hj => ?_
  rw [Finset.mem_range] at hj
  simp [hi, hj]; ring

theorem mulVec_coefA_down (m l : ℕ) (u : Vec) (i : ℕ) :
    mulVec (2 * I.N) (I.coefA m l) u (I.N + i)
      = (∑ j ∈ Finset.range I.N, I.beta m l i j * u j)
        + ∑ j ∈ Finset.range I.N, I.alpha m l i j * u (I.N + j) := by
  unfold mulVec coefA
  rw [sum_range_two_mul, ← Finset.sum_add_distrib, ← Finset.sum_add_distrib]
  refine Finset.sum_congr rfl fun j hj => ?_
  rw [Finset.mem_range] at hj
  simp [hj]

/-- The quadrature data handed over is consistent. -/
def QuadOK (I : GenIn) : Prop := ∀ i < I.N, I.mu i ≠ 0 ∧ I.M_inv i = 1 / I.mu i

open Finset in
/-- `coefA` is the matrix of the discretised equation. -/
theorem coefA_spec {g : Mat} (hW : I.WLegOK g) (hq : I.QuadOK) {l : ℕ} (hl : l < I.NLayers) (m : ℕ)
    (u : Vec) {i : ℕ} (hi : i < 2 * I.N) :
    Spec.stream I.N I.mu i * mulVec (2 * I.N) (I.coefA m l) u i
      = u i - ∑ j ∈ range (2 * I.N), Spec.streamW I.N I.W j *
          Spec.scatD (I.omega l) I.NLeg (g l) m (Spec.stream I.N I.mu i) (Spec.stream I.N I.mu j) * u j := by
  by_cases hN : i < I.N
  · obtain ⟨h0, h1⟩ := hq i hN
    rw [mulVec_coefA_up m l u hN, sum_range_two_mul]
    have hst : Spec.stream I.N I.mu i = I.mu i := by simp [Spec.stream, hN]
    rw [hst]
    have ha : ∑ j ∈ range I.N, I.alpha m l i j * u j
        = (∑ j ∈ range I.N, I.W j * I.Dpos m l i j * u j - u i) / I.mu i := by
      have : u i = ∑ j ∈ range I.N, (if i = j then 1 else 0) * u j := by
        simp [hN]
      rw [this, ← sum_sub_distrib, sum_div]
      refine sum_congr rfl fun j _ => ?_
      unfold alpha; rw [h1]; ring
    have hb : ∑ j ∈ range I.N, I.beta m l i j * u (I.N + j)
        = (∑ j ∈ range I.N, I.W j * I.Dneg m l i j * u (I.N + j)) / I.mu i := by
      rw [sum_div]
      refine sum_congr rfl fun j _ => ?_
      unfold beta; rw [h1]; ring
    rw [ha, hb]
    have e1 : ∑ x ∈ range I.N, Spec.streamW I.N I.W x *
        Spec.scatD (I.omega l) I.NLeg (g l) m (I.mu i) (Spec.stream I.N I.mu x) * u x
        = ∑ j ∈ range I.N, I.W j * I.Dpos m l i j * u j := by
      refine sum_congr rfl fun j hj => ?_
      rw [mem_range] at hj
      simp [Spec.streamW, Spec.stream, hj, Dpos_eq hW hl]
    have e2 : ∑ x ∈ range I.N, Spec.streamW I.N I.W (I.N + x) *
        Spec.scatD (I.omega l) I.NLeg (g l) m (I.mu i) (Spec.stream I.N I.mu (I.N + x)) * u (I.N + x)
        = ∑ j ∈ range I.N, I.W j * I.Dneg m l i j * u (I.N + j) := by
      refine sum_congr rfl fun j hj => ?_
      simp [Spec.streamW, Spec.stream, Dneg_eq hW hl]
    rw [e1, e2]; field_simp; ring
  · obtain ⟨i, rfl⟩ : ∃ k, i = I.N + k := ⟨i - I.N, by omega⟩
    have hi' : i < I.N := by omega
    obtain ⟨h0, h1⟩ := hq i hi'
    rw [mulVec_coefA_down m l u, sum_range_two_mul]
    have hst : Spec.stream I.N I.mu (I.N + i) = -I.mu i := by simp [Spec.stream]
    rw [hst]
    have ha : ∑ j ∈ range I.N, I.alpha m l i j * u (I.N + j)
        = (∑ j ∈ range I.N, I.W j * I.Dpos m l i j * u (I.N + j) - u (I.N + i)) / I.mu i := by
      have : u (I.N + i) = ∑ j ∈ range I.N, (if i = j then 1 else 0) * u (I.N + j) := by
        simp [hi']
      rw [this, ← sum_sub_distrib, sum_div]
      refine sum_congr rfl fun j _ => ?_
      unfold alpha; rw [h1]; ring
    have hb : ∑ j ∈ range I.N, I.beta m l i j * u j
        = (∑ j ∈ range I.N, I.W j * I.Dneg m l i j * u j) / I.mu i := by
      rw [sum_div]
      refine sum_congr rfl fun j _ => ?_
      unfold beta; rw [h1]; ring
    rw [ha, hb]
    have e1 : ∑ x ∈ range I.N, Spec.streamW I.N I.W x *
        Spec.scatD (I.omega l) I.NLeg (g l) m (-I.mu i) (Spec.stream I.N I.mu x) * u x
        = ∑ j ∈ range I.N, I.W j * I.Dneg m l i j * u j := by
      refine sum_congr rfl fun j hj => ?_
      rw [mem_range] at hj
      simp only [Spec.streamW, Spec.stream, hj, if_true, Dneg_eq hW hl]
      unfold Spec.scatD; rw [phaseMoment_neg_left]
    have e2 : ∑ x ∈ range I.N, Spec.streamW I.N I.W (I.N + x) *
        Spec.scatD (I.omega l) I.NLeg (g l) m (-I.mu i) (Spec.stream I.N I.mu (I.N + x)) * u (I.N + x)
        = ∑ j ∈ range I.N, I.W j * I.Dpos m l i j * u (I.N + j) := by
      refine sum_congr rfl fun j hj => ?_
      simp [Spec.streamW, Spec.stream, Dpos_eq hW hl]
      unfold Spec.scatD; rw [phaseMoment_neg_neg]; simp
    rw [e1, e2]; field_simp; ring

end GenIn

/-- Contract of `np.linalg.eig` on the matrix `(α-β)(α+β)` of one slot: the returned columns are
eigenvectors for the returned eigenvalues, which are real and positive. -/
def GenIn.EigOK (I : GenIn) (E : Ext) (m l : ℕ) : Prop :=
  (∀ i < I.N, ∀ j < I.N, ∑ k ∈ Finset.range I.N, matMul I.N (I.amb m l) (I.apb m l) i k * (I.ev E m l).2 k j
      = (I.ev E m l).1 j * (I.ev E m l).2 i j) ∧
  (∀ j < I.N, 0 < (I.ev E m l).1 j)

section eigen
variable {I : GenIn} {E : Ext} {m l : ℕ}
open Finset

theorem gmg_apb (h : I.EigOK E m l) {j : ℕ} (hj : j < I.N) (i : ℕ) :
    ∑ q ∈ range I.N, I.apb m l i q * gpg (I.ev E m l).2 q j
      = Real.sqrt ((I.ev E m l).1 j) * gmg I.N (I.apb m l) (I.ev E m l).1 (I.ev E m l).2 i j := by
  have hs : Real.sqrt ((I.ev E m l).1 j) ≠ 0 := (Real.sqrt_pos.mpr (h.2 j hj)).ne'
  unfold gmg matMul
  rw [mul_sum]
  refine sum_congr rfl fun q _ => ?_
  field_simp

theorem gmg_amb (h : I.EigOK E m l) {i j : ℕ} (hi : i < I.N) (hj : j < I.N) :
    ∑ q ∈ range I.N, I.amb m l i q * gmg I.N (I.apb m l) (I.ev E m l).1 (I.ev E m l).2 q j
      = Real.sqrt ((I.ev E m l).1 j) * gpg (I.ev E m l).2 i j := by
  have hp := h.2 j hj
  have hs : Real.sqrt ((I.ev E m l).1 j) ≠ 0 := (Real.sqrt_pos.mpr hp).ne'
  have e1 : ∑ q ∈ range I.N, I.amb m l i q * gmg I.N (I.apb m l) (I.ev E m l).1 (I.ev E m l).2 q j
      = (∑ k ∈ range I.N, matMul I.N (I.amb m l) (I.apb m l) i k * (I.ev E m l).2 k j)
        / (2 * Real.sqrt ((I.ev E m l).1 j)) := by
    unfold gmg matMul gpg
    rw [sum_div]
    simp_rw [mul_sum, sum_mul, sum_div]
    rw [sum_comm]
    refine sum_congr rfl fun a _ => sum_congr rfl fun b _ => ?_
    field_simp
  rw [e1, h.1 i hi j hj]
  unfold gpg
  have := Real.mul_self_sqrt hp.le
  field_simp
  rw [pow_two, this]; ring

/-- `A G = G K` for a slot with scattering. -/
theorem scat_eigen (h : I.EigOK E m l) {i j : ℕ} (hi : i < 2 * I.N) (hj : j < 2 * I.N) :
    mulVec (2 * I.N) (I.coefA m l) (fun q => I.gScat E m l q j) i
      = eigK I.N (I.ev E m l).1 j * I.gScat E m l i j := by
  set P := gpg (I.ev E m l).2 with hP
  set M := gmg I.N (I.apb m l) (I.ev E m l).1 (I.ev E m l).2 with hM
  have hG : ∀ i j, i < 2 * I.N → j < 2 * I.N → I.gScat E m l i j
      = if i < I.N then (if j < I.N then P i j + M i j else P i (j - I.N) - M i (j - I.N))
      else (if j < I.N then P (i - I.N) j - M (i - I.N) j
        else P (i - I.N) (j - I.N) + M (i - I.N) (j - I.N)) := by
    intro i j hi hj; unfold GenIn.gScat; rw [gBlocks_apply _ _ _ _ hi hj]
  -- both halves in terms of sums over `apb`, `amb`
  have key : ∀ (x y : Vec) (a : ℕ),
      (∑ q ∈ range I.N, I.alpha m l a q * (x q + y q)) + ∑ q ∈ range I.N, I.beta m l a q * (x q - y q)
        = (∑ q ∈ range I.N, I.apb m l a q * x q) + ∑ q ∈ range I.N, I.amb m l a q * y q := by
    intro x y a
    rw [← sum_add_distrib, ← sum_add_distrib]
    refine sum_congr rfl fun q _ => ?_
    unfold GenIn.apb GenIn.amb; ring
  have key2 : ∀ (x y : Vec) (a : ℕ),
      (∑ q ∈ range I.N, I.beta m l a q * (x q + y q)) + ∑ q ∈ range I.N, I.alpha m l a q * (x q - y q)
        = (∑ q ∈ range I.N, I.apb m l a q * x q) - ∑ q ∈ range I.N, I.amb m l a q * y q := by
    intro x y a
    rw [← sum_add_distrib, ← sum_sub_distrib]
    refine sum_congr rfl fun q _ => ?_
    unfold GenIn.apb GenIn.amb; ring
  obtain ⟨j', hj', hcase⟩ : ∃ j' < I.N, j = j' ∨ j = I.N + j' := by
    by_cases h1 : j < I.N
    · exact ⟨j, h1, Or.inl rfl⟩
    · exact ⟨j - I.N, by omega, Or.inr (by omega)⟩
  set kk := Real.sqrt ((I.ev E m l).1 j') with hk
  have hap := fun a => gmg_apb h hj' a
  have ham := fun a (ha : a < I.N) => gmg_amb h ha hj'
  rw [← hP, ← hM] at *
  simp only [← hP, ← hM, ← hk] at hap ham
  by_cases hiN : i < I.N
  · rw [GenIn.mulVec_coefA_up _ _ _ hiN]
    rcases hcase with rfl | rfl
    · have e1 : ∑ q ∈ range I.N, I.alpha m l i q * I.gScat E m l q j
          = ∑ q ∈ range I.N, I.alpha m l i q * (P q j + M q j) := by
        refine sum_congr rfl fun q hq => ?_
        rw [mem_range] at hq; rw [hG q j (by omega) hj]; simp [hq, hj']
      have e2 : ∑ q ∈ range I.N, I.beta m l i q * I.gScat E m l (I.N + q) j
          = ∑ q ∈ range I.N, I.beta m l i q * (P q j - M q j) := by
        refine sum_congr rfl fun q hq => ?_
        rw [mem_range] at hq; rw [hG (I.N + q) j (by omega) hj]; simp [hj']
      have := key (fun q => P q j) (fun q => M q j) i
      rw [hap i, ham i hiN] at this
      rw [e1, e2, hG i j hi hj]
      simp only [hiN, hj', if_true, eigK]
      linear_combination -this
    · have e1 : ∑ q ∈ range I.N, I.alpha m l i q * I.gScat E m l q (I.N + j')
          = ∑ q ∈ range I.N, I.alpha m l i q * (P q j' - M q j') := by
        refine sum_congr rfl fun q hq => ?_
        rw [mem_range] at hq; rw [hG q _ (by omega) hj]; simp [hq]
      have e2 : ∑ q ∈ range I.N, I.beta m l i q * I.gScat E m l (I.N + q) (I.N + j')
          = ∑ q ∈ range I.N, I.beta m l i q * (P q j' + M q j') := by
        refine sum_congr rfl fun q hq => ?_
        rw [mem_range] at hq; rw [hG (I.N + q) _ (by omega) hj]; simp
      have := key2 (fun q => P q j') (fun q => M q j') i
      rw [hap i, ham i hiN] at this
      rw [e1, e2, hG i _ hi hj]
      have hn : ¬ (I.N + j' < I.N) := by omega
      simp only [hiN, hn, if_true, if_false, eigK, Nat.add_sub_cancel_left]
      linear_combination -this
  · obtain ⟨i, rfl⟩ : ∃ k, i = I.N + k := ⟨i - I.N, by omega⟩
    have hi' : i < I.N := by omega
    rw [GenIn.mulVec_coefA_down]
    rcases hcase with rfl | rfl
    · have e1 : ∑ q ∈ range I.N, I.beta m l i q * I.gScat E m l q j
          = ∑ q ∈ range I.N, I.beta m l i q * (P q j + M q j) := by
        refine sum_congr rfl fun q hq => ?_
        rw [mem_range] at hq; rw [hG q j (by omega) hj]; simp [hq, hj']
      have e2 : ∑ q ∈ range I.N, I.alpha m l i q * I.gScat E m l (I.N + q) j
          = ∑ q ∈ range I.N, I.alpha m l i q * (P q j - M q j) := by
        refine sum_congr rfl fun q hq => ?_
        rw [mem_range] at hq; rw [hG (I.N + q) j (by omega) hj]; simp [hj']
      have := key2 (fun q => P q j) (fun q => M q j) i
      rw [hap i, ham i hi'] at this
      rw [e1, e2, hG _ j hi hj]
      simp only [hiN, hj', if_true, if_false, eigK, Nat.add_sub_cancel_left]
      linear_combination this
    · have e1 : ∑ q ∈ range I.N, I.beta m l i q * I.gScat E m l q (I.N + j')
          = ∑ q ∈ range I.N, I.beta m l i q * (P q j' - M q j') := by
        refine sum_congr rfl fun q hq => ?_
        rw [mem_range] at hq; rw [hG q _ (by omega) hj]; simp [hq]
      have e2 : ∑ q ∈ range I.N, I.alpha m l i q * I.gScat E m l (I.N + q) (I.N + j')
          = ∑ q ∈ range I.N, I.alpha m l i q * (P q j' + M q j') := by
        refine sum_congr rfl fun q hq => ?_
        rw [mem_range] at hq; rw [hG (I.N + q) _ (by omega) hj]; simp
      have := key (fun q => P q j') (fun q => M q j') i
      rw [hap i, ham i hi'] at this
      rw [e1, e2, hG _ _ hi hj]
      have hn : ¬ (I.N + j' < I.N) := by omega
      simp only [hiN, hn, if_false, eigK, Nat.add_sub_cancel_left]
      linear_combination this

end eigen

/-- Matrix of the system without multiple scattering. -/
noncomputable def diagA (N : ℕ) (M_inv : Vec) : Mat := fun i j =>
  if i = j then (if i < N then M_inv i else -M_inv (i - N)) else 0

theorem mulVec_diagA {N : ℕ} (M_inv u : Vec) {i : ℕ} (hi : i < 2 * N) :
    mulVec (2 * N) (diagA N M_inv) u i = (if i < N then M_inv i else -M_inv (i - N)) * u i := by
  unfold mulVec diagA
  rw [Finset.sum_eq_single i]
  · simp
  · intro b _ hb; simp [Ne.symm hb]
  · intro h; simp at h; omega

/-- `A G = G K` for a slot without scattering. -/
theorem triv_eigen {N : ℕ} (M_inv : Vec) {i j : ℕ} (hi : i < 2 * N) (hj : j < 2 * N) :
    mulVec (2 * N) (diagA N M_inv) (fun q => gTrivial N q j) i
      = kTrivial N M_inv j * gTrivial N i j := by
  rw [mulVec_diagA _ _ hi]
  simp only [gTrivial_apply hi hj, kTrivial]
  by_cases h1 : i + N = j
  · subst h1
    have h2 : i < N := by omega
    simp [h2]
  · by_cases h2 : j + N = i
    · subst h2
      have h3 : j < N := by omega
      simp [h3]
    · simp [h1, h2]

theorem gTrivial_sq {N i j : ℕ} (hi : i < 2 * N) (hj : j < 2 * N) :
    ∑ q ∈ Finset.range (2 * N), gTrivial N i q * gTrivial N q j = if i = j then 1 else 0 := by
  by_cases h1 : i < N
  · rw [Finset.sum_eq_single (i + N)]
    · rw [gTrivial_apply hi (by omega), gTrivial_apply (by omega) hj]
      by_cases h : i = j
      · subst h; simp
      · have : ¬ (i + N + N = j ∨ j + N = i + N) := by omega
        simp only [h, this, if_false, mul_zero]
    · intro b hb hne
      rw [Finset.mem_range] at hb
      rw [gTrivial_apply hi hb]
      have : ¬ (i + N = b ∨ b + N = i) := by omega
      simp [this]
    · intro h; simp at h; omega
  · rw [Finset.sum_eq_single (i - N)]
    · rw [gTrivial_apply hi (by omega), gTrivial_apply (by omega) hj]
      by_cases h : i = j
      · subst h
        have : i + N = i - N ∨ i - N + N = i := by omega
        have h2 : i - N + N = i ∨ i + N = i - N := by omega
        simp [this, h2]
      · have : ¬ (i - N + N = j ∨ j + N = i - N) := by omega
        simp [h, this]
    · intro b hb hne
      rw [Finset.mem_range] at hb
      rw [gTrivial_apply hi hb]
      have : ¬ (i + N = b ∨ b + N = i) := by omega
      simp [this]
    · intro h; simp at h; omega

end Pydisort

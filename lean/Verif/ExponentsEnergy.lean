import Verif.Energy
import Verif.EigInv

/-! A layer never returns more energy than it receives, whatever damping factors replace the exponentials. -/

namespace Pydisort
open Finset

/-- The signed flux form. -/
noncomputable def fluxForm (n : ℕ) (s x y : Vec) : ℝ := ∑ i ∈ range (2 * n), sgn n s i * x i * y i

theorem fluxForm_sum_left (n : ℕ) (s : Vec) (k : ℕ) (c : Vec) (g : Mat) (y : Vec) :
    fluxForm n s (fun i => ∑ j ∈ range k, c j * g i j) y = ∑ j ∈ range k, c j * fluxForm n s (fun i => g i j) y := by
  unfold fluxForm
  simp only [mul_sum, sum_mul]
  rw [sum_comm]
  exact sum_congr rfl fun j _ => sum_congr rfl fun i _ => by ring

theorem fluxForm_comm (n : ℕ) (s x y : Vec) : fluxForm n s x y = fluxForm n s y x :=
  sum_congr rfl fun i _ => by ring

theorem fluxForm_sums (n : ℕ) (s : Vec) (k : ℕ) (c d : Vec) (g h : Mat) :
    fluxForm n s (fun i => ∑ j ∈ range k, c j * g i j) (fun i => ∑ j ∈ range k, d j * h i j)
      = ∑ j ∈ range k, ∑ q ∈ range k, c j * d q * fluxForm n s (fun i => g i j) (fun i => h i q) := by
  rw [fluxForm_sum_left]
  refine sum_congr rfl fun j _ => ?_
  rw [fluxForm_comm, fluxForm_sum_left, mul_sum]
  refine sum_congr rfl fun q _ => ?_
  rw [fluxForm_comm]; ring

/-- The operator is symmetric with respect to the flux form. -/
def FluxSymm (n : ℕ) (s : Vec) (A : Mat) : Prop :=
  ∀ x y : Vec, fluxForm n s x (mulVec (2 * n) A y) = fluxForm n s (mulVec (2 * n) A x) y

theorem fluxForm_congr {n : ℕ} {s x x' y y' : Vec} (hx : ∀ i < 2 * n, x i = x' i) (hy : ∀ i < 2 * n, y i = y' i) :
    fluxForm n s x y = fluxForm n s x' y' :=
  sum_congr rfl fun i hi => by rw [hx i (mem_range.mp hi), hy i (mem_range.mp hi)]

/-- Eigenvectors of different eigenvalues are orthogonal. -/
theorem flux_orthogonal {n : ℕ} {s : Vec} {A G : Mat} {K : Vec} (hsym : FluxSymm n s A)
    (hA : ∀ i < 2 * n, ∀ j < 2 * n, mulVec (2 * n) A (fun q => G q j) i = K j * G i j)
    {j k : ℕ} (hj : j < 2 * n) (hk : k < 2 * n) (h : K j ≠ K k) :
    fluxForm n s (fun i => G i j) (fun i => G i k) = 0 := by
  have h1 := hsym (fun i => G i j) (fun i => G i k)
  rw [fluxForm_congr (x' := fun i => G i j) (y' := fun i => K k * G i k) (fun _ _ => rfl) (fun i hi => hA i hi k hk),
    fluxForm_congr (x' := fun i => K j * G i j) (y' := fun i => G i k) (fun i hi => hA i hi j hj) (fun _ _ => rfl)] at h1
  have e1 : fluxForm n s (fun i => G i j) (fun i => K k * G i k) = K k * fluxForm n s (fun i => G i j) (fun i => G i k) := by
    unfold fluxForm; rw [mul_sum]; exact sum_congr rfl fun i _ => by ring
  have e2 : fluxForm n s (fun i => K j * G i j) (fun i => G i k) = K j * fluxForm n s (fun i => G i j) (fun i => G i k) := by
    unfold fluxForm; rw [mul_sum]; exact sum_congr rfl fun i _ => by ring
  rw [e1, e2] at h1
  have h2 : (K j - K k) * fluxForm n s (fun i => G i j) (fun i => G i k) = 0 := by rw [sub_mul]; linarith
  exact (mul_eq_zero.mp h2).resolve_left (sub_ne_zero.2 h)

/-- From one end of a layer to the other the flux form grows, if the factors `t`, `b` of the eigenvectors at the two ends depend on the eigenvalue only and
damp in the right direction; it stays the same only if every eigenvector with different factors is absent. -/
theorem layer_energy {n : ℕ} {s : Vec} {A G : Mat} {K t b : Vec} (hsym : FluxSymm n s A)
    (hform : ∀ x : Vec, (∃ i < 2 * n, x i ≠ 0) → 0 < fluxForm n s x (mulVec (2 * n) A x))
    (hA : ∀ i < 2 * n, ∀ j < 2 * n, mulVec (2 * n) A (fun q => G q j) i = K j * G i j)
    (hG : (toM (2 * n) G).det ≠ 0)
    (hK : ∀ j < 2 * n, K j ≠ 0) (hdamp : ∀ j < 2 * n, 0 ≤ (b j ^ 2 - t j ^ 2) / K j)
    (hsame : ∀ j < 2 * n, ∀ k < 2 * n, K j = K k → t j = t k ∧ b j = b k) (C : Vec) :
    let top : Vec := fun i => ∑ j ∈ range (2 * n), (t j * C j) * G i j
    let bot : Vec := fun i => ∑ j ∈ range (2 * n), (b j * C j) * G i j
    fluxForm n s top top ≤ fluxForm n s bot bot ∧
      (fluxForm n s top top = fluxForm n s bot bot → ∀ j < 2 * n, (b j ^ 2 - t j ^ 2) * C j = 0) := by
  intro top bot
  set p : Vec := fun j => Real.sqrt ((b j ^ 2 - t j ^ 2) / K j) with hp
  set w : Vec := fun i => ∑ j ∈ range (2 * n), (p j * C j) * G i j with hw
  have hp2 : ∀ j < 2 * n, p j * p j * K j = b j ^ 2 - t j ^ 2 := by
    intro j hj
    rw [hp]
    simp only
    rw [Real.mul_self_sqrt (hdamp j hj), div_mul_cancel₀ _ (hK j hj)]
  have hAw : ∀ i < 2 * n, mulVec (2 * n) A w i = ∑ j ∈ range (2 * n), (p j * C j) * (K j * G i j) := by
    intro i hi
    unfold mulVec
    simp only [hw, mul_sum]
    rw [sum_comm]
    refine sum_congr rfl fun j hj => ?_
    rw [← hA i hi j (mem_range.mp hj)]
    unfold mulVec
    rw [mul_sum]
    exact sum_congr rfl fun q _ => by ring
  have key : fluxForm n s bot bot - fluxForm n s top top = fluxForm n s w (mulVec (2 * n) A w) := by
    rw [fluxForm_congr (x' := w) (fun _ _ => rfl) hAw]
    simp only [bot, top, hw]
    rw [fluxForm_sums, fluxForm_sums, fluxForm_sums n s (2 * n) (fun j => p j * C j) (fun j => p j * C j) G (fun i j => K j * G i j),
      ← sum_sub_distrib]
    refine sum_congr rfl fun j hj => ?_
    rw [← sum_sub_distrib]
    refine sum_congr rfl fun k hk => ?_
    rw [mem_range] at hj hk
    have e2 : fluxForm n s (fun i => G i j) (fun i => K k * G i k) = K k * fluxForm n s (fun i => G i j) (fun i => G i k) := by
      unfold fluxForm; rw [mul_sum]; exact sum_congr rfl fun i _ => by ring
    rw [e2]
    by_cases hjk : K j = K k
    · obtain ⟨h1, h2⟩ := hsame j hj k hk hjk
      have h3 : p j = p k := by rw [hp]; simp only; rw [h1, h2, hjk]
      have h4 := hp2 k hk
      rw [h1, h2, h3]
      linear_combination (-(C j * C k * fluxForm n s (fun i => G i j) (fun i => G i k))) * h4
    · rw [flux_orthogonal hsym hA hj hk hjk]; ring
  by_cases hx : ∃ i < 2 * n, w i ≠ 0
  · have := hform w hx
    exact ⟨by linarith, fun h => by linarith⟩
  · push Not at hx
    have h0 : fluxForm n s w (mulVec (2 * n) A w) = 0 :=
      sum_eq_zero fun i hi => by rw [hx i (mem_range.mp hi)]; ring
    refine ⟨by linarith, fun _ j hj => ?_⟩
    have h1 := inj_of_det hG (x := fun j => p j * C j) (fun i hi => by
      rw [← hx i hi]
      unfold mulVec
      exact sum_congr rfl fun j _ => by ring) j hj
    rw [← hp2 j hj]
    linear_combination (p j * K j) * h1

theorem fluxForm_split (n : ℕ) (s x : Vec) :
    fluxForm n s x x = ∑ i ∈ range n, s i * x i ^ 2 - ∑ i ∈ range n, s i * x (n + i) ^ 2 := by
  unfold fluxForm
  rw [sum_range_two_mul, sub_eq_add_neg, ← sum_neg_distrib]
  congr 1
  · refine sum_congr rfl fun i hi => ?_
    rw [mem_range] at hi
    simp [sgn, hi]; ring
  · refine sum_congr rfl fun i _ => ?_
    simp [sgn]; ring

end Pydisort

import Verif.NumPy

/-! Helper lemmas about the NumPy substrate. -/

namespace Pydisort

theorem bdim_self (a : ℕ) : bdim a a = .ok a := by simp [bdim]
theorem bdim_one_left (a : ℕ) : bdim 1 a = .ok a := by
  unfold bdim; split_ifs with h <;> simp_all
theorem bdim_one_right (a : ℕ) : bdim a 1 = .ok a := by
  unfold bdim; split_ifs with h <;> simp_all
theorem bdim_eq_ok {a b c : ℕ} : bdim a b = .ok c ↔ (a = b ∧ c = a) ∨ (a = 1 ∧ c = b) ∨ (b = 1 ∧ c = a) := by
  unfold bdim; split_ifs with h h1 h2 <;> simp_all <;> grind
theorem bdim_error {a b : ℕ} (h : a ≠ b) (h1 : a ≠ 1) (h2 : b ≠ 1) :
    bdim a b = .error .shapeError := by simp [bdim, h, h1, h2]
theorem bix_of_lt {n i : ℕ} (h : i < n) : bix n i = i := by unfold bix; split_ifs <;> omega
@[simp] theorem bix_one (i : ℕ) : bix 1 i = 0 := by simp [bix]

theorem forRange_zero {σ : Type*} (f : ℕ → σ → σ) (s : σ) : forRange 0 f s = s := rfl
theorem forRange_succ {σ : Type*} (n : ℕ) (f : ℕ → σ → σ) (s : σ) :
    forRange (n + 1) f s = f n (forRange n f s) := rfl

/-- Invariant rule for `for` loops. -/
theorem forRange_inv {σ : Type*} (P : ℕ → σ → Prop) {n : ℕ} {f : ℕ → σ → σ} {s : σ}
    (h0 : P 0 s) (hs : ∀ i < n, ∀ s, P i s → P (i + 1) (f i s)) : P n (forRange n f s) := by
  induction n with
  | zero => exact h0
  | succ n ih =>
    exact hs n (Nat.lt_succ_self n) _ (ih (fun i hi => hs i (Nat.lt_succ_of_lt hi)))

theorem scatter_not_mem {α : Type*} (is : List ℕ) (v : ℕ → α) (g : ℕ → α) (i : ℕ) (h : i ∉ is) :
    scatter is v g i = g i := by
  induction is generalizing v g with
  | nil => rfl
  | cons a is ih =>
    simp only [List.mem_cons, not_or] at h
    rw [scatter, ih _ _ h.2, Function.update_of_ne h.1]

theorem scatter_getElem {α : Type*} (is : List ℕ) (hn : is.Nodup) (v : ℕ → α) (g : ℕ → α) (k : ℕ)
    (h : k < is.length) : scatter is v g is[k] = v k := by
  induction is generalizing v g k with
  | nil => simp at h
  | cons a is ih =>
    rw [List.nodup_cons] at hn
    cases k with
    | zero => simp [scatter, scatter_not_mem _ _ _ _ hn.1]
    | succ k => simp [scatter, ih hn.2]

theorem getD_lt (l : List ℕ) (k : ℕ) (h : k < l.length) : l.getD k 0 = l[k] := by
  simp [List.getD, h]

theorem toM_mulVec (n : ℕ) (A : Mat) (x : Fin n → ℝ) (i : Fin n) :
    (toM n A).mulVec x i = ∑ j ∈ Finset.range n, A i j * ofV n x j := by
  rw [← Fin.sum_univ_eq_sum_range (fun j => A i j * ofV n x j) n]
  simp [Matrix.mulVec, dotProduct, toM, ofV]

theorem mulVec_eq (n : ℕ) (A : Mat) (x : Vec) (i : Fin n) :
    mulVec n A x i = (toM n A).mulVec (toV n x) i := by
  simp only [mulVec, Matrix.mulVec, dotProduct, toM, toV]
  rw [Finset.sum_range]

theorem ofV_toV {n : ℕ} (x : Vec) {i : ℕ} (h : i < n) : ofV n (toV n x) i = x i := by
  simp [ofV, toV, h]

theorem ofV_lt {n : ℕ} (x : Fin n → ℝ) {i : ℕ} (h : i < n) : ofV n x i = x ⟨i, h⟩ := by
  simp [ofV, h]

/-- A non-singular system has at most one solution. -/
theorem solve_unique {n : ℕ} {A : Mat} (hA : (toM n A).det ≠ 0) {x y : Vec}
    (h : ∀ i < n, mulVec n A x i = mulVec n A y i) : ∀ i < n, x i = y i := by
  have hu : IsUnit (toM n A).det := isUnit_iff_ne_zero.mpr hA
  have h1 : (toM n A).mulVec (toV n x) = (toM n A).mulVec (toV n y) := by
    funext i; rw [← mulVec_eq, ← mulVec_eq]; exact h i i.2
  have h2 : toV n x = toV n y := by
    have := congrArg ((toM n A)⁻¹.mulVec) h1
    simpa [Matrix.mulVec_mulVec, Matrix.nonsing_inv_mul _ hu] using this
  intro i hi
  exact congrFun h2 ⟨i, hi⟩

theorem solve_val {n : ℕ} {A : Mat} (hA : (toM n A).det ≠ 0) (b : Vec) :
    ∀ i < n, mulVec n A (ofV n ((toM n A)⁻¹.mulVec (toV n b))) i = b i := by
  have hu : IsUnit (toM n A).det := isUnit_iff_ne_zero.mpr hA
  intro i hi
  have := toM_mulVec n A ((toM n A)⁻¹.mulVec (toV n b)) ⟨i, hi⟩
  rw [Matrix.mulVec_mulVec, Matrix.mul_nonsing_inv _ hu, Matrix.one_mulVec] at this
  simpa [mulVec, toV] using this.symm

theorem npSolve_ok {n : ℕ} {A : Mat} {b x : Vec} (h : npSolve n A b = .ok x) :
    (toM n A).det ≠ 0 ∧ ∀ i < n, mulVec n A x i = b i := by
  unfold npSolve at h
  split_ifs at h with hd
  cases h
  exact ⟨hd, solve_val hd b⟩

theorem npSolveBatch_ok {k n : ℕ} {A : ℕ → Mat} {b : ℕ → Vec} {x : ℕ → Vec}
    (h : npSolveBatch k n A b = .ok x) :
    ∀ t < k, (toM n (A t)).det ≠ 0 ∧ ∀ i < n, mulVec n (A t) (x t) i = b t i := by
  unfold npSolveBatch at h
  split_ifs at h with hd
  cases h
  push Not at hd
  exact fun t ht => ⟨hd t ht, solve_val (hd t ht) _⟩

theorem npInvBatch_ok {k n : ℕ} {A : ℕ → Mat} {x : ℕ → Mat}
    (h : npInvBatch k n A = .ok x) :
    ∀ t < k, (toM n (A t)).det ≠ 0 ∧ toM n (x t) = (toM n (A t))⁻¹ := by
  unfold npInvBatch at h
  split_ifs at h with hd
  cases h
  push Not at hd
  refine fun t ht => ⟨hd t ht, ?_⟩
  ext i j
  simp [toM, ofM]

/-- Splitting a sum over `L * n` indices in `L` blocks. -/
theorem sum_range_mul' (f : ℕ → ℝ) (L n : ℕ) :
    ∑ j ∈ Finset.range (L * n), f j
      = ∑ l ∈ Finset.range L, ∑ q ∈ Finset.range n, f (l * n + q) := by
  induction L with
  | zero => simp
  | succ L ih => rw [Nat.succ_mul, Finset.sum_range_add, ih, Finset.sum_range_succ]

theorem sum_range_two_mul (f : ℕ → ℝ) (n : ℕ) :
    ∑ j ∈ Finset.range (2 * n), f j
      = ∑ q ∈ Finset.range n, f q + ∑ q ∈ Finset.range n, f (n + q) := by
  rw [two_mul, Finset.sum_range_add]

end Pydisort

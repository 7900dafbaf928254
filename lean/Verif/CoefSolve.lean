import Verif.CoefBand

/-! Helper lemmas: the loop over Fourier modes of `_solve_for_coeffs` solves one system per mode, and the
reused buffers do not matter. -/

namespace Pydisort
open Finset

theorem npSolve_congr {n : ℕ} {A A' : Mat} {b b' : Vec} (hA : ∀ i < n, ∀ j < n, A i j = A' i j)
    (hb : ∀ i < n, b i = b' i) : npSolve n A b = npSolve n A' b' := by
  have h1 : toM n A = toM n A' := by funext i j; exact hA i i.2 j j.2
  have h2 : toV n b = toV n b' := by funext i; exact hb i i.2
  unfold npSolve; rw [h1, h2]

namespace CoefIn
variable {I : CoefIn}

/-- The rows of the linear system: every row index is of one of three kinds. -/
theorem row_cases (hN : 0 < I.N) (hL : 0 < I.NLayers) {i : ℕ} (hi : i < I.dim) :
    i < I.N ∨ (∃ k < I.NLayers - 1, ∃ q < 2 * I.N, i = I.N + k * (2 * I.N) + q) ∨
      ∃ t < I.N, i = I.dim - I.N + t := by
  have hd := I.dim_pred hL
  by_cases h1 : i < I.N
  · exact Or.inl h1
  by_cases h2 : I.dim - I.N ≤ i
  · exact Or.inr (Or.inr ⟨i - (I.dim - I.N), by omega, by omega⟩)
  · right; left
    set k := (i - I.N) / (2 * I.N) with hk
    set q := (i - I.N) % (2 * I.N) with hq
    have hkq : i - I.N = k * (2 * I.N) + q := by
      rw [hk, hq, mul_comm]; exact (Nat.div_add_mod _ _).symm
    have hq2 : q < 2 * I.N := Nat.mod_lt _ (by omega)
    have hkL : k < I.NLayers - 1 := by
      by_contra hc
      have : (I.NLayers - 1) * (2 * I.N) ≤ k * (2 * I.N) := Nat.mul_le_mul_right _ (by omega)
      omega
    exact ⟨k, hkL, q, hq2, by omega⟩

theorem IsLhs.ext {m : ℕ} {R : Option Mat} {A B : Mat} (hA : I.IsLhs m R A) (hB : I.IsLhs m R B)
    (hN : 0 < I.N) (hL : 0 < I.NLayers) : ∀ i < I.dim, ∀ j < I.dim, A i j = B i j := by
  intro i hi j hj
  rcases row_cases hN hL hi with h | ⟨k, hk, q, hq, rfl⟩ | ⟨t, ht, rfl⟩
  · rw [hA.top i h j hj, hB.top i h j hj]
  · rw [hA.mid k hk q hq j hj, hB.mid k hk q hq j hj]
  · rw [hA.bot t ht j hj, hB.bot t ht j hj]

theorem lhsZero_zero : I.LhsZero (fun _ _ => 0) := ⟨fun _ _ _ _ _ => rfl, fun _ _ _ _ _ _ _ => rfl,
  fun _ _ _ _ _ => rfl⟩

variable (I) in
/-- The matrix of mode `m`, starting from a zero buffer. -/
noncomputable def lhs (m : ℕ) (R : Option Mat) : Mat := I.dense m R (fun _ _ => 0)

theorem lhs_isLhs (hN : 0 < I.N) (hL : 0 < I.NLayers) (m : ℕ) (R : Option Mat) : I.IsLhs m R (I.lhs m R) :=
  dense_spec hN hL m R lhsZero_zero

theorem rhs_indep (hN : 0 < I.N) (hL : 0 < I.NLayers) (m : ℕ) (bneg bpos : Vec) (R : Option Mat) (X r r' : Vec) :
    ∀ i < I.dim, I.rhs m bneg bpos R X r i = I.rhs m bneg bpos R X r' i := by
  intro i hi
  rcases row_cases hN hL hi with h | ⟨k, hk, q, hq, rfl⟩ | ⟨t, ht, rfl⟩
  · rw [rhs_top I hN hL m _ _ _ _ _ h, rhs_top I hN hL m _ _ _ _ _ h]
  · rw [rhs_mid I m _ _ _ _ _ hk hq, rhs_mid I m _ _ _ _ _ hk hq]
  · rw [rhs_bot I hN hL m _ _ _ _ _ ht, rhs_bot I hN hL m _ _ _ _ _ ht]

end CoefIn

/-- What one mode contributes, with fresh buffers and dense storage. -/
noncomputable def coefMode (I : CoefIn) (m : ℕ) : Py Vec := do
  let R ← coefR I m
  let X ← coefX I m
  let bpos ← bcMode I.N m I.bposScalar I.bposVector I.bpos
  let bneg ← bcMode I.N m I.bnegScalar I.bnegVector I.bneg
  npSolve I.dim (I.lhs m R) (I.rhs m bneg bpos R X (fun _ => 0))

/-- Invariant on the reused buffers. -/
def CoefState.OK (I : CoefIn) (st : CoefState) : Prop := I.LhsZero st.LHS ∧ I.LhsZero (I.bandMat st.dof)

theorem coefBody_spec {I : CoefIn} (hN : 0 < I.N) (hL : 0 < I.NLayers) (junk : ℕ → Vec) (m : ℕ) {st : CoefState}
    (h : st.OK I) :
    (∀ e, coefMode I m = .error e → coefBody I junk m st = .error e) ∧
    (∀ x, coefMode I m = .ok x → ∃ st', coefBody I junk m st = .ok st' ∧ st'.OK I ∧
      st'.C = Function.update st.C m x) := by
  unfold coefMode coefBody
  rcases coefR I m with e | R
  · exact ⟨fun e' h' => (by cases h'; rfl), fun x h' => (by cases h')⟩
  rcases coefX I m with e | X
  · exact ⟨fun e' h' => (by cases h'; rfl), fun x h' => (by cases h')⟩
  rcases bcMode I.N m I.bposScalar I.bposVector I.bpos with e | bpos
  · exact ⟨fun e' h' => (by cases h'; rfl), fun x h' => (by cases h')⟩
  rcases bcMode I.N m I.bnegScalar I.bnegVector I.bneg with e | bneg
  · exact ⟨fun e' h' => (by cases h'; rfl), fun x h' => (by cases h')⟩
  have hl := CoefIn.lhs_isLhs hN hL m R
  simp only [bind, Except.bind]
  have h1 := CoefIn.dense_spec hN hL m R h.1
  have h2 := CoefIn.band_spec hN hL m R h.2
  have hr := CoefIn.rhs_indep hN hL m bneg bpos R X st.RHS (fun _ => 0)
  by_cases hb : I.useBanded = true
  · rw [if_pos hb, npSolve_congr (h2.ext hl hN hL) hr]
    rcases npSolve I.dim (I.lhs m R) (I.rhs m bneg bpos R X (fun _ => 0)) with e | x
    · exact ⟨fun e' h' => (by cases h'; rfl), fun x h' => (by cases h')⟩
    · refine ⟨fun e' h' => (by cases h'), fun x' h' => ?_⟩
      cases h'
      exact ⟨_, rfl, ⟨h.1, h2.zero⟩, rfl⟩
  · rw [if_neg hb, npSolve_congr (h1.ext hl hN hL) hr]
    rcases npSolve I.dim (I.lhs m R) (I.rhs m bneg bpos R X (fun _ => 0)) with e | x
    · exact ⟨fun e' h' => (by cases h'; rfl), fun x h' => (by cases h')⟩
    · refine ⟨fun e' h' => (by cases h'), fun x' h' => ?_⟩
      cases h'
      exact ⟨_, rfl, ⟨h1.zero, h.2⟩, rfl⟩

theorem coefLoop_spec {I : CoefIn} (hN : 0 < I.N) (hL : 0 < I.NLayers) (junk : ℕ → Vec) {st : CoefState}
    (h : st.OK I) (n : ℕ) :
    (∀ e, forRangeM n (coefBody I junk) st = .error e → ∃ m < n, coefMode I m = .error e) ∧
    (∀ st', forRangeM n (coefBody I junk) st = .ok st' → st'.OK I ∧
      ∀ m < n, coefMode I m = .ok (st'.C m)) := by
  induction n with
  | zero =>
    refine ⟨fun e h' => (by cases h'), fun st' h' => ?_⟩
    cases h'; exact ⟨h, fun m hm => by omega⟩
  | succ n ih =>
    unfold forRangeM
    rcases hf : forRangeM n (coefBody I junk) st with e | s1
    · refine ⟨fun e' h' => ?_, fun st' h' => by cases h'⟩
      cases h'
      obtain ⟨m, hm, h2⟩ := ih.1 e hf
      exact ⟨m, by omega, h2⟩
    · obtain ⟨hok, hC⟩ := ih.2 s1 hf
      have hb := coefBody_spec hN hL junk n hok
      simp only [bind, Except.bind]
      rcases hm : coefMode I n with e | x
      · rw [hb.1 e hm]
        refine ⟨fun e' h' => ?_, fun st' h' => by cases h'⟩
        cases h'; exact ⟨n, by omega, hm⟩
      · obtain ⟨s2, h2, hok2, hC2⟩ := hb.2 x hm
        rw [h2]
        refine ⟨fun e' h' => (by cases h'), fun st' h' => ?_⟩
        cases h'
        refine ⟨hok2, fun m hmn => ?_⟩
        rw [hC2]
        by_cases hc : m = n
        · subst hc; simp [hm]
        · rw [Function.update_of_ne hc]; exact hC m (by omega)

theorem coefInit_ok (I : CoefIn) (a : Vec) (c : ℕ → Vec) : CoefState.OK I ⟨a, fun _ _ => 0, fun _ => 0, c⟩ := by
  refine ⟨CoefIn.lhsZero_zero, ?_⟩
  have : I.bandMat (fun _ => 0) = fun _ _ => 0 := by
    funext i j; unfold CoefIn.bandMat; split_ifs <;> rfl
  rw [this]; exact CoefIn.lhsZero_zero

theorem solveCoeffs_ok {I : CoefIn} (hN : 0 < I.N) (hL : 0 < I.NLayers) {j : CoefState} {junk : ℕ → Vec}
    {GC : ℕ → ℕ → Mat} (h : solveCoeffs I j junk = .ok GC) :
    ∃ C : ℕ → Vec, (GC = fun m l i k => I.G m l i k * C m (l * (2 * I.N) + k)) ∧
      ∀ m < I.NFourier, coefMode I m = .ok (C m) := by
  unfold solveCoeffs at h
  rcases hf : forRangeM I.NFourier (coefBody I junk) ⟨j.RHS, fun _ _ => 0, fun _ => 0, j.C⟩ with e | st
  · rw [hf] at h; cases h
  · rw [hf] at h; cases h
    exact ⟨st.C, rfl, ((coefLoop_spec hN hL junk (coefInit_ok I _ _) _).2 st hf).2⟩

theorem solveCoeffs_error {I : CoefIn} (hN : 0 < I.N) (hL : 0 < I.NLayers) {j : CoefState} {junk : ℕ → Vec}
    {e : PyErr} (h : solveCoeffs I j junk = .error e) : ∃ m < I.NFourier, coefMode I m = .error e := by
  unfold solveCoeffs at h
  rcases hf : forRangeM I.NFourier (coefBody I junk) ⟨j.RHS, fun _ _ => 0, fun _ => 0, j.C⟩ with e' | st
  · rw [hf] at h; cases h
    exact (coefLoop_spec hN hL junk (coefInit_ok I _ _) _).1 _ hf
  · rw [hf] at h; cases h

/-- The call succeeds exactly when every mode does. -/
theorem solveCoeffs_isOk {I : CoefIn} (hN : 0 < I.N) (hL : 0 < I.NLayers) (j : CoefState) (junk : ℕ → Vec)
    (h : ∀ m < I.NFourier, ∃ x, coefMode I m = .ok x) : ∃ GC, solveCoeffs I j junk = .ok GC := by
  rcases hs : solveCoeffs I j junk with e | GC
  · obtain ⟨m, hm, he⟩ := solveCoeffs_error hN hL hs
    obtain ⟨x, hx⟩ := h m hm
    rw [hx] at he; cases he
  · exact ⟨GC, rfl⟩

end Pydisort

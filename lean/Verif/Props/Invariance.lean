import Verif.SameEval
import Verif.Witness

/-!
# Properties: things that must not matter

C12 (only_flux), C13 (banded or dense solver), C14 (strided writes), C15 (reused buffers and uninitialised memory),
C31 (two-dimensional boundary conditions), C32 (scalar or vector boundary conditions), C33 (scalar or function BDRF).
-/

namespace Pydisort
open Finset Spec

/-! ### Sameness is an equivalence -/

theorem SameOutcome.symm {α β : Type} {rel : α → β → Prop} {rel' : β → α → Prop} (hr : ∀ x y, rel x y → rel' y x)
    {x : Py α} {y : Py β} (h : SameOutcome rel x y) : SameOutcome rel' y x := by
  rcases x with e | x <;> rcases y with e' | y
  · exact Eq.symm h
  · exact h
  · exact h
  · exact hr x y h

theorem SameOutcome.trans {α : Type} {rel : α → α → Prop} (hr : ∀ x y z, rel x y → rel y z → rel x z)
    {x y z : Py α} (h : SameOutcome rel x y) (h' : SameOutcome rel y z) : SameOutcome rel x z := by
  rcases x with e | x <;> rcases y with e' | y <;> rcases z with e'' | z <;>
    first | exact h.elim | exact h'.elim | exact Eq.trans h h' | exact hr x y z h h'

theorem A1.Same.symm {α : Type*} (x y : A1 α) (h : A1.Same x y) : A1.Same y x :=
  ⟨h.1.symm, fun i hi => (h.2 i (h.1 ▸ hi)).symm⟩
theorem A1.Same.trans {α : Type*} (x y z : A1 α) (h : A1.Same x y) (h' : A1.Same y z) : A1.Same x z :=
  ⟨h.1.trans h'.1, fun i hi => (h.2 i hi).trans (h'.2 i (h.1 ▸ hi))⟩
theorem A2.Same.symm {α : Type*} (x y : A2 α) (h : A2.Same x y) : A2.Same y x :=
  ⟨h.1.symm, h.2.1.symm, fun i hi j hj => (h.2.2 i (h.1 ▸ hi) j (h.2.1 ▸ hj)).symm⟩
theorem A2.Same.trans {α : Type*} (x y z : A2 α) (h : A2.Same x y) (h' : A2.Same y z) : A2.Same x z :=
  ⟨h.1.trans h'.1, h.2.1.trans h'.2.1, fun i hi j hj => (h.2.2 i hi j hj).trans (h'.2.2 i (h.1 ▸ hi) j (h.2.1 ▸ hj))⟩

theorem Spec.SameFluxes.symm {R R' : Solved} (h : SameFluxes R R') : SameFluxes R' R :=
  ⟨A1.Same.symm _ _ h.mu, fun t b => SameOutcome.symm A2.Same.symm (h.u0 t b), fun t b => SameOutcome.symm A1.Same.symm (h.up t b),
    fun t b => SameOutcome.symm (fun _ _ h => ⟨A1.Same.symm _ _ h.1, A1.Same.symm _ _ h.2.1, h.2.2.symm⟩) (h.down t b)⟩

theorem Spec.SameFluxes.trans {R R' R'' : Solved} (h : SameFluxes R R') (h' : SameFluxes R' R'') : SameFluxes R R'' :=
  ⟨A1.Same.trans _ _ _ h.mu h'.mu, fun t b => SameOutcome.trans A2.Same.trans (h.u0 t b) (h'.u0 t b),
    fun t b => SameOutcome.trans A1.Same.trans (h.up t b) (h'.up t b),
    fun t b => SameOutcome.trans (fun _ _ _ h h' => ⟨A1.Same.trans _ _ _ h.1 h'.1, A1.Same.trans _ _ _ h.2.1 h'.2.1,
      h.2.2.trans h'.2.2⟩) (h.down t b) (h'.down t b)⟩

/-! ### C12 -/

/-- What the call is turned into by asking for the fluxes only. -/
def Spec.fluxOnly (a : Args) : Args := { a with onlyFlux := true }

/-- **C12.** If a call returns, the call with `only_flux=True` returns too, and its `flux_up`, `flux_down` and `u0` are
the same functions, errors included. -/
theorem C12_only_flux {E : Ext} {J : Junk} (J' : Junk) {a : Args} {R : Solved} (h : pydisort E J a = .ok R) :
    ∃ R', pydisort E J' (fluxOnly a) = .ok R' ∧ SameFluxes R R' := by
  have hacc := (pydisort_ok h).1
  have hn : 0 < nHalf a := by have := hacc.streams.1; unfold nHalf; omega
  have hF : 1 ≤ Spec.nFourier a := by
    rw [← nFourier_eq]; unfold Args.nFourier
    split_ifs with ho
    · rfl
    · have := (hacc.modes (by simpa using ho)).1; omega
  have hacc' : Accepted (fluxOnly a) := { hacc with modes := fun h => by cases h }
  obtain ⟨R', d, h1, h2, h3, -⟩ := call_transfer (a' := fluxOnly a) (J' := J') (F := 1)
    (D := fun d => ⟨a.bdrf, a.bpos'.div d, a.bneg'.div d, _, _, _, _, _⟩) h hacc' rfl rfl (fun _ => rfl)
    (fun _ _ _ _ => rfl) one_pos hF
    (fun O r out out' m _ => CoefIn.AgreeBC.refl' rfl rfl rfl rfl rfl rfl rfl rfl rfl rfl rfl rfl rfl)
  obtain ⟨_, O, r, _, _, hI, _⟩ := pydisort_ok h
  refine ⟨R', h1, sameFluxes_of ?_ ?_ one_pos h2 h3⟩
  · rw [hI]; exact hn
  · rw [hI]; exact hacc.layers

/-- **C12.** Any two calls that differ in `NFourier` and `only_flux` and both return have the same fluxes and `u0`. -/
theorem C12_any_number_of_modes {E : Ext} {J J' : Junk} {a : Args} {F F' : Option ℤ} {o o' : Bool} {R R' : Solved}
    (h : pydisort E J { a with NFourier := F, onlyFlux := o } = .ok R)
    (h' : pydisort E J' { a with NFourier := F', onlyFlux := o' } = .ok R') : SameFluxes R R' := by
  obtain ⟨Q, hQ, h1⟩ := C12_only_flux J h
  obtain ⟨Q', hQ', h2⟩ := C12_only_flux J' h'
  have hacc' : Accepted (fluxOnly { a with NFourier := F', onlyFlux := o' }) := (pydisort_ok hQ').1
  obtain ⟨hacc, O, r, _, _, hI, _⟩ := pydisort_ok hQ
  -- the two flux-only calls differ in nothing that is used
  obtain ⟨P, d, hP, h3, h4, -⟩ := call_transfer (a' := fluxOnly { a with NFourier := F', onlyFlux := o' }) (J' := J') (F := 1)
    (D := fun d => ⟨a.bdrf, a.bpos'.div d, a.bneg'.div d, _, _, _, _, _⟩) hQ hacc' rfl rfl (fun _ => rfl)
    (fun _ _ _ _ => rfl) one_pos le_rfl
    (fun O r out out' m _ => CoefIn.AgreeBC.refl' rfl rfl rfl rfl rfl rfl rfl rfl rfl rfl rfl rfl rfl)
  have hPQ : P = Q' := by rw [hP] at hQ'; exact Except.ok.inj hQ'
  have hn : 0 < nHalf a := by have := hacc.streams.1; unfold nHalf; change 2 ≤ a.NQuad at this; omega
  refine h1.trans (SameFluxes.trans (sameFluxes_of ?_ ?_ one_pos h3 h4) (hPQ ▸ h2.symm))
  · rw [hI]; exact hn
  · rw [hI]; exact hacc.layers

/-- C12 applies: there are calls with several modes that return, for every number of streams. -/
example (J J' : Junk) : ∃ (a : Args) (R R' : Solved), 2 ≤ Spec.nFourier a ∧ pydisort refExt J a = .ok R ∧
    pydisort refExt J' (fluxOnly a) = .ok R' := by
  obtain ⟨x, R, h, -⟩ := demo_call (n := 2) (by norm_num) J
  obtain ⟨R', h', -⟩ := C12_only_flux J' h
  exact ⟨_, R, R', by simp [Spec.nFourier, demo], h, h'⟩

/-! ### C13 -/

/-- **C13.** The choice of solver changes nothing: with any admissible threshold `k` the call returns, and all returned
functions are the same. -/
theorem C13_solver_choice {E : Ext} {J : Junk} (J' : Junk) {a : Args} {R : Solved} {k : ℤ} (hk : 3 ≤ k)
    (h : pydisort E J a = .ok R) :
    ∃ R', pydisort E J' { a with useBanded := k } = .ok R' ∧ SameResults R R' := by
  have hacc := (pydisort_ok h).1
  have hn : 0 < nHalf a := by have := hacc.streams.1; unfold nHalf; omega
  have hF : 0 < Spec.nFourier a := by
    rw [← nFourier_eq]; unfold Args.nFourier
    split_ifs with ho
    · exact one_pos
    · have := (hacc.modes (by simpa using ho)).1; omega
  have hacc' : Accepted { a with useBanded := k } := { hacc with banded := hk }
  obtain ⟨R', d, h1, h2, h3, h4, h5⟩ := call_transfer (a' := { a with useBanded := k }) (J' := J') (F := Spec.nFourier a)
    (D := fun d => ⟨a.bdrf, a.bpos'.div d, a.bneg'.div d, _, _, _, _, _⟩) h hacc' rfl rfl (fun _ => rfl)
    (fun mu W O r => by
      rw [← nFourier_eq]
      rfl) hF le_rfl
    (fun O r out out' m _ => CoefIn.AgreeBC.refl' rfl rfl rfl rfl rfl rfl rfl rfl rfl rfl rfl rfl rfl)
  obtain ⟨_, O, r, _, _, hI, _, ho, _⟩ := pydisort_ok h
  have hF' : R.I.NFourier = Spec.nFourier a := by rw [hI, ← nFourier_eq]; rfl
  rw [← hF'] at h2 h3 hF
  refine ⟨R', h1, sameResults_of ?_ ?_ hF h2 h3 (h4.trans ho.symm) (h5 Iff.rfl fun _ _ _ => rfl)⟩
  · rw [hI]; exact hn
  · rw [hI]; exact hacc.layers

/-- **C13.** The matrix that `solve_banded` sees in the band storage is the dense matrix handed to `np.linalg.solve`,
entry by entry, including the zeros outside the band; for every mode, reflection matrix and size. -/
theorem C13_same_matrix (I : CoefIn) (hN : 0 < I.N) (hL : 0 < I.NLayers) (m : ℕ) (R : Option Mat) :
    ∀ i < I.dim, ∀ j < I.dim, I.bandMat (I.band m R fun _ => 0) i j = I.dense m R (fun _ _ => 0) i j :=
  (CoefIn.band_spec hN hL m R (coefInit_ok I (fun _ => 0) fun _ _ => 0).2).ext (CoefIn.lhs_isLhs hN hL m R) hN hL

/-! ### C14 -/

/-- The views through which `_solve_for_coeffs` writes into the band buffer: first row, first column and number of rows
(lines 283-285, 294-295, 314-323); all have `N` columns. -/
inductive Spec.WrittenView (N L : ℕ) : ℕ → ℕ → ℕ → Prop
  | topLeft : WrittenView N L 0 0 N
  | topRight : WrittenView N L 0 N N
  | bottomLeft : WrittenView N L (L * (2 * N) - N) (L * (2 * N) - 2 * N) N
  | bottomRight : WrittenView N L (L * (2 * N) - N) (L * (2 * N) - N) N
  | above1 (l : ℕ) (h : l < L - 1) : WrittenView N L (N + l * (2 * N)) (l * (2 * N)) N
  | above2 (l : ℕ) (h : l < L - 1) : WrittenView N L (N + l * (2 * N) + N) (l * (2 * N)) N
  | above3 (l : ℕ) (h : l < L - 1) : WrittenView N L (N + l * (2 * N)) (l * (2 * N) + N) (2 * N)
  | below1 (l : ℕ) (h : l < L - 1) : WrittenView N L (N + l * (2 * N)) (l * (2 * N) + 2 * N) (2 * N)
  | below2 (l : ℕ) (h : l < L - 1) : WrittenView N L (N + l * (2 * N)) (l * (2 * N) + 3 * N) N
  | below3 (l : ℕ) (h : l < L - 1) : WrittenView N L (N + l * (2 * N) + N) (l * (2 * N) + 3 * N) N

theorem viewOK_of_written {I : CoefIn} (hL : 0 < I.NLayers) {i0 j0 nr : ℕ}
    (h : WrittenView I.N I.NLayers i0 j0 nr) : CoefIn.ViewOK I i0 j0 nr ∧ i0 + nr ≤ I.dim := by
  have hd := I.dim_ge hL
  have hdim : I.NLayers * (2 * I.N) = I.dim := rfl
  cases h with
  | topLeft => exact ⟨⟨by omega, by omega, by omega⟩, by omega⟩
  | topRight => exact ⟨⟨by omega, by omega, by omega⟩, by omega⟩
  | bottomLeft => rw [hdim]; exact ⟨⟨by omega, by omega, by omega⟩, by omega⟩
  | bottomRight => rw [hdim]; exact ⟨⟨by omega, by omega, by omega⟩, by omega⟩
  | above1 l h | above2 l h | above3 l h | below1 l h | below2 l h | below3 l h =>
    have hb := I.block_le h
    rw [Nat.succ_mul] at hb
    generalize l * (2 * I.N) = c at *
    exact ⟨⟨by omega, by omega, by omega⟩, by omega⟩

/-- **C14.** Every element of every strided view lies inside the `(6N-1) × dim` buffer, and it is the element that
`solve_banded` reads as the matrix entry in the row and column meant by the view. -/
theorem C14_views_in_bounds (I : CoefIn) (hN : 0 < I.N) (hL : 0 < I.NLayers) {i0 j0 nr : ℕ}
    (h : WrittenView I.N I.NLayers i0 j0 nr) {p q : ℕ} (hp : p < nr) (hq : q < I.N) :
    ∃ row col : ℕ, row < 6 * I.N - 1 ∧ col < I.dim ∧ I.slantAddr i0 j0 p q = row + col * (6 * I.N - 1) ∧
      (row : ℤ) = 3 * I.N - 1 + (i0 + p : ℕ) - (j0 + q : ℕ) ∧ col = j0 + q ∧ i0 + p < I.dim := by
  obtain ⟨hv, hr⟩ := viewOK_of_written hL h
  have e := CoefIn.slantAddr_eq hN hv p q
  obtain ⟨h1, h2, h3⟩ := hv
  refine ⟨(3 * (I.N : ℤ) - 1 + (i0 + p : ℕ) - (j0 + q : ℕ)).toNat, j0 + q, by omega, by omega, ?_, by omega, rfl, by omega⟩
  rw [e, Int.toNat_of_nonneg (by omega)]
  rfl

/-- **C14.** Different matrix entries inside the band are stored at different addresses. -/
theorem C14_no_alias (I : CoefIn) {i j i' j' : ℕ} (h1 : (i : ℤ) - j ≤ 3 * I.N - 1) (h2 : (j : ℤ) - i ≤ 3 * I.N - 1)
    (h1' : (i' : ℤ) - j' ≤ 3 * I.N - 1) (h2' : (j' : ℤ) - i' ≤ 3 * I.N - 1)
    (h : 3 * (I.N : ℤ) - 1 + i - j + j * I.ld = 3 * (I.N : ℤ) - 1 + i' - j' + j' * I.ld) : i = i' ∧ j = j' := by
  have := CoefIn.ld_inj (ld := I.ld) (x := 3 * (I.N : ℤ) - 1 + i - j) (x' := 3 * (I.N : ℤ) - 1 + i' - j')
    (by omega) (by unfold CoefIn.ld; omega) (by omega) (by unfold CoefIn.ld; omega) h
  omega

theorem writeSlanted_frame {I : CoefIn} (hN : 0 < I.N) (hL : 0 < I.NLayers) {i0 j0 nr : ℕ}
    (h : WrittenView I.N I.NLayers i0 j0 nr) (mem : ℤ → ℝ) (V : Mat) {x : ℤ} (hx : x < 0 ∨ (6 * I.N - 1) * I.dim ≤ x) :
    I.writeSlanted mem i0 j0 nr V x = mem x := by
  unfold CoefIn.writeSlanted
  rw [dif_neg]
  rintro ⟨⟨p, q⟩, hp, hq, ha⟩
  obtain ⟨row, col, h1, h2, h3, -⟩ := C14_views_in_bounds I hN hL h hp hq
  rw [ha] at h3
  have hN' : (1 : ℤ) ≤ I.N := by exact_mod_cast hN
  rcases hx with hx | hx
  · have : (0 : ℤ) ≤ col * (6 * I.N - 1) := mul_nonneg (by positivity) (by omega)
    omega
  · have h4 : ((col : ℤ) + 1) * (6 * I.N - 1) ≤ I.dim * (6 * I.N - 1) :=
      mul_le_mul_of_nonneg_right (by omega) (by omega)
    rw [add_mul] at h4
    have h5 : (row : ℤ) < 6 * I.N - 1 := by omega
    rw [mul_comm] at hx
    omega

/-- **C14.** Assembling the matrix of a mode writes nothing outside the buffer, whatever is stored there. -/
theorem C14_nothing_written_outside (I : CoefIn) (hN : 0 < I.N) (hL : 0 < I.NLayers) (m : ℕ) (R : Option Mat) (mem : ℤ → ℝ)
    {x : ℤ} (hx : x < 0 ∨ (6 * I.N - 1) * I.dim ≤ x) : I.band m R mem x = mem x := by
  unfold CoefIn.band
  have hloop : ∀ n ≤ I.NLayers - 1, ∀ A : ℤ → ℝ, forRange n (fun l A => I.bandInter m l A) A x = A x := by
    intro n
    induction n with
    | zero => intro _ A; rfl
    | succ n ih =>
      intro hn A
      unfold forRange
      unfold CoefIn.bandInter
      dsimp only
      rw [writeSlanted_frame hN hL (.below3 n (by omega)) _ _ hx, writeSlanted_frame hN hL (.below2 n (by omega)) _ _ hx,
        writeSlanted_frame hN hL (.below1 n (by omega)) _ _ hx, writeSlanted_frame hN hL (.above3 n (by omega)) _ _ hx,
        writeSlanted_frame hN hL (.above2 n (by omega)) _ _ hx, writeSlanted_frame hN hL (.above1 n (by omega)) _ _ hx]
      exact ih (by omega) A
  have hbl : WrittenView I.N I.NLayers (I.dim - I.N) (I.dim - 2 * I.N) I.N := .bottomLeft
  have hbr : WrittenView I.N I.NLayers (I.dim - I.N) (I.dim - I.N) I.N := .bottomRight
  rw [hloop _ le_rfl, writeSlanted_frame hN hL hbr _ _ hx, writeSlanted_frame hN hL hbl _ _ hx,
    writeSlanted_frame hN hL .topRight _ _ hx, writeSlanted_frame hN hL .topLeft _ _ hx]

/-! ### C15 -/

/-- The states in which the loop over modes of `_solve_for_coeffs` can be: fresh buffers (matrices zero, everything else
uninitialised), or what is left after processing any mode. -/
inductive Spec.Reachable (I : CoefIn) (junk : ℕ → Vec) : CoefState → Prop
  | fresh (r : Vec) (c : ℕ → Vec) : Reachable I junk ⟨r, fun _ _ => 0, fun _ => 0, c⟩
  | step {st st' : CoefState} (m : ℕ) (h : Reachable I junk st) (hb : coefBody I junk m st = .ok st') : Reachable I junk st'

theorem reachable_ok {I : CoefIn} (hN : 0 < I.N) (hL : 0 < I.NLayers) {junk : ℕ → Vec} {st : CoefState}
    (h : Reachable I junk st) : st.OK I := by
  induction h with
  | fresh r c => exact coefInit_ok I r c
  | step m _ hb ih =>
    have hs := coefBody_spec hN hL junk m ih
    rcases hm : coefMode I m with e | x
    · rw [hs.1 e hm] at hb; cases hb
    · obtain ⟨s2, h2, h3, -⟩ := hs.2 x hm
      rw [h2] at hb; cases hb; exact h3

/-- **C15.** Whatever modes were processed before, in whatever order, the coefficients computed for mode `m` (or the
exception raised) are those computed with fresh buffers. -/
theorem C15_history_irrelevant (I : CoefIn) (hN : 0 < I.N) (hL : 0 < I.NLayers) (junk junk' : ℕ → Vec) (m : ℕ)
    {st : CoefState} (h : Reachable I junk st) (r : Vec) (c : ℕ → Vec) :
    SameOutcome (fun s s' => s.C m = s'.C m) (coefBody I junk m st)
      (coefBody I junk' m ⟨r, fun _ _ => 0, fun _ => 0, c⟩) := by
  have h1 := coefBody_spec hN hL junk m (reachable_ok hN hL h)
  have h2 := coefBody_spec hN hL junk' m (coefInit_ok I r c)
  rcases hm : coefMode I m with e | x
  · rw [h1.1 e hm, h2.1 e hm]; exact rfl
  · obtain ⟨s, hs, -, hc⟩ := h1.2 x hm
    obtain ⟨s', hs', -, hc'⟩ := h2.2 x hm
    rw [hs, hs']
    show s.C m = s'.C m
    rw [hc, hc', Function.update_self, Function.update_self]

/-- **C15.** The content of the uninitialised buffers (`np.empty`) never influences a result: if a call returns with some
content of memory, it returns the same functions with any other. -/
theorem C15_uninitialised_memory {E : Ext} {J : Junk} (J' : Junk) {a : Args} {R : Solved} (h : pydisort E J a = .ok R) :
    ∃ R', pydisort E J' a = .ok R' ∧ SameResults R R' := by
  obtain ⟨R', h1, h2⟩ := C13_solver_choice J' (pydisort_ok h).1.banded h
  exact ⟨R', h1, h2⟩

/-- C13, C15: the hypotheses are met by a call for every number of streams. -/
example (J J' : Junk) (n : ℕ) (hn : 0 < n) : ∃ (a : Args) (R R' : Solved), nHalf a = n ∧ pydisort refExt J a = .ok R ∧
    pydisort refExt J' a = .ok R' ∧ SameResults R R' := by
  obtain ⟨x, R, h, -⟩ := demo_call hn J
  obtain ⟨R', h', hs⟩ := C15_uninitialised_memory J' h
  exact ⟨_, R, R', demo_nHalf x, h, h', hs⟩

/-! ### C31 -/

theorem coefMode_bc {c : CoefIn} {m : ℕ} {x : Vec} (h : coefMode c m = .ok x) :
    (∃ v, bcMode c.N m c.bposScalar c.bposVector c.bpos = .ok v) ∧
      ∃ v, bcMode c.N m c.bnegScalar c.bnegVector c.bneg = .ok v := by
  unfold coefMode at h
  rcases hR : coefR c m with e | R
  · rw [hR] at h; cases h
  rcases hX : coefX c m with e | X
  · rw [hR, hX] at h; cases h
  rw [hR, hX] at h
  rcases hp : bcMode c.N m c.bposScalar c.bposVector c.bpos with e | v
  · rw [hp] at h; cases h
  rw [hp] at h
  rcases hn : bcMode c.N m c.bnegScalar c.bnegVector c.bneg with e | v'
  · rw [hn] at h; cases h
  · exact ⟨⟨v, rfl⟩, ⟨v', rfl⟩⟩

/-- A two-dimensional boundary condition: an array with one row per stream of a hemisphere and one column per Fourier
mode, not entirely zero. -/
def Spec.TwoDimensional (a : Args) (b : BCv) : Prop :=
  ∃ v : A2 ℝ, b = .mat v ∧ v.r = nHalf a ∧ v.c = Spec.nFourier a ∧ ∃ i < v.r, ∃ j < v.c, v.get i j ≠ 0

theorem bcMode_mat_fails {N : ℕ} {v : A2 ℝ} {d : ℝ} (h2 : 2 ≤ N) (hr : v.r = N) (w : Vec) :
    bcMode N 0 (decide (BCv.len (.mat v) = 1)) (decide (¬ BCv.len (.mat v) = 1 ∧ (BCv.len (.mat v) : ℤ) = (N : ℤ)))
      (BCv.div (.mat v) d) ≠ .ok w := by
  have e : BCv.len (.mat v) = N := hr
  unfold bcMode
  have h1 : ¬ BCv.len (.mat v) = 1 := by omega
  rw [if_neg (by simp [h1]), if_pos ⟨by rw [decide_eq_true_eq]; exact ⟨h1, by exact_mod_cast e⟩, rfl⟩]
  simp only [BCv.div, A2.map]
  rw [if_neg (by omega)]
  intro h; cases h

/-- **C31, negation.** A call with a two-dimensional boundary condition of the documented shape passes the validation
but never returns, when there are at least two streams per hemisphere. -/
theorem C31_two_dimensional_never_returns {E : Ext} {J : Junk} {a : Args} (h2 : 2 ≤ nHalf a)
    (hb : TwoDimensional a a.bneg ∨ TwoDimensional a a.bpos) (R : Solved) : pydisort E J a ≠ .ok R := by
  intro h
  obtain ⟨hacc, O, r, hO, hr, hI, hsol, _⟩ := pydisort_ok h
  rw [hI] at hsol
  have hn : 0 < nHalf a := by omega
  have hF : 0 < a.nFourier.toNat := by
    unfold Args.nFourier
    split_ifs with ho
    · exact one_pos
    · have := (hacc.modes (by simpa using ho)).1; omega
  unfold solveAll at hsol
  rcases hg : genSol E J.gen (a.asm E O r).genIn with e | out
  · rw [hg] at hsol; cases hsol
  rw [hg] at hsol
  simp only [bind, Except.bind] at hsol
  rcases hc : solveCoeffs ((a.asm E O r).coefIn out) J.coef J.rhs with e | GC
  · rw [hc] at hsol; cases hsol
  obtain ⟨C, -, hC⟩ := solveCoeffs_ok (I := (a.asm E O r).coefIn out) hn hacc.layers hc
  have hm := coefMode_bc (hC 0 hF)
  have hhalf : a.halfN = ((nHalf a : ℕ) : ℤ) := by
    have := hacc.streams.1
    unfold Args.halfN nHalf; omega
  rcases hb with ⟨v, hv, hr, -, i, hi, j, hj, hne⟩ | ⟨v, hv, hr, -, i, hi, j, hj, hne⟩
  · obtain ⟨w, hw⟩ := hm.2
    have e : a.bneg' = .mat v := by
      unfold Args.bneg'
      rw [if_neg, hv]
      rw [hv]
      exact fun h => hne (h i hi j hj)
    change bcMode (nHalf a) 0 (decide (a.bneg'.len = 1)) (decide (¬ a.bneg'.len = 1 ∧ (a.bneg'.len : ℤ) = a.halfN))
      (a.bneg'.div _) = _ at hw
    rw [e, hhalf] at hw
    exact bcMode_mat_fails h2 hr w hw
  · obtain ⟨w, hw⟩ := hm.1
    have e : a.bpos' = .mat v := by
      unfold Args.bpos'
      rw [if_neg, hv]
      rw [hv]
      exact fun h => hne (h i hi j hj)
    change bcMode (nHalf a) 0 (decide (a.bpos'.len = 1)) (decide (¬ a.bpos'.len = 1 ∧ (a.bpos'.len : ℤ) = a.halfN))
      (a.bpos'.div _) = _ at hw
    rw [e, hhalf] at hw
    exact bcMode_mat_fails h2 hr w hw

/-- A problem with a two-dimensional boundary condition at the top; apart from that it is the well-posed problem
`demoDark`. -/
noncomputable def demo2D (n : ℕ) : Args := { demoDark n with bneg := .mat ⟨n, n, fun _ _ => 1⟩ }

/-- **C31 is false**: accepted input of the documented shape for which no call returns, for every number of streams but
two. -/
theorem C31_false (n : ℕ) (hn : 2 ≤ n) : Accepted (demo2D n) ∧ nHalf (demo2D n) = n ∧
    TwoDimensional (demo2D n) (demo2D n).bneg ∧ ∀ E J R, pydisort E J (demo2D n) ≠ .ok R := by
  have hh : nHalf (demo2D n) = n := demo_nHalf 1
  have ht : TwoDimensional (demo2D n) (demo2D n).bneg :=
    ⟨⟨n, n, fun _ _ => 1⟩, rfl, hh.symm, by simp [Spec.nFourier, demo2D, demoDark, demo], 0, by simp; omega, 0, by simp; omega, by simp⟩
  refine ⟨{ demoDark_accepted (n := n) (by omega) with topBC := Or.inr (Or.inr hh.symm) }, hh, ht, fun E J R => ?_⟩
  exact C31_two_dimensional_never_returns (by omega) (Or.inl ht) R

/-! ### C32 -/

/-- A boundary value that is the same number `x` for all `N` streams of a hemisphere: a scalar, or an array of one or `N`
equal numbers (possibly with a leading axis of length one). -/
def Spec.Uniform (N : ℕ) (x : ℝ) : BCv → Prop
  | .scalar y => y = x
  | .vec v => (v.n = 1 ∨ v.n = N) ∧ ∀ i < v.n, v.get i = x
  | .mat v => v.r = 1 ∧ (v.c = 1 ∨ v.c = N) ∧ ∀ j < v.c, v.get 0 j = x

section
variable {N : ℕ} {x d : ℝ} {b : BCv}

open Classical in
/-- The boundary value after lines 199-202. -/
noncomputable def BCv.zeroed (b : BCv) : BCv := if b.AllZero then .scalar 0 else b

theorem Spec.Uniform.allZero (hN : 0 < N) (h : Uniform N x b) : b.AllZero ↔ x = 0 := by
  cases b with
  | scalar y => exact ⟨fun e => h ▸ e, fun e => (show y = x from h).trans e⟩
  | vec v =>
    obtain ⟨h1, h2⟩ := h
    exact ⟨fun e => (h2 0 (by omega)) ▸ e 0 (by omega), fun e i hi => (h2 i hi).trans e⟩
  | mat v =>
    obtain ⟨h0, h1, h2⟩ := h
    refine ⟨fun e => (h2 0 (by omega)) ▸ e 0 (by omega) 0 (by omega), fun e i hi j hj => ?_⟩
    have : i = 0 := by omega
    subst this
    exact (h2 j hj).trans e

theorem npMax_const {v : A1 ℝ} (h0 : 0 < v.n) (h : ∀ i < v.n, v.get i = x) : npMax v = .ok x := by
  unfold npMax
  have hne : (range v.n).Nonempty := ⟨0, mem_range.2 h0⟩
  rw [dif_pos hne]
  congr 1
  apply le_antisymm
  · exact Finset.sup'_le _ _ fun i hi => (h i (mem_range.1 hi)).le
  · exact (h 0 h0).symm.le.trans (Finset.le_sup' v.get (mem_range.2 h0))

theorem Spec.Uniform.max (hN : 0 < N) (h : Uniform N x b) : b.zeroed.max = .ok x := by
  unfold BCv.zeroed
  by_cases hz : b.AllZero
  · rw [if_pos hz]
    show Except.ok (0 : ℝ) = _
    rw [(h.allZero hN).1 hz]
  · rw [if_neg hz]
    cases b with
    | scalar y => exact congrArg Except.ok h
    | vec v => exact npMax_const (by have := h.1; omega) h.2
    | mat v =>
      obtain ⟨h0, h1, h2⟩ := h
      refine npMax_const (by show 0 < v.r * v.c; rw [h0]; omega) fun i hi => ?_
      change i < v.r * v.c at hi
      rw [h0, one_mul] at hi
      show v.get (i / v.c) (i % v.c) = x
      rw [Nat.div_eq_of_lt hi, Nat.mod_eq_of_lt hi]
      exact h2 i hi

theorem Spec.Uniform.shape (h : Uniform N x b) : BCShape N b := by
  cases b with
  | scalar y => exact trivial
  | vec v => exact Or.inr h.1
  | mat v => exact Or.inr (Or.inl h.1)

theorem assign1_const {v : A1 ℝ} (h : v.n = 1 ∨ v.n = N) (hN : 0 < N) (hv : ∀ i < v.n, v.get i = x) :
    ∃ w, assign1 N v = .ok w ∧ ∀ i < N, w i = x := by
  unfold assign1
  split_ifs with h1 h2
  · exact ⟨_, rfl, fun i hi => hv i (by omega)⟩
  · exact ⟨_, rfl, fun i _ => hv 0 (by omega)⟩
  · omega

/-- What is imposed on mode `m`. -/
theorem Spec.Uniform.bcMode (hN : 0 < N) (h : Uniform N x b) (m : ℕ) : ∃ w,
    Pydisort.bcMode N m (decide (b.zeroed.len = 1)) (decide (¬ b.zeroed.len = 1 ∧ (b.zeroed.len : ℤ) = (N : ℤ)))
      (b.zeroed.div d) = .ok w ∧ ∀ i < N, w i = if m = 0 then x / d else 0 := by
  have hlen : b.zeroed.len = 1 ∨ b.zeroed.len = N := by
    unfold BCv.zeroed
    split_ifs
    · exact Or.inl rfl
    · cases b with
      | scalar y => exact Or.inl rfl
      | vec v => exact h.1
      | mat v => exact Or.inl h.1
  have hflag : decide (b.zeroed.len = 1) = true ∨
      decide (¬ b.zeroed.len = 1 ∧ (b.zeroed.len : ℤ) = (N : ℤ)) = true := by
    by_cases h1 : b.zeroed.len = 1
    · exact Or.inl (by simp [h1])
    · right
      have : b.zeroed.len = N := by omega
      rw [decide_eq_true_eq]
      exact ⟨h1, by exact_mod_cast this⟩
  have hval : ∀ f : Py Vec, f = (match b.zeroed.div d with
      | .scalar x => .ok fun _ => x
      | .vec v => assign1 N v
      | .mat v => if v.r = 1 then assign1 N ⟨v.c, v.get 0⟩ else .error .shapeError) →
      ∃ w, f = .ok w ∧ ∀ i < N, w i = x / d := by
    rintro f rfl
    by_cases hz : b.AllZero
    · rw [BCv.zeroed, if_pos hz]
      refine ⟨_, rfl, fun i _ => ?_⟩
      rw [(h.allZero hN).1 hz]
    · rw [BCv.zeroed, if_neg hz]
      cases b with
      | scalar y => exact ⟨_, rfl, fun i _ => congrArg (· / d) h⟩
      | vec v => exact assign1_const (v := v.map fun x => x / d) h.1 hN fun i hi => congrArg (· / d) (h.2 i hi)
      | mat v =>
        obtain ⟨h0, h1, h2⟩ := h
        simp only [BCv.div, A2.map]
        rw [if_pos h0]
        exact assign1_const (v := ⟨v.c, fun j => v.get 0 j / d⟩) h1 hN fun i hi => congrArg (· / d) (h2 i hi)
  unfold Pydisort.bcMode
  by_cases hm : m = 0
  · subst hm
    simp only [and_true, if_true]
    split_ifs with h1 h2
    · exact hval _ rfl
    · exact hval _ rfl
    · rename_i h3; exact absurd rfl h3.2
    · exact absurd hflag (by simp only [not_or]; exact ⟨h1, h2⟩)
  · rw [if_neg (fun h => hm h.2), if_neg (fun h => hm h.2), if_pos ⟨hflag, hm⟩]
    exact ⟨_, rfl, fun i _ => by rw [if_neg hm]⟩

end

/-- **C32.** Boundary values that are equal for all streams can be given as a scalar or as a constant vector: if the call
with one form returns, so does the call with the other, and all returned functions are the same. -/
theorem C32_scalar_or_vector {E : Ext} {J : Junk} (J' : Junk) {a : Args} {R : Solved} {x y : ℝ} {bp bn : BCv}
    (hp : Uniform (nHalf a) x a.bpos) (hp' : Uniform (nHalf a) x bp) (hn : Uniform (nHalf a) y a.bneg)
    (hn' : Uniform (nHalf a) y bn) (h : pydisort E J a = .ok R) :
    ∃ R', pydisort E J' { a with bpos := bp, bneg := bn } = .ok R' ∧ SameResults R R' := by
  have hacc := (pydisort_ok h).1
  have hN : 0 < nHalf a := by have := hacc.streams.1; unfold nHalf; omega
  have hF : 0 < Spec.nFourier a := by
    rw [← nFourier_eq]; unfold Args.nFourier
    split_ifs with ho
    · exact one_pos
    · have := (hacc.modes (by simpa using ho)).1; omega
  have hhalf : a.halfN = ((nHalf a : ℕ) : ℤ) := by
    have := hacc.streams.1
    unfold Args.halfN nHalf; omega
  have hacc' : Accepted { a with bpos := bp, bneg := bn } := { hacc with bottom := hp'.shape, topBC := hn'.shape }
  have hmax : ∀ O, Args.rescaleFactor { a with bpos := bp, bneg := bn } O = a.rescaleFactor O := by
    intro O
    have e1 : a.bpos'.max = .ok x := hp.max hN
    have e2 : a.bneg'.max = .ok y := hn.max hN
    have e3 : (Args.bpos' { a with bpos := bp, bneg := bn }).max = .ok x := hp'.max hN
    have e4 : (Args.bneg' { a with bpos := bp, bneg := bn }).max = .ok y := hn'.max hN
    unfold Args.rescaleFactor
    rw [e1, e2, e3, e4]
    rfl
  have hbc : ∀ {z : ℝ} {b b' : BCv}, Uniform (nHalf a) z b → Uniform (nHalf a) z b' → ∀ (d : ℝ) (m : ℕ) v,
      bcMode (nHalf a) m (decide (b.zeroed.len = 1)) (decide (¬ b.zeroed.len = 1 ∧ (b.zeroed.len : ℤ) = a.halfN))
        (b.zeroed.div d) = .ok v →
      ∃ v', bcMode (nHalf a) m (decide (b'.zeroed.len = 1)) (decide (¬ b'.zeroed.len = 1 ∧ (b'.zeroed.len : ℤ) = a.halfN))
        (b'.zeroed.div d) = .ok v' ∧ ∀ i < nHalf a, v' i = v i := by
    intro z b b' hb hb' d m v hv
    rw [hhalf] at hv ⊢
    obtain ⟨w, h1, h2⟩ := hb.bcMode (d := d) hN m
    obtain ⟨w', h1', h2'⟩ := hb'.bcMode (d := d) hN m
    rw [h1] at hv; cases hv
    exact ⟨w', h1', fun i hi => (h2' i hi).trans (h2 i hi).symm⟩
  obtain ⟨R', d, h1, h2, h3, h4, h5⟩ := call_transfer (a' := { a with bpos := bp, bneg := bn }) (J' := J')
    (F := Spec.nFourier a)
    (D := fun d => ⟨a.bdrf, bp.zeroed.div d, bn.zeroed.div d, decide (bp.zeroed.len = 1), decide (bn.zeroed.len = 1),
      decide (¬ bp.zeroed.len = 1 ∧ (bp.zeroed.len : ℤ) = a.halfN), decide (¬ bn.zeroed.len = 1 ∧ (bn.zeroed.len : ℤ) = a.halfN),
      decide ((a.NLayers : ℤ) ≥ a.useBanded)⟩) h hacc' rfl rfl hmax
    (fun mu W O r => by
      rw [← nFourier_eq]
      rfl) hF le_rfl
    (fun O r out out' m _ => by
      have hr := CoefIn.AgreeBC.refl' (c := (a.asm E O r).coefIn out) (c' := (a.asm E O r).coefIn out') (m := m)
        rfl rfl rfl rfl rfl rfl rfl rfl rfl rfl rfl rfl rfl
      exact ⟨hr.R, hr.X, fun v hv => hbc hp hp' _ m v hv, fun v hv => hbc hn hn' _ m v hv⟩)
  obtain ⟨_, O, r, _, _, hI, _, ho, _⟩ := pydisort_ok h
  have hF' : R.I.NFourier = Spec.nFourier a := by rw [hI, ← nFourier_eq]; rfl
  rw [← hF'] at h2 h3 hF
  refine ⟨R', h1, sameResults_of ?_ ?_ hF h2 h3 (h4.trans ho.symm) (h5 Iff.rfl fun _ _ _ => rfl)⟩
  · rw [hI]; exact hN
  · rw [hI]; exact hacc.layers

/-- C32 applies to a scalar at the bottom and a vector at the top, for every number of streams. -/
example (n : ℕ) (hn : 0 < n) (J : Junk) : ∃ (a : Args) (R : Solved), nHalf a = n ∧ Uniform (nHalf a) 1 a.bpos ∧
    Uniform (nHalf a) 1 a.bneg ∧ Uniform (nHalf a) 1 (.vec ⟨n, fun _ => 1⟩) ∧ pydisort refExt J a = .ok R := by
  obtain ⟨x, R, h, -⟩ := demo_call hn J
  exact ⟨_, R, demo_nHalf x, rfl, ⟨Or.inr (demo_nHalf x).symm, fun _ _ => rfl⟩, ⟨Or.inr (demo_nHalf x).symm, fun _ _ => rfl⟩, h⟩

/-- **C31**, the part that holds: with two streams and one Fourier mode the two-dimensional array is a single number, and
the call behaves as with that number. -/
theorem C31_single_entry_partial {E : Ext} {J : Junk} (J' : Junk) {a : Args} {R : Solved} {x y : ℝ} {v w : A2 ℝ}
    (h1 : nHalf a = 1) (hv : v.r = 1 ∧ v.c = 1) (hw : w.r = 1 ∧ w.c = 1) (hp : a.bpos = .scalar (v.get 0 0))
    (hn : a.bneg = .scalar (w.get 0 0)) (h : pydisort E J a = .ok R) :
    ∃ R', pydisort E J' { a with bpos := .mat v, bneg := .mat w } = .ok R' ∧ SameResults R R' := by
  refine C32_scalar_or_vector J' (x := v.get 0 0) (y := w.get 0 0) (by rw [hp]; exact rfl) ⟨hv.1, Or.inl hv.2, ?_⟩ (by rw [hn]; exact rfl)
    ⟨hw.1, Or.inl hw.2, ?_⟩ h
  · intro j hj; rw [hv.2] at hj; obtain rfl : j = 0 := by omega
    rfl
  · intro j hj; rw [hw.2] at hj; obtain rfl : j = 0 := by omega
    rfl

/-! ### C33 -/

theorem agreeBC_of_modes {c c' : CoefIn} {m : ℕ}
    (h : (c.bdrf[m]? = none ∧ c'.bdrf[m]? = none) ∨ ∃ M M' rho, c.bdrf[m]? = some M ∧ c'.bdrf[m]? = some M' ∧
      Represents M rho ∧ Represents M' rho)
    (h1 : c'.N = c.N) (h2 : c'.mu = c.mu) (h3 : c'.muW = c.muW) (h4 : c'.mu0 = c.mu0) (h5 : c'.I0div4pi = c.I0div4pi)
    (h6 : c'.beam = c.beam)
    (hp : ∀ v, bcMode c.N m c.bposScalar c.bposVector c.bpos = .ok v →
      ∃ v', bcMode c'.N m c'.bposScalar c'.bposVector c'.bpos = .ok v' ∧ ∀ i < c.N, v' i = v i)
    (hn : ∀ v, bcMode c.N m c.bnegScalar c.bnegVector c.bneg = .ok v →
      ∃ v', bcMode c'.N m c'.bnegScalar c'.bnegVector c'.bneg = .ok v' ∧ ∀ i < c.N, v' i = v i) :
    CoefIn.AgreeBC c c' m := by
  rcases h with ⟨e1, e2⟩ | ⟨M, M', rho, e1, e2, r1, r2⟩
  · have hd : ∀ M, c'.bdrf[m]? = some M → ∃ rho, Represents M rho := fun M hM => by rw [e2] at hM; cases hM
    refine ⟨fun Q hQ => ?_, fun X hX => ?_, hp, hn⟩
    · obtain ⟨Q', hQ'⟩ := coefR_isOk hd
      refine ⟨Q', hQ', ?_⟩
      rw [coefR_none e1 hQ, coefR_none e2 hQ']
      exact trivial
    · obtain ⟨X', hX'⟩ := coefX_isOk hd
      refine ⟨X', hX', fun _ Q hQ => ?_⟩
      have := coefR_none e1 hQ
      cases this
  · have hd : ∀ M, c'.bdrf[m]? = some M → ∃ rho, Represents M rho := fun M hM => by
      rw [e2] at hM; cases hM; exact ⟨rho, r2⟩
    refine ⟨fun Q hQ => ?_, fun X hX => ?_, hp, hn⟩
    · obtain ⟨Q', hQ'⟩ := coefR_isOk hd
      refine ⟨Q', hQ', ?_⟩
      obtain ⟨A, rfl⟩ := coefR_some e1 hQ
      obtain ⟨A', rfl⟩ := coefR_some e2 hQ'
      intro i hi j hj
      rw [coefR_spec e1 r1 hQ hi hj, coefR_spec e2 r2 hQ' (h1 ▸ hi) (h1 ▸ hj), h2, h3]
    · obtain ⟨X', hX'⟩ := coefX_isOk hd
      refine ⟨X', hX', fun hb Q hQ i hi => ?_⟩
      rw [coefX_spec e1 r1 hb hX hi, coefX_spec e2 r2 (h6.trans hb) hX' (h1 ▸ hi), h2, h4, h5]

/-- **C33.** A BDRF mode can be given as a number or as a function returning an array filled with it — more generally in
any two forms that represent the same function: if the call with one form returns, so does the call with the other, and
all returned functions are the same. -/
theorem C33_scalar_or_function {E : Ext} {J : Junk} (J' : Junk) {a : Args} {R : Solved} {modes : List BDRFMode}
    (hm : List.Forall₂ (fun M M' => ∃ rho, Represents M rho ∧ Represents M' rho) a.bdrf modes)
    (h : pydisort E J a = .ok R) :
    ∃ R', pydisort E J' { a with bdrf := modes } = .ok R' ∧ SameResults R R' := by
  have hacc := (pydisort_ok h).1
  have hN : 0 < nHalf a := by have := hacc.streams.1; unfold nHalf; omega
  have hF : 0 < Spec.nFourier a := by
    rw [← nFourier_eq]; unfold Args.nFourier
    split_ifs with ho
    · exact one_pos
    · have := (hacc.modes (by simpa using ho)).1; omega
  have hacc' : Accepted { a with bdrf := modes } := { hacc with }
  have hget : ∀ m : ℕ, (a.bdrf[m]? = none ∧ modes[m]? = none) ∨ ∃ M M' rho, a.bdrf[m]? = some M ∧ modes[m]? = some M' ∧
      Represents M rho ∧ Represents M' rho := by
    have : ∀ {l l' : List BDRFMode}, List.Forall₂ (fun M M' => ∃ rho, Represents M rho ∧ Represents M' rho) l l' → ∀ m : ℕ,
      (l[m]? = none ∧ l'[m]? = none) ∨ ∃ M M' rho, l[m]? = some M ∧ l'[m]? = some M' ∧ Represents M rho ∧ Represents M' rho := by
      intro l l' hl
      induction hl with
      | nil => intro m; exact Or.inl ⟨rfl, rfl⟩
      | cons h0 _ ih =>
        intro m
        cases m with
        | zero => obtain ⟨rho, h1, h2⟩ := h0; exact Or.inr ⟨_, _, rho, rfl, rfl, h1, h2⟩
        | succ m => exact ih m
    exact this hm
  obtain ⟨R', d, h1, h2, h3, h4, h5⟩ := call_transfer (a' := { a with bdrf := modes }) (J' := J')
    (F := Spec.nFourier a)
    (D := fun d => ⟨modes, a.bpos'.div d, a.bneg'.div d, _, _, _, _, _⟩) h hacc' rfl rfl (fun _ => rfl)
    (fun mu W O r => by
      rw [← nFourier_eq]
      rfl) hF le_rfl
    (fun O r out out' m _ => by
      have hr := CoefIn.AgreeBC.refl' (c := (a.asm E O r).coefIn out) (c' := (a.asm E O r).coefIn out') (m := m)
        rfl rfl rfl rfl rfl rfl rfl rfl rfl rfl rfl rfl rfl
      exact agreeBC_of_modes (hget m) rfl rfl rfl rfl rfl rfl hr.bpos hr.bneg)
  obtain ⟨_, O, r, _, _, hI, _, ho, _⟩ := pydisort_ok h
  have hF' : R.I.NFourier = Spec.nFourier a := by rw [hI, ← nFourier_eq]; rfl
  rw [← hF'] at h2 h3 hF
  refine ⟨R', h1, sameResults_of ?_ ?_ hF h2 h3 (h4.trans ho.symm) (h5 Iff.rfl fun _ _ _ => rfl)⟩
  · rw [hI]; exact hN
  · rw [hI]; exact hacc.layers

/-- The function that returns an array filled with `c` represents the same reflectance as the number `c`. -/
theorem represents_const (c : ℝ) : Represents (.scalar c) (fun _ _ => c) ∧
    Represents (.func fun x y => .arr ⟨x.n, y.n, fun _ _ => c⟩) (fun _ _ => c) :=
  ⟨fun _ _ => rfl, fun _ _ => ⟨_, rfl, rfl, rfl, fun _ _ _ _ => rfl⟩⟩

/-- C33 applies to a Lambertian surface, with a beam. -/
example (n : ℕ) (hn : 0 < n) (J : Junk) : ∃ (a : Args) (R : Solved) (modes : List BDRFMode), nHalf a = n ∧ 0 < a.I0 ∧
    pydisort refExt J a = .ok R ∧ a.bdrf ≠ modes ∧
    List.Forall₂ (fun M M' => ∃ rho, Represents M rho ∧ Represents M' rho) a.bdrf modes := by
  obtain ⟨x, R, h, -⟩ := demo_call hn J
  refine ⟨_, R, [.func fun x y => .arr ⟨x.n, y.n, fun _ _ => 1 / 3⟩], demo_nHalf x, by simp [demo], h, by simp [demo], ?_⟩
  exact .cons ⟨_, represents_const (1 / 3)⟩ .nil

end Pydisort

import Verif.Subroutines.MathscrArr
import Verif.Model.MathscrV
import Verif.NumPyLemmas
import Verif.Spec.Same
import Verif.Spec.Problem
import Verif.MathscrLemmas
import Verif.Stability
import Mathlib.Data.List.GetD

/-! Helper lemmas: the array program of `_mathscr_v` gives the entries of the pointwise model. -/

namespace Pydisort
open Finset Spec

theorem npCumprod_const (x : ℝ) (i : ℕ) : npCumprod (fun _ => x) i = x ^ (i + 1) := by simp [npCumprod]

theorem npCumprod64_fac (i : ℕ) : npCumprod64 (fun j => 1 + (j : ℤ)) i = wrap64 ((i + 1).factorial : ℤ) := by
  induction i with
  | zero => simp [npCumprod64, wrap64]
  | succ i ih =>
    rw [npCumprod64, ih]
    unfold wrap64
    rw [Int.bmod_mul_bmod]
    congr 1
    rw [Nat.factorial_succ (i + 1)]
    push_cast; ring

theorem facArr_eq (junk : Vec) {Nc i : ℕ} (hi : i < Nc) : facArr junk Nc i = fac64 i := by
  have f0 : fac64 0 = 1 := by rw [fac64_eq (Nat.zero_le _)]; simp
  unfold facArr
  rcases i with _ | i
  · split_ifs <;> simp [setSlice, f0]
  · rw [if_pos (by omega)]
    simp only [setSlice]
    rw [if_pos ⟨by omega, hi⟩, Nat.add_sub_cancel, npCumprod64_fac]
    rfl

theorem ok_bind {α β : Type} (x : α) (f : α → Py β) : ((Except.ok x : Py α) >>= f) = f x := rfl

theorem take0_eq {NL Q n : ℕ} {G : ℕ → ℕ → ℕ → ℝ} {l : A1 ℕ} (hl : ∀ t < l.n, l.get t < NL) :
    (A3.mk NL Q n G).take0 l = .ok ⟨l.n, Q, n, fun t i j => G (l.get t) i j⟩ :=
  if_neg (by rintro ⟨t, ht, h⟩; exact absurd (hl t ht) (not_lt.mpr h))

theorem takeRows_eq {NL n : ℕ} {K : ℕ → ℕ → ℝ} {l : A1 ℕ} (hl : ∀ t < l.n, l.get t < NL) :
    (A2.mk NL n K).takeRows l = .ok ⟨l.n, n, fun t j => K (l.get t) j⟩ :=
  if_neg (by rintro ⟨t, ht, h⟩; exact absurd (hl t ht) (not_lt.mpr h))

theorem takeCols_eq {NL n : ℕ} {K : ℕ → ℕ → ℝ} {l : A1 ℕ} (hl : ∀ t < l.n, l.get t < NL) :
    (A2.mk n NL K).takeCols l = .ok ⟨n, l.n, fun i t => K i (l.get t)⟩ :=
  if_neg (by rintro ⟨t, ht, h⟩; exact absurd (hl t ht) (not_lt.mpr h))

section
variable {NL Nc Q n : ℕ} {s : ℕ → ℕ → ℝ} {G : ℕ → ℕ → ℕ → ℝ} {K g : ℕ → ℕ → ℝ} {tau : A1 ℝ} {l : A1 ℕ}

theorem mathscrArr1_false (hl : l.n = tau.n) (hl' : ∀ t < l.n, l.get t < NL) (sc : A1 ℝ) :
    Returns2 (mathscrArr1 tau sc l ⟨NL, 1, s⟩ ⟨NL, Q, n, G⟩ ⟨NL, n, K⟩ ⟨NL, n, g⟩ false) Q tau.n
      (fun q t => mathscrV n 1 (s (l.get t)) (G (l.get t)) (K (l.get t)) (g (l.get t)) (tau.get t) q) := by
  unfold mathscrArr1
  simp only [A2.cols, A2.bin, A2.map, A1.map, A1.row, bdim_self, bdim_one_left, bdim_one_right, ok_bind, einsumLijLj, pure, Except.pure,
    Nat.min_self, Nat.zero_min, Nat.sub_zero, takeCols_eq hl', hl, Bool.false_eq_true, if_false]
  refine ⟨_, rfl, rfl, rfl, ?_⟩
  intro q hq t ht
  have hlt := hl' t (by omega)
  simp only [bix_of_lt hq, bix_of_lt ht, bix_of_lt hlt, bix_one, mathscrV, if_true]
  congr 1
  refine sum_congr rfl fun k hk => ?_
  rw [mem_range] at hk
  simp only [bix_of_lt hk, bix_of_lt hlt, Nat.zero_add]

theorem mathscrArr2_false (hl : l.n = tau.n) (hl' : ∀ t < l.n, l.get t < NL) (sc : A1 ℝ) :
    Returns2 (mathscrArr2 tau sc l ⟨NL, 2, s⟩ ⟨NL, Q, n, G⟩ ⟨NL, n, K⟩ ⟨NL, n, g⟩ false) Q tau.n
      (fun q t => mathscrV n 2 (s (l.get t)) (G (l.get t)) (K (l.get t)) (g (l.get t)) (tau.get t) q) := by
  unfold mathscrArr2
  simp only [A2.cols, A2.bin, A2.map, A1.map, A1.row, bdim_self, bdim_one_left, bdim_one_right, ok_bind, einsumLijLj, pure, Except.pure,
    Nat.min_self, Nat.zero_min, Nat.sub_zero, takeCols_eq hl', hl, Bool.false_eq_true, if_false, show min 1 2 = 1 from rfl,
    show 2 - 1 = 1 from rfl]
  refine ⟨_, rfl, rfl, rfl, ?_⟩
  intro q hq t ht
  have hlt := hl' t (by omega)
  simp only [bix_of_lt hq, bix_of_lt ht, bix_of_lt hlt, bix_one, mathscrV, if_true, show ¬ (2 = 1) by decide, if_false]
  congr 2 <;>
  · refine sum_congr rfl fun k hk => ?_
    rw [mem_range] at hk
    simp only [bix_of_lt hk, bix_of_lt hlt, Nat.zero_add, Nat.add_zero]

theorem takeAxis1_eq {r c : ℕ} {A : ℕ → ℕ → ℝ} :
    (A2.mk r c A).takeAxis1 c c (fun i p => (i : ℤ) - p) = .ok ⟨r, c, c, fun l i p => match pyIndex c ((i : ℤ) - p) with
      | .ok j => A l j
      | .error _ => 0⟩ := by
  unfold A2.takeAxis1
  refine if_neg ?_
  rintro ⟨i, hi, p, hp, e, he⟩
  unfold pyIndex at he
  dsimp only at he
  split_ifs at he
  omega

theorem pyIndex_sub {c i p : ℕ} (hi : i < c) (hp : p ≤ i) : pyIndex c ((i : ℤ) - p) = .ok (i - p) := by
  unfold pyIndex
  split_ifs <;> first | omega | (congr 1; omega)

theorem bSigma_array {l k i : ℕ} (junk : Vec) (hl : l < NL) (hi : i < Nc) :
    (∑ p ∈ range Nc, (1 / K l k) ^ (p + 1) *
      (if (i : ℤ) - (p : ℤ) ≥ 0 then match pyIndex Nc ((i : ℤ) - p) with
        | .ok j => s l (Nc - 1 - j) * facArr junk Nc (Nc - 1 - j)
        | .error _ => 0 else 0)) * (1 / facArr junk Nc (Nc - 1 - i)) = bSigma Nc (s l) (K l) k i := by
  unfold bSigma
  rw [facArr_eq junk (show Nc - 1 - i < Nc by omega)]
  congr 1
  refine sum_congr rfl fun p _ => ?_
  congr 1
  by_cases hpi : p ≤ i
  · rw [if_pos (by omega), if_pos hpi, pyIndex_sub hi hpi]
    simp only
    rw [facArr_eq junk (by omega)]
  · rw [if_neg (by omega), if_neg hpi]

theorem mathscrArrN_false (junk : Vec) (hl : l.n = tau.n) (hl' : ∀ t < l.n, l.get t < NL) (sc : A1 ℝ) (h1 : Nc ≠ 1) (h2 : Nc ≠ 2) :
    Returns2 (mathscrArrN junk tau sc l Nc ⟨NL, Nc, s⟩ ⟨NL, Q, n, G⟩ ⟨NL, n, K⟩ ⟨NL, n, g⟩ false) Q tau.n
      (fun q t => mathscrV n Nc (s (l.get t)) (G (l.get t)) (K (l.get t)) (g (l.get t)) (tau.get t) q) := by
  unfold mathscrArrN
  simp only [A2.bin, A1.map, A1.row, bdim_self, bdim_one_left, bdim_one_right, ok_bind, einsumLkpLip, einsumLqkPlk, einsumTqpTp, pure, Except.pure,
    takeAxis1_eq, take0_eq hl', hl, Bool.false_eq_true, if_false]
  refine ⟨_, rfl, rfl, rfl, ?_⟩
  intro q hq t ht
  have hlt := hl' t (by omega)
  simp only [mathscrV, h1, h2, if_false]
  refine sum_congr rfl fun i hi => ?_
  rw [mem_range] at hi
  simp only [bix_of_lt hq, bix_of_lt ht, bix_of_lt hlt, bix_of_lt hi]
  congr 1
  refine sum_congr rfl fun k hk => ?_
  rw [mem_range] at hk
  simp only [bix_of_lt hk, bix_of_lt hlt]
  congr 2
  rw [← bSigma_array (K := K) (k := k) junk hlt hi]
  congr 1
  refine sum_congr rfl fun p hp => ?_
  rw [mem_range] at hp
  simp only [bix_of_lt hp, npCumprod_const]
  congr 1
  by_cases hpi : p ≤ i
  · rw [if_pos (by omega), if_pos (by omega), pyIndex_sub hi hpi]
    simp only [bix_of_lt hlt, bix_of_lt (show i - p < Nc by omega)]
  · rw [if_neg (by omega), if_neg (by omega)]

theorem bin_mk {r c : ℕ} {A B : ℕ → ℕ → ℝ} (f : ℝ → ℝ → ℝ) : A2.bin f ⟨r, c, A⟩ ⟨r, c, B⟩
    = .ok ⟨r, c, fun i j => f (A (bix r i) (bix c j)) (B (bix r i) (bix c j))⟩ := by
  simp only [A2.bin, bdim_self, ok_bind, pure, Except.pure]

theorem bin_mk_col {r c : ℕ} {A B : ℕ → ℕ → ℝ} (f : ℝ → ℝ → ℝ) : A2.bin f ⟨r, 1, A⟩ ⟨r, c, B⟩
    = .ok ⟨r, c, fun i j => f (A (bix r i) 0) (B (bix r i) (bix c j))⟩ := by
  simp only [A2.bin, bdim_self, bdim_one_left, ok_bind, pure, Except.pure, bix_one]

theorem bin_mk_row {r c : ℕ} {A B : ℕ → ℕ → ℝ} (f : ℝ → ℝ → ℝ) : A2.bin f ⟨r, c, A⟩ ⟨1, c, B⟩
    = .ok ⟨r, c, fun i j => f (A (bix r i) (bix c j)) (B 0 (bix c j))⟩ := by
  simp only [A2.bin, bdim_self, bdim_one_right, ok_bind, pure, Except.pure, bix_one]

theorem bin_sameOutcome {A B C : A2 ℝ} (f : ℝ → ℝ → ℝ) (h : A2.Same A B) : SameOutcome A2.Same (A2.bin f A C) (A2.bin f B C) := by
  obtain ⟨h1, h2, h3⟩ := h
  unfold A2.bin
  rw [← h1, ← h2]
  rcases hr : bdim A.r C.r with e | r
  · rfl
  rcases hc : bdim A.c C.c with e | c
  · rfl
  refine ⟨rfl, rfl, fun i hi j hj => ?_⟩
  dsimp only at hi hj ⊢
  rw [h3 _ (bix_lt hr hi) _ (bix_lt hc hj)]

theorem mathscrArr1_true (hl : l.n = tau.n) (hl' : ∀ t < l.n, l.get t < NL) (sc : A1 ℝ) :
    SameOutcome A2.Same (mathscrArr1 tau sc l ⟨NL, 1, s⟩ ⟨NL, Q, n, G⟩ ⟨NL, n, K⟩ ⟨NL, n, g⟩ true)
      (mathscrVAnti n 1 Q tau sc l s G K g) := by
  unfold mathscrArr1 mathscrVAnti
  simp only [A2.cols, A2.map, if_true, Nat.min_self, Nat.zero_min, Nat.sub_zero]
  rcases A1.bin (fun a b => a / b) tau sc with e | p0
  · simp only [A2.bin, bdim_self, bdim_one_left, ok_bind, einsumLijLj, pure, Except.pure]
    rfl
  · simp only [bin_mk, bin_mk_col, bdim_self, ok_bind, einsumLijLj, pure, Except.pure, takeCols_eq hl']
    refine bin_sameOutcome _ ⟨rfl, rfl, fun q hq t ht => ?_⟩
    have hlt := hl' t ht
    dsimp only
    refine sum_congr rfl fun k hk => ?_
    rw [mem_range] at hk
    simp only [bix_of_lt hk, bix_of_lt hlt, Nat.zero_add, bix_one]

theorem mathscrArr2_true (hl : l.n = tau.n) (hl' : ∀ t < l.n, l.get t < NL) (sc : A1 ℝ) :
    SameOutcome A2.Same (mathscrArr2 tau sc l ⟨NL, 2, s⟩ ⟨NL, Q, n, G⟩ ⟨NL, n, K⟩ ⟨NL, n, g⟩ true)
      (mathscrVAnti n 2 Q tau sc l s G K g) := by
  have e : ∃ z, A2.Same z ⟨Q, l.n, fun q t =>
        (∑ k ∈ range n, G (l.get t) q k * (s (l.get t) 1 * (1 / K (l.get t) k) * g (l.get t) k))
            * (tau.get t * tau.get t / 2)
          + (∑ k ∈ range n, G (l.get t) q k * ((s (l.get t) 0 * (1 / K (l.get t) k)
              + s (l.get t) 1 * ((1 / K (l.get t) k) * (1 / K (l.get t) k))) * g (l.get t) k)) * tau.get t⟩ ∧
      mathscrArr2 tau sc l ⟨NL, 2, s⟩ ⟨NL, Q, n, G⟩ ⟨NL, n, K⟩ ⟨NL, n, g⟩ true = A2.bin (fun a b => a / b) z sc.row := by
    unfold mathscrArr2
    simp only [if_true]
    generalize sc.row = w
    simp only [A2.cols, bin_mk, bin_mk_col, bin_mk_row, A2.map, A1.map, A1.row, bdim_self,
      bdim_one_left, bdim_one_right, ok_bind, einsumLijLj, pure, Except.pure,
      Nat.min_self, Nat.zero_min, Nat.sub_zero, takeCols_eq hl', hl, show min 1 2 = 1 from rfl, show 2 - 1 = 1 from rfl]
    refine ⟨_, ?_, rfl⟩
    refine ⟨rfl, rfl, ?_⟩
    intro q hq t ht
    dsimp only at hq ht ⊢
    have hlt := hl' t (by omega)
    simp only [bix_of_lt hq, bix_of_lt ht, bix_of_lt hlt, bix_one]
    congr 2 <;>
    · refine sum_congr rfl fun k hk => ?_
      rw [mem_range] at hk
      simp only [bix_of_lt hk, bix_of_lt hlt, Nat.zero_add, Nat.add_zero]
  obtain ⟨z, hz, e⟩ := e
  rw [e]
  exact bin_sameOutcome _ hz

theorem mathscrArrN_true (junk : Vec) (hl : l.n = tau.n) (hl' : ∀ t < l.n, l.get t < NL) (sc : A1 ℝ) (h1 : Nc ≠ 1) (h2 : Nc ≠ 2) :
    SameOutcome A2.Same (mathscrArrN junk tau sc l Nc ⟨NL, Nc, s⟩ ⟨NL, Q, n, G⟩ ⟨NL, n, K⟩ ⟨NL, n, g⟩ true)
      (mathscrVAnti n Nc Q tau sc l s G K g) := by
  unfold mathscrArrN mathscrVAnti
  simp only [h1, h2, if_true, if_false]
  rcases hd : A1.bin (fun a b => a * b) (⟨Nc, fun i => ((Nc - 1 - i + 1 : ℕ) : ℝ)⟩ : A1 ℝ) sc with e | den
  · simp only [A2.bin, A1.map, A1.row, bdim_self, bdim_one_left, bdim_one_right, ok_bind, einsumLkpLip, einsumLqkPlk, pure, Except.pure,
      takeAxis1_eq]
    rfl
  have hden : den.n = Nc := by
    unfold A1.bin at hd
    rcases hb : bdim Nc sc.n with e | m
    · rw [hb] at hd; cases hd
    · rw [hb] at hd
      simp only [ok_bind, pure, Except.pure, Except.ok.injEq] at hd
      rw [← hd]
      rcases bdim_eq_ok.1 hb with ⟨_, h⟩ | ⟨h, _⟩ | ⟨_, h⟩
      · exact h
      · exact absurd h h1
      · exact h
  simp only [A2.bin, A1.map, A1.row, bdim_self, bdim_one_left, bdim_one_right, ok_bind, einsumLkpLip, einsumLqkPlk, einsumTqpTp, pure, Except.pure,
      takeAxis1_eq, take0_eq hl', hl, hden]
  refine ⟨rfl, rfl, ?_⟩
  intro q hq t ht
  dsimp only at hq ht ⊢
  have hlt := hl' t (by omega)
  refine sum_congr rfl fun i hi => ?_
  rw [mem_range] at hi
  simp only [bix_of_lt hq, bix_of_lt ht, bix_of_lt hlt, bix_of_lt hi]
  congr 1
  refine sum_congr rfl fun k hk => ?_
  rw [mem_range] at hk
  simp only [bix_of_lt hk, bix_of_lt hlt]
  congr 2
  rw [← bSigma_array (K := K) (k := k) junk hlt hi]
  congr 1
  refine sum_congr rfl fun p hp => ?_
  rw [mem_range] at hp
  simp only [bix_of_lt hp, npCumprod_const]
  congr 1
  by_cases hpi : p ≤ i
  · rw [if_pos (by omega), if_pos (by omega), pyIndex_sub hi hpi]
    simp only [bix_of_lt hlt, bix_of_lt (show i - p < Nc by omega)]
  · rw [if_neg (by omega), if_neg (by omega)]

/-! ### `np.unique` -/

theorem npUnique_mem (l : A1 ℕ) {t : ℕ} (ht : t < l.n) : l.get t ∈ ((range l.n).image l.get).sort (fun a b => a ≤ b) := by
  rw [Finset.mem_sort]
  exact mem_image_of_mem _ (mem_range.mpr ht)

theorem npUnique_inv_lt (l : A1 ℕ) {t : ℕ} (ht : t < l.n) : (npUnique l).2.get t < (npUnique l).1.n := by
  change List.idxOf _ _ < List.length _
  exact List.idxOf_lt_length_of_mem (npUnique_mem l ht)

theorem npUnique_inv (l : A1 ℕ) {t : ℕ} (ht : t < l.n) : (npUnique l).1.get ((npUnique l).2.get t) = l.get t := by
  have h : List.idxOf (l.get t) (((range l.n).image l.get).sort (fun a b => a ≤ b)) < _ := npUnique_inv_lt l ht
  change List.getD _ (List.idxOf _ _) 0 = _
  rw [List.getD_eq_getElem _ _ h]
  exact List.getElem_idxOf h

theorem npUnique_lt {l : A1 ℕ} {NL : ℕ} (hl : ∀ t < l.n, l.get t < NL) : ∀ i < (npUnique l).1.n, (npUnique l).1.get i < NL := by
  intro i hi
  have e : (npUnique l).1.get i ∈ ((range l.n).image l.get).sort (fun a b => a ≤ b) := by
    change List.getD _ i 0 ∈ _
    rw [List.getD_eq_getElem _ _ hi]
    exact List.getElem_mem _
  rw [Finset.mem_sort, mem_image] at e
  obtain ⟨t, ht, e⟩ := e
  rw [← e]
  exact hl t (mem_range.mp ht)

/-! ### The program -/

theorem mathscrArr_false (junk : Vec) (hl : l.n = tau.n) (hl' : ∀ t < l.n, l.get t < NL) (sc : A1 ℝ) :
    Returns2 (mathscrArr junk tau sc l Nc ⟨NL, Nc, s⟩ ⟨NL, Q, n, G⟩ ⟨NL, n, K⟩ ⟨NL, n, g⟩ false) Q tau.n
      (fun q t => mathscrV n Nc (s (l.get t)) (G (l.get t)) (K (l.get t)) (g (l.get t)) (tau.get t) q) := by
  unfold mathscrArr
  split_ifs with h1 h2
  · subst h1; exact mathscrArr1_false hl hl' sc
  · subst h2; exact mathscrArr2_false hl hl' sc
  · exact mathscrArrN_false junk hl hl' sc h1 h2

theorem mathscrArr_true (junk : Vec) (hl : l.n = tau.n) (hl' : ∀ t < l.n, l.get t < NL) (sc : A1 ℝ) :
    SameOutcome A2.Same (mathscrArr junk tau sc l Nc ⟨NL, Nc, s⟩ ⟨NL, Q, n, G⟩ ⟨NL, n, K⟩ ⟨NL, n, g⟩ true)
      (mathscrVAnti n Nc Q tau sc l s G K g) := by
  unfold mathscrArr
  split_ifs with h1 h2
  · subst h1; exact mathscrArr1_true hl hl' sc
  · subst h2; exact mathscrArr2_true hl hl' sc
  · exact mathscrArrN_true junk hl hl' sc h1 h2

theorem mathscrVAnti_reindex {l₂ : A1 ℕ} {s₂ : Mat} {G₂ : ℕ → Mat} {K₂ g₂ : ℕ → Vec} (hl : l₂.n = l.n)
    (h : ∀ t < l.n, s₂ (l₂.get t) = s (l.get t) ∧ G₂ (l₂.get t) = G (l.get t) ∧ K₂ (l₂.get t) = K (l.get t) ∧ g₂ (l₂.get t) = g (l.get t))
    (sc : A1 ℝ) : SameOutcome A2.Same (mathscrVAnti n Nc Q tau sc l₂ s₂ G₂ K₂ g₂) (mathscrVAnti n Nc Q tau sc l s G K g) := by
  unfold mathscrVAnti
  split_ifs
  · rcases A1.bin (fun a b => a / b) tau sc with e | p0
    · rfl
    · refine bin_sameOutcome _ ⟨rfl, hl, fun q _ t ht => ?_⟩
      dsimp only at ht ⊢
      obtain ⟨e1, e2, e3, e4⟩ := h t (by omega)
      rw [e1, e2, e3, e4]
  · refine bin_sameOutcome _ ⟨rfl, hl, fun q _ t ht => ?_⟩
    dsimp only at ht ⊢
    obtain ⟨e1, e2, e3, e4⟩ := h t (by omega)
    rw [e1, e2, e3, e4]
  · rcases A1.bin (fun a b => a * b) (⟨Nc, fun i => ((Nc - 1 - i + 1 : ℕ) : ℝ)⟩ : A1 ℝ) sc with e | den
    · rfl
    simp only [ok_bind]
    rcases bdim Nc den.n with e | d
    · rfl
    refine ⟨rfl, hl, fun q _ t ht => ?_⟩
    dsimp only at ht ⊢
    obtain ⟨e1, e2, e3, e4⟩ := h t (by omega)
    rw [e1, e2, e3, e4]

theorem mathscrCall_eq (junk : Vec) (hl' : ∀ t < l.n, l.get t < NL) (sc : A1 ℝ) (anti : Bool) :
    mathscrCall junk tau sc l Nc ⟨NL, Nc, s⟩ ⟨NL, Q, n, G⟩ ⟨NL, n, K⟩ ⟨NL, n, g⟩ anti
      = mathscrArr junk tau sc (npUnique l).2 Nc ⟨(npUnique l).1.n, Nc, fun i => s ((npUnique l).1.get i)⟩
        ⟨(npUnique l).1.n, Q, n, fun i => G ((npUnique l).1.get i)⟩ ⟨(npUnique l).1.n, n, fun i => K ((npUnique l).1.get i)⟩
        ⟨(npUnique l).1.n, n, fun i => g ((npUnique l).1.get i)⟩ anti := by
  unfold mathscrCall
  rw [takeRows_eq (npUnique_lt hl'), take0_eq (npUnique_lt hl'), takeRows_eq (npUnique_lt hl'), takeRows_eq (npUnique_lt hl')]
  rfl

theorem mathscrCall_false (junk : Vec) (hl : l.n = tau.n) (hl' : ∀ t < l.n, l.get t < NL) (sc : A1 ℝ) :
    Returns2 (mathscrCall junk tau sc l Nc ⟨NL, Nc, s⟩ ⟨NL, Q, n, G⟩ ⟨NL, n, K⟩ ⟨NL, n, g⟩ false) Q tau.n
      (fun q t => mathscrV n Nc (s (l.get t)) (G (l.get t)) (K (l.get t)) (g (l.get t)) (tau.get t) q) := by
  rw [mathscrCall_eq junk hl']
  obtain ⟨A, h1, h2, h3, h4⟩ := mathscrArr_false (Nc := Nc) (Q := Q) (n := n) (s := fun i => s ((npUnique l).1.get i))
    (G := fun i => G ((npUnique l).1.get i)) (K := fun i => K ((npUnique l).1.get i)) (g := fun i => g ((npUnique l).1.get i))
    (tau := tau) (l := (npUnique l).2) junk hl (fun t ht => npUnique_inv_lt l ht) sc
  refine ⟨A, h1, h2, h3, fun q hq t ht => ?_⟩
  rw [h4 q hq t ht]
  dsimp only
  rw [npUnique_inv l (by omega)]

theorem SameOutcome.trans2 {x y z : Py (A2 ℝ)} (h : SameOutcome A2.Same x y) (h' : SameOutcome A2.Same y z) : SameOutcome A2.Same x z := by
  rcases x with e | x <;> rcases y with e' | y <;> rcases z with e'' | z <;> simp only [SameOutcome] at h h' ⊢
  · exact h.trans h'
  · obtain ⟨a1, a2, a3⟩ := h
    obtain ⟨b1, b2, b3⟩ := h'
    exact ⟨a1.trans b1, a2.trans b2, fun i hi j hj => (a3 i hi j hj).trans (b3 i (by omega) j (by omega))⟩

theorem mathscrCall_true (junk : Vec) (hl : l.n = tau.n) (hl' : ∀ t < l.n, l.get t < NL) (sc : A1 ℝ) :
    SameOutcome A2.Same (mathscrCall junk tau sc l Nc ⟨NL, Nc, s⟩ ⟨NL, Q, n, G⟩ ⟨NL, n, K⟩ ⟨NL, n, g⟩ true)
      (mathscrVAnti n Nc Q tau sc l s G K g) := by
  rw [mathscrCall_eq junk hl']
  have h1 := mathscrArr_true (NL := (npUnique l).1.n) (Nc := Nc) (Q := Q) (n := n) (s := fun i => s ((npUnique l).1.get i))
    (G := fun i => G ((npUnique l).1.get i)) (K := fun i => K ((npUnique l).1.get i)) (g := fun i => g ((npUnique l).1.get i))
    (tau := tau) (l := (npUnique l).2) junk hl (fun t ht => npUnique_inv_lt l ht) sc
  have h2 := mathscrVAnti_reindex (n := n) (Nc := Nc) (Q := Q) (tau := tau) (l := l) (l₂ := (npUnique l).2) (s := s) (G := G) (K := K) (g := g)
    (s₂ := fun i => s ((npUnique l).1.get i)) (G₂ := fun i => G ((npUnique l).1.get i)) (K₂ := fun i => K ((npUnique l).1.get i))
    (g₂ := fun i => g ((npUnique l).1.get i)) rfl (fun t ht => by simp only [npUnique_inv l ht, and_self]) sc
  exact SameOutcome.trans2 h1 h2

end

end Pydisort

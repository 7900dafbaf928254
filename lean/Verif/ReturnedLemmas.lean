import Verif.Model.Returned
import Verif.NTLemmas
import Verif.SameEval
import Verif.Spec.Returned

/-! Helper lemmas: the literal last steps of the evaluation functions agree with the model before the squeeze. -/

namespace Pydisort
open Finset Spec

theorem validIx_squeezeIx {shape ix : List ℕ} (h : ValidIx (shape.filter (· ≠ 1)) ix) : ValidIx shape (squeezeIx shape ix) := by
  induction shape generalizing ix with
  | nil => exact .nil
  | cons d ds ih =>
    by_cases hd : d = 1
    · subst hd
      simp only [squeezeIx, if_true]
      exact .cons one_pos (ih (by simpa using h))
    · simp only [squeezeIx, if_neg hd]
      rw [List.filter_cons_of_pos (by simpa using hd)] at h
      cases h with
      | cons h1 h2 => exact .cons h1 (ih h2)

theorem validIx_squeezedIx {shape ix : List ℕ} (h : ValidIx shape ix) : ValidIx (shape.filter (· ≠ 1)) (squeezedIx shape ix) := by
  induction h with
  | nil => exact .nil
  | @cons d i ds is hd _ ih =>
    simp only [squeezedIx]
    by_cases h1 : d = 1
    · rw [if_pos h1, List.filter_cons_of_neg (by simpa using h1)]
      exact ih
    · rw [if_neg h1, List.filter_cons_of_pos (by simpa using h1)]
      exact .cons hd ih

theorem SameND.squeeze {a b : ND ℝ} (h : SameND a b) : SameND a.squeeze b.squeeze := by
  refine ⟨by unfold ND.squeeze; rw [h.1], fun ix hix => ?_⟩
  simp only [ND.squeeze, ← h.1]
  exact h.2 _ (validIx_squeezeIx hix)

theorem SameND.of_A3 {a b : A3 ℝ} (h : A3.Same a b) : SameND a.toND b.toND := by
  obtain ⟨h0, h1, h2, h3⟩ := h
  refine ⟨by simp only [A3.toND, h0, h1, h2], fun ix hix => ?_⟩
  simp only [A3.toND] at hix ⊢
  obtain _ | ⟨g0, _ | ⟨g1, _ | ⟨g2, _⟩⟩⟩ := hix
  exact h3 _ g0 _ g1 _ g2

theorem bshapeRev_self (s : List ℕ) : bshapeRev s s = .ok s := by
  induction s with
  | nil => rfl
  | cons d ds ih => simp only [bshapeRev, bdim_self, ih, bind, Except.bind, pure, Except.pure]

theorem bread_self {s ix : List ℕ} (h : ValidIx s ix) : bread s ix = ix := by
  have hl : ix.length = s.length := h.length_eq.symm
  unfold bread
  rw [hl, Nat.sub_self, List.drop_zero]
  induction h with
  | nil => rfl
  | cons h _ ih => rw [List.zipWith_cons_cons, bix_of_lt h, ih (by simpa using hl)]

/-- The sum of two squeezed arrays, for the shapes that occur. -/
theorem sum_squeezed (k : ℝ) {X C : A3 ℝ} (h0 : C.d0 = X.d0) (hn : 2 ≤ X.d0) (h2 : C.d2 = X.d2) (h1 : C.d1 = X.d1 ∨ C.d1 = 1) :
    SameOutcome (fun V A => SameND V A.toND.squeeze) (ND.bin (fun x y => x + y) X.toND.squeeze (C.toND.squeeze.map fun y => k * y))
      (addSqueezed k X C) := by
  by_cases hd : C.d1 = X.d1
  · unfold addSqueezed
    rw [if_pos ⟨h0.symm, hd.symm, h2.symm⟩]
    have hs : (C.toND.squeeze.map fun y => k * y).shape = X.toND.squeeze.shape := by
      simp only [ND.map, ND.squeeze, A3.toND, h0, hd, h2]
    unfold ND.bin
    rw [hs, bshapeRev_self]
    refine ⟨?_, fun ix hix => ?_⟩
    · simp only [List.reverse_reverse]
      rfl
    · simp only [List.reverse_reverse] at hix
      simp only
      rw [bread_self hix]
      simp only [ND.map, ND.squeeze, A3.toND, h0, hd, h2]
  · have hc : C.d1 = 1 := h1.resolve_left hd
    obtain ⟨n, t, p, X⟩ := X
    obtain ⟨n', t', p', C⟩ := C
    simp only at h0 hn h2 hd hc
    subst h0 h2 hc
    have hn1 : n' ≠ 1 := by omega
    have ht1 : t ≠ 1 := fun h => hd h.symm
    unfold addSqueezed
    simp only
    rw [if_neg (by omega)]
    by_cases hp : p' = 1
    · subst hp
      have e1 : List.filter (fun x => decide (x ≠ 1)) [n', t, 1] = [n', t] := by simp [hn1, ht1]
      have e2 : List.filter (fun x => decide (x ≠ 1)) [n', 1, 1] = [n'] := by simp [hn1]
      simp only [ND.bin, ND.map, ND.squeeze, A3.toND, e1, e2, List.reverse_cons, List.reverse_nil, List.nil_append, List.cons_append, bshapeRev]
      by_cases hnt : t = n'
      · subst hnt
        simp only [bdim_self, bind, Except.bind, pure, Except.pure, and_self, if_true]
        refine ⟨by simp only [List.reverse_cons, List.reverse_nil, List.nil_append, List.cons_append, e1], fun ix hix => ?_⟩
        simp only [List.reverse_cons, List.reverse_nil, List.nil_append, List.cons_append] at hix
        obtain _ | ⟨g0, _ | ⟨g1, _ | _⟩⟩ := hix
        simp [squeezeIx, hn1, bread, bix]
      · rw [bdim_error hnt ht1 hn1]
        simp only [bind, Except.bind, hnt, and_false, if_false]
        rfl
    · have e1 : List.filter (fun x => decide (x ≠ 1)) [n', t, p'] = [n', t, p'] := by simp [hn1, ht1, hp]
      have e2 : List.filter (fun x => decide (x ≠ 1)) [n', 1, p'] = [n', p'] := by simp [hn1, hp]
      simp only [ND.bin, ND.map, ND.squeeze, A3.toND, e1, e2, List.reverse_cons, List.reverse_nil, List.nil_append, List.cons_append, bshapeRev]
      by_cases hnt : t = n'
      · subst hnt
        simp only [bdim_self, bind, Except.bind, pure, Except.pure, and_self, if_true]
        refine ⟨by simp only [List.reverse_cons, List.reverse_nil, List.nil_append, List.cons_append, e1], fun ix hix => ?_⟩
        simp only [List.reverse_cons, List.reverse_nil, List.nil_append, List.cons_append] at hix
        obtain _ | ⟨g0, _ | ⟨g1, _ | ⟨g2, _ | _⟩⟩⟩ := hix
        simp [squeezeIx, hn1, hp, bread, bix]
      · rw [bdim_error hnt ht1 hn1]
        simp only [bind, Except.bind, bdim_self, hnt, and_false, if_false]
        rfl

theorem A3.bin_same {α β γ : Type} (f : α → β → γ) {x : A3 α} {y : A3 β} (h0 : x.d0 = y.d0) (h1 : x.d1 = y.d1) (h2 : x.d2 = y.d2) :
    ∃ z, A3.bin f x y = .ok z ∧ z.d0 = x.d0 ∧ z.d1 = x.d1 ∧ z.d2 = x.d2 ∧
      ∀ i < x.d0, ∀ j < x.d1, ∀ k < x.d2, z.get i j k = f (x.get i j k) (y.get i j k) := by
  unfold A3.bin
  rw [← h0, ← h1, ← h2, bdim_self, bdim_self, bdim_self]
  refine ⟨_, rfl, rfl, rfl, rfl, fun i hi j hj k hk => ?_⟩
  simp only
  rw [bix_of_lt hi, bix_of_lt hj, bix_of_lt hk]

/-- Adding to the first rows. -/
theorem A3.addFirst_returns (ag : Bool) {N M n P : ℕ} {sol tmp : A3 ℝ} (hNM : N ≤ M) (h0 : sol.d0 = M) (h1 : sol.d1 = n) (h2 : sol.d2 = P)
    (g0 : tmp.d0 = N) (g1 : tmp.d1 = n) (g2 : tmp.d2 = P) :
    Returns3 (A3.addFirst ag sol N tmp) M n P (fun i j k => sol.get i j k + if i < N then tmp.get i j k else 0) := by
  obtain ⟨z, hz, z0, z1, z2, z3⟩ := A3.bin_same (fun x y : ℝ => x + y) (x := sol.rows 0 N) (y := tmp) (by simp [A3.rows, g0])
    (by simp [A3.rows, h1, g1]) (by simp [A3.rows, h2, g2])
  simp only [A3.rows, Nat.sub_zero, Nat.zero_add] at z0 z1 z2 z3
  unfold A3.addFirst
  split_ifs with ha
  · rw [hz]
    simp only [bind, Except.bind, A3.cat]
    rw [if_pos ⟨by rw [z1]; rfl, by rw [z2]; rfl⟩]
    refine ⟨_, rfl, by simp only [A3.rows, z0]; omega, by simp only [z1, h1], by simp only [z2, h2], fun i hi j hj k hk => ?_⟩
    simp only [A3.rows]
    by_cases hN : i < N
    · rw [if_pos (by omega), if_pos hN, z3 i hN j (by omega) k (by omega)]
    · rw [if_neg (by omega), if_neg hN, add_zero]
      congr 1
      omega
  · unfold A3.addRows
    rw [hz]
    simp only [bind, Except.bind]
    rw [if_pos ⟨by omega, by omega, by omega⟩]
    refine ⟨_, rfl, h0, h1, h2, fun i hi j hj k hk => ?_⟩
    simp only [Nat.sub_zero]
    by_cases hN : i < N
    · rw [if_pos ⟨by omega, hN⟩, if_pos hN, z3 i hN j (by omega) k (by omega)]
    · rw [if_neg (by omega), if_neg hN, add_zero]

/-- Adding to the last rows. -/
theorem A3.addLast_returns (ag : Bool) {N n P : ℕ} {sol tmp : A3 ℝ} (h0 : sol.d0 = 2 * N) (h1 : sol.d1 = n) (h2 : sol.d2 = P) (g0 : tmp.d0 = N)
    (g1 : tmp.d1 = n) (g2 : tmp.d2 = P) :
    Returns3 (A3.addLast ag sol N tmp) (2 * N) n P (fun i j k => sol.get i j k + if i < N then 0 else tmp.get (i - N) j k) := by
  obtain ⟨z, hz, z0, z1, z2, z3⟩ := A3.bin_same (fun x y : ℝ => x + y) (x := sol.rows N sol.d0) (y := tmp)
    (by simp only [A3.rows, g0]; omega) (by simp [A3.rows, h1, g1]) (by simp [A3.rows, h2, g2])
  simp only [A3.rows] at z0 z1 z2 z3
  unfold A3.addLast
  split_ifs with ha
  · rw [hz]
    simp only [bind, Except.bind, A3.cat]
    rw [if_pos ⟨by rw [z1]; rfl, by rw [z2]; rfl⟩]
    refine ⟨_, rfl, by simp only [A3.rows, z0]; omega, by simp only [A3.rows, h1], by simp only [A3.rows, h2], fun i hi j hj k hk => ?_⟩
    simp only [A3.rows, Nat.sub_zero, Nat.zero_add]
    by_cases hN : i < N
    · rw [if_pos (by omega), if_pos hN, add_zero]
    · rw [if_neg (by omega), if_neg hN, z3 (i - N) (by omega) j (by omega) k (by omega)]
      congr 2
      omega
  · unfold A3.addRows
    rw [hz]
    simp only [bind, Except.bind]
    rw [if_pos ⟨by omega, by omega, by omega⟩]
    refine ⟨_, rfl, h0, h1, h2, fun i hi j hj k hk => ?_⟩
    simp only
    by_cases hN : i < N
    · rw [if_neg (by omega), if_pos hN, add_zero]
    · rw [if_pos ⟨by omega, by omega⟩, if_neg hN, z3 (i - N) (by omega) j (by omega) k (by omega)]
      congr 2
      omega

namespace NTIn
variable (I : NTIn)

theorem tmsLit_returns (ag : Bool) (hN : 0 < I.N) {tau : A1 ℝ} (phi : A1 ℝ) (anti : Bool) (l : ℕ → ℕ) (ht : tau.n ≠ 0)
    (hl : ∀ t < tau.n, l t < I.NLayers) :
    Returns3 (I.tmsLit ag tau phi anti l) (2 * I.N) tau.n phi.n (fun i t p =>
      I.tmsVal anti i (l t) (I.st (l t) (tau.get t)) (nuVal (I.muArr i) (phi.get p) (-I.mu0) I.phi0)) := by
  obtain ⟨A, h1, h2, h3, h4⟩ := nu2d (mu := ⟨2 * I.N, I.muArr⟩) (phi := phi) (-I.mu0) I.phi0 (Or.inl (by simp only; omega))
  unfold tmsLit nuTMS
  rw [h1]
  change Returns3 (if _ then _ else _) _ _ _ _
  rw [if_neg ht]
  by_cases hL : I.NLayers > 1
  · rw [if_pos hL]
    have step1 : Returns3 (if ∃ t < tau.n, l t < I.NLayers - 1 then
        A3.addFirst ag (I.tmsSelf tau A anti l) I.N (I.tmsBelow tau A anti l)
      else .ok (I.tmsSelf tau A anti l)) (2 * I.N) tau.n A.c (fun i t p => (I.tmsSelf tau A anti l).get i t p
        + if i < I.N then (I.tmsBelow tau A anti l).get i t p else 0) := by
      split_ifs with h
      · exact A3.addFirst_returns ag (by omega) rfl rfl rfl rfl rfl rfl
      · refine ⟨_, rfl, rfl, rfl, rfl, fun i hi t ht p hp => ?_⟩
        have : l t = I.NLayers - 1 := by
          have := hl t ht
          have : ¬ l t < I.NLayers - 1 := fun hlt => h ⟨t, ht, hlt⟩
          omega
        have e : I.Rpos anti i (l t) = 0 := by unfold Rpos; rw [if_neg (by omega)]
        simp [tmsBelow, e]
    obtain ⟨S1, e1, a0, a1, a2, a3⟩ := step1
    have step2 : Returns3 (if ∃ t < tau.n, 0 < l t then A3.addLast ag S1 I.N (I.tmsAbove tau A anti l) else .ok S1) (2 * I.N) tau.n A.c
        (fun i t p => S1.get i t p + if i < I.N then 0 else (I.tmsAbove tau A anti l).get (i - I.N) t p) := by
      split_ifs with h
      · exact A3.addLast_returns ag a0 a1 a2 rfl rfl rfl
      · refine ⟨_, rfl, a0, a1, a2, fun i hi t ht p hp => ?_⟩
        have : l t = 0 := by
          have : ¬ 0 < l t := fun hlt => h ⟨t, ht, hlt⟩
          omega
        have e : ∀ n, I.Rneg anti n (l t) = 0 := fun n => by unfold Rneg; rw [if_pos this]
        simp [tmsAbove, e]
    obtain ⟨S2, e2, b0, b1, b2, b3⟩ := step2
    rw [e1]
    refine ⟨S2, e2, b0, b1, b2.trans h3, fun i hi t ht p hp => ?_⟩
    rw [b3 i hi t ht p (h3 ▸ hp)]
    beta_reduce
    rw [a3 i hi t ht p (h3 ▸ hp)]
    unfold tmsVal
    simp only [tmsSelf, tmsBelow, tmsAbove]
    have hA := h4 i hi p hp
    simp only at hA
    rw [if_pos hL]
    by_cases hin : i < I.N
    · simp only [hin, if_true, hA]
      ring
    · simp only [hin, if_false, show I.N + (i - I.N) = i by omega, hA]
      ring
  · rw [if_neg hL]
    refine ⟨_, rfl, rfl, rfl, h3, fun i hi t _ p hp => ?_⟩
    simp only [tmsSelf]
    unfold tmsVal
    rw [h4 i hi p hp, if_neg hL, add_zero]

theorem tms_none {tau : A1 ℝ} (hN : 0 < I.N) (phi : A1 ℝ) (anti : Bool) (l : ℕ → ℕ) (ht : tau.n = 0) :
    I.corr tau phi anti l = .error (.valueError "need at least one array to concatenate") ∧
    ∀ ag, I.corrLit ag tau phi anti l = .error (.valueError "need at least one array to concatenate") := by
  obtain ⟨A, h1, h2, h3, h4⟩ := nu2d (mu := ⟨2 * I.N, I.muArr⟩) (phi := phi) (-I.mu0) I.phi0 (Or.inl (by simp only; omega))
  unfold corr tms corrLit tmsLit nuTMS
  rw [h1]
  simp only [bind, Except.bind, if_pos ht]
  exact ⟨trivial, fun _ => trivial⟩

theorem corrLit_returns (ag : Bool) (hN : 0 < I.N) {tau phi : A1 ℝ} (anti : Bool) (l : ℕ → ℕ) (ht : tau.n ≠ 0)
    (hl : ∀ t < tau.n, l t < I.NLayers) (h : I.N ≠ 1 ∨ phi.n = 1) :
    Returns3 (I.corrLit ag tau phi anti l) (2 * I.N) tau.n phi.n (fun i t p =>
      I.corrVal anti i (l t) (tau.get t) (phi.get p)) := by
  obtain ⟨A, h1, h2, h3, h4, h5⟩ := I.tmsLit_returns ag hN phi anti l ht hl
  obtain ⟨B, g1, g2, g3, g4, g5⟩ := I.ims_returns (tau := tau) anti h
  obtain ⟨C, e1, e2, e3, e4, e5⟩ := A3.addLast_returns ag h2 h3 h4 g2 g3 g4
  unfold corrLit
  rw [h1, g1]
  refine ⟨C, e1, e2, e3, e4, fun i hi t ht p hp => ?_⟩
  rw [e5 i hi t ht p hp]
  beta_reduce
  rw [h5 i hi t ht p hp]
  unfold corrVal
  split_ifs with hin
  · rfl
  · rw [g5 (i - I.N) (by omega) t ht p hp]

/-- Two streams and several azimuths: in place the addition fails, with concatenation it gives an array with too many rows. -/
theorem corrLit_two (hN : I.N = 1) {tau phi : A1 ℝ} (anti : Bool) (l : ℕ → ℕ) (ht : tau.n ≠ 0)
    (hl : ∀ t < tau.n, l t < I.NLayers) (hp : phi.n ≠ 1) :
    I.corrLit false tau phi anti l = .error .shapeError ∧
    ∃ C, I.corrLit true tau phi anti l = .ok C ∧ C.d0 = 1 + phi.n ∧ C.d1 = tau.n ∧ C.d2 = phi.n := by
  have hb : ∃ B, I.ims tau phi anti = .ok B ∧ B.d0 = phi.n ∧ B.d1 = tau.n ∧ B.d2 = 1 := by
    obtain ⟨B, g1, g2, g3, g4⟩ := nu2d_one (mu := ⟨I.N, fun i => -I.mu i⟩) (phi := phi) (-I.mu0) I.phi0 hN hp
    unfold ims nuIMS
    rw [g1]
    simp only [bind, Except.bind, g2, hN, bdim_one_right]
    exact ⟨_, rfl, rfl, rfl, g3⟩
  obtain ⟨B, g1, g2, g3, g4⟩ := hb
  refine ⟨?_, ?_⟩
  · obtain ⟨A, h1, h2, h3, h4, h5⟩ := I.tmsLit_returns false (by omega) phi anti l ht hl
    unfold corrLit
    rw [h1, g1]
    simp only [bind, Except.bind, A3.addLast, A3.addRows, A3.rows, A3.bin, h2, h3, h4, g2, g3, g4, hN, Nat.mul_one, Nat.add_one_sub_one,
      bdim_self, bdim_one_right, bdim_one_left, Bool.false_eq_true, if_false, pure, Except.pure]
    rw [if_neg (by omega)]
  · obtain ⟨A, h1, h2, h3, h4, h5⟩ := I.tmsLit_returns true (by omega) phi anti l ht hl
    unfold corrLit
    rw [h1, g1]
    simp only [bind, Except.bind, A3.addLast, A3.cat, A3.rows, A3.bin, h2, h3, h4, g2, g3, g4, hN, Nat.mul_one, Nat.add_one_sub_one,
      bdim_self, bdim_one_right, bdim_one_left, if_true, pure, Except.pure, and_self]
    exact ⟨_, rfl, rfl, rfl, rfl⟩

end NTIn

namespace AsmIn
variable (I : AsmIn) (S : Sols)

/-- `um` with all modes describes the same values as mode zero with the isotropic part and the other modes without. -/
def UmRel (tau : A1 ℝ) (anti : Bool) (U : A3 ℝ) (a : A2 ℝ) : Prop :=
  U.d0 = I.NFourier ∧ U.d1 = 2 * I.N ∧ U.d2 = a.c ∧ ∀ m < I.NFourier, ∀ i < 2 * I.N, ∀ t < a.c, U.get m i t =
    if m = 0 then a.get i t else if anti = true then I.umAnti S m i (tau.get t) else I.umPlain S m i (tau.get t)

theorem umLit_same (hN : 0 < I.N) (hF : 0 < I.NFourier) (ag : Bool) (tau : A1 ℝ) (anti : Bool) :
    SameOutcome (I.UmRel S tau anti) (I.umLit ag S tau anti) (I.um0 S tau anti) := by
  unfold umLit um0
  by_cases hi : I.iso = true
  · rw [if_pos hi, if_pos hi]
    unfold addIso
    rw [if_pos hi]
    rcases I.isoPart S tau anti 0 (2 * I.N) with e | v
    · rfl
    simp only [bind, Except.bind, A2.bin]
    rcases h1 : bdim (2 * I.N) v.r with e | r
    · have e1 : ∀ x y, A3.bin (fun x y : ℝ => x + y) ⟨x, 2 * I.N, tau.n, y⟩ ⟨1, v.r, v.c, fun _ => v.get⟩ = .error e := by
        intro x y
        simp only [A3.bin, bind, Except.bind, bdim_one_right, h1]
      simp only [A3.addFirst, A3.addRows, A3.rows, bind, Except.bind, e1, ite_self]
      rfl
    have hr : r = 2 * I.N := by
      rcases bdim_eq_ok.1 h1 with h | h | h <;> omega
    subst hr
    rcases h2 : bdim tau.n v.c with e | c
    · have e1 : ∀ x y, A3.bin (fun x y : ℝ => x + y) ⟨x, 2 * I.N, tau.n, y⟩ ⟨1, v.r, v.c, fun _ => v.get⟩ = .error e := by
        intro x y
        simp only [A3.bin, bind, Except.bind, bdim_one_right, h1, h2]
      simp only [A3.addFirst, A3.addRows, A3.rows, bind, Except.bind, e1, ite_self]
      rfl
    have e1 : ∀ x y, A3.bin (fun x y : ℝ => x + y) ⟨x, 2 * I.N, tau.n, y⟩ ⟨1, v.r, v.c, fun _ => v.get⟩ =
        .ok ⟨x, 2 * I.N, c, fun m i t => y (bix x m) (bix (2 * I.N) i) (bix tau.n t) + v.get (bix v.r i) (bix v.c t)⟩ := by
      intro x y
      simp only [A3.bin, bind, Except.bind, bdim_one_right, h1, h2, pure, Except.pure]
    by_cases hF1 : I.NFourier = 1
    · simp only [if_pos hF1, e1, pure, Except.pure, hF1, true_or, if_true]
      refine ⟨hF1.symm, rfl, rfl, fun m hm i hi t ht => ?_⟩
      obtain rfl : m = 0 := by omega
      simp only [if_true, bix_one]
    · simp only [if_neg hF1, hF1, false_or, pure, Except.pure]
      by_cases hc : c = tau.n
      · subst hc
        rw [if_pos rfl]
        have key : Returns3 (A3.addFirst ag ⟨I.NFourier, 2 * I.N, tau.n, fun m i t =>
            if anti = true then I.umAnti S m i (tau.get t) else I.umPlain S m i (tau.get t)⟩ 1 ⟨1, v.r, v.c, fun _ => v.get⟩)
            I.NFourier (2 * I.N) tau.n (fun m i t => if m = 0 then
              (if anti = true then I.umAnti S 0 i (tau.get t) else I.umPlain S 0 i (tau.get t)) + v.get (bix v.r i) (bix v.c t)
              else if anti = true then I.umAnti S m i (tau.get t) else I.umPlain S m i (tau.get t)) := by
          unfold A3.addFirst
          by_cases hag : ag = true
          · rw [if_pos hag]
            simp only [A3.rows, e1, bind, Except.bind, A3.cat, and_self, if_true]
            refine ⟨_, rfl, by simp only; omega, rfl, rfl, fun m hm i hi t ht => ?_⟩
            simp only
            by_cases hm0 : m = 0
            · subst hm0
              simp only [show (0 : ℕ) < 1 - 0 by omega, if_true, bix_of_lt hi, bix_of_lt ht, Nat.sub_zero, bix_one, Nat.zero_add]
            · simp only [show ¬ m < 1 - 0 by omega, if_false, hm0, show 1 + (m - (1 - 0)) = m by omega]
          · rw [if_neg hag]
            simp only [A3.addRows, A3.rows, e1, bind, Except.bind, and_self, if_true, pure, Except.pure]
            refine ⟨_, rfl, rfl, rfl, rfl, fun m hm i hi t ht => ?_⟩
            simp only
            by_cases hm0 : m = 0
            · subst hm0
              simp only [show (0 : ℕ) ≤ 0 ∧ 0 < 1 by omega, and_self, if_true, bix_of_lt hi, bix_of_lt ht, Nat.sub_zero, bix_one, Nat.zero_add]
            · simp only [show ¬ (0 ≤ m ∧ m < 1) by omega, if_false, hm0]
        obtain ⟨A, k1, k2, k3, k4, k5⟩ := key
        rw [k1]
        refine ⟨k2, k3, k4, fun m hm i hi t ht => ?_⟩
        rw [k5 m hm i hi t ht]
        simp only [bix_of_lt hi, bix_of_lt ht]
      · rw [if_neg hc]
        simp only [A3.addFirst, A3.addRows, A3.rows, e1, bind, Except.bind, A3.cat, hc, false_and, and_false, if_false, ite_self]
        rfl
  · rw [if_neg hi, if_neg hi]
    refine ⟨rfl, rfl, rfl, fun m hm i hi t ht => ?_⟩
    simp only
    split_ifs <;> simp_all

end AsmIn
end Pydisort

namespace Pydisort
open Finset Spec

namespace AsmIn
variable (I : AsmIn) (S : Sols)

theorem um0_cols (tau : A1 ℝ) (anti : Bool) {x : A2 ℝ} (h : I.um0 S tau anti = .ok x) :
    (x.c = tau.n ∨ tau.n = 1) ∧ (anti = false → x.c = tau.n) := by
  unfold um0 at h
  by_cases hi : I.iso = true
  · rw [if_pos hi] at h
    unfold addIso at h
    rw [if_pos hi] at h
    rcases hv : I.isoPart S tau anti 0 (2 * I.N) with e | v
    · rw [hv] at h; cases h
    rw [hv] at h
    simp only [bind, Except.bind, A2.bin] at h
    rcases h1 : bdim (2 * I.N) v.r with e | r
    · rw [h1] at h; cases h
    rcases h2 : bdim tau.n v.c with e | c
    · rw [h1, h2] at h; cases h
    rw [h1, h2] at h
    simp only [pure, Except.pure] at h
    by_cases hc : I.NFourier = 1 ∨ c = tau.n
    swap
    · rw [if_neg hc] at h; cases h
    rw [if_pos hc] at h
    cases h
    simp only
    refine ⟨?_, fun ha => ?_⟩
    · rcases bdim_eq_ok.1 h2 with h | h | h <;> omega
    · subst ha
      have : v.c = tau.n := by
        unfold isoPart at hv
        rw [if_neg (by simp)] at hv
        cases hv
        rfl
      rw [this, bdim_self] at h2
      cases h2
      rfl
  · rw [if_neg hi] at h
    cases h
    exact ⟨Or.inl rfl, fun _ => rfl⟩

/-- `u` of `_assemble_intensity_and_fluxes`. -/
theorem uLit_same (hN : 0 < I.N) (hF : 0 < I.NFourier) (ag : Bool) (tau phi : A1 ℝ) (anti : Bool) :
    SameOutcome (fun V X => ∃ X' : A3 ℝ, V = X'.toND.squeeze ∧ A3.Same X' X ∧ X.d0 = 2 * I.N ∧ X.d2 = phi.n ∧
      (X.d1 = tau.n ∨ tau.n = 1) ∧ (anti = false → X.d1 = tau.n)) (I.uLit ag S tau phi anti) (I.u S tau phi anti) := by
  unfold uLit u uRaw
  rcases I.checkTau tau with e | _
  · exact rfl
  simp only [bind, Except.bind]
  have key := I.umLit_same S hN hF ag tau anti
  rcases hU : I.umLit ag S tau anti with e | U <;> rcases ha : I.um0 S tau anti with e' | x <;> rw [hU, ha] at key
  · exact key
  · exact key.elim
  · exact key.elim
  obtain ⟨k0, k1, k2, k3⟩ := key
  obtain ⟨c1, c2⟩ := I.um0_cols S tau anti ha
  refine ⟨⟨U.d1, U.d2, phi.n, fun i t p => I.rescale * ∑ m ∈ range U.d0, U.get m i t * Real.cos ((m : ℝ) * (I.phi0 - phi.get p))⟩, rfl,
    ⟨k1, k2, rfl, fun i hi t ht p hp => ?_⟩, rfl, rfl, c1, c2⟩
  simp only at hi ht hp ⊢
  rw [k0]
  congr 1
  refine sum_congr rfl fun m hm => ?_
  rw [k3 m (mem_range.1 hm) i (by omega) t (by omega)]

end AsmIn

theorem addSqueezed_same (k : ℝ) {X X' C C' : A3 ℝ} (hX : A3.Same X' X) (hC : A3.Same C' C) :
    SameOutcome A3.Same (addSqueezed k X' C') (addSqueezed k X C) := by
  unfold addSqueezed
  rw [hX.1, hX.2.1, hX.2.2.1, hC.1, hC.2.1, hC.2.2.1]
  split_ifs with h1 h2
  · refine ⟨rfl, rfl, rfl, fun i hi t ht p hp => ?_⟩
    simp only at hi ht hp ⊢
    rw [hX.2.2.2 i (by rw [hX.1]; exact hi) t (by rw [hX.2.1]; exact ht) p (by rw [hX.2.2.1]; exact hp),
      hC.2.2.2 i (by rw [hC.1, ← h1.1]; exact hi) t (by rw [hC.2.1, ← h1.2.1]; exact ht) p (by rw [hC.2.2.1, ← h1.2.2]; exact hp)]
  · refine ⟨rfl, rfl, rfl, fun i hi t ht p hp => ?_⟩
    simp only at hi ht hp ⊢
    rw [hX.2.2.2 i (by rw [hX.1]; exact hi) t (by rw [hX.2.1]; exact ht) p (by rw [hX.2.2.1]; exact hp),
      hC.2.2.2 t (by rw [hC.1, ← h2.2.2.2]; exact ht) 0 (by rw [hC.2.1, h2.2.2.1]; exact one_pos) p (by rw [hC.2.2.1, ← h2.2.1]; exact hp)]
  · rfl

/-- Too many rows. -/
theorem sum_rows_error (k : ℝ) {X C : A3 ℝ} (h0 : X.d0 = 2) (h0' : C.d0 = 1 + X.d2) (hP : 2 ≤ X.d2) (h2 : C.d2 = X.d2) (h1 : C.d1 = X.d1) :
    ND.bin (fun x y => x + y) X.toND.squeeze (C.toND.squeeze.map fun y => k * y) = .error .shapeError := by
  obtain ⟨n, t, p, X⟩ := X
  obtain ⟨n', t', p', C⟩ := C
  simp only at h0 h0' hP h2 h1
  subst h0 h0' h2 h1
  have hp1 : p' ≠ 1 := by omega
  have hb : bdim 2 (1 + p') = .error .shapeError := bdim_error (by omega) (by omega) (by omega)
  by_cases ht : t' = 1
  · subst ht
    have e1 : List.filter (fun x => decide (x ≠ 1)) [2, 1, p'] = [2, p'] := by simp [hp1]
    have e2 : List.filter (fun x => decide (x ≠ 1)) [1 + p', 1, p'] = [1 + p', p'] := by
      simp only [ne_eq, decide_not, List.filter_cons, List.filter_nil, hp1, decide_false, Bool.not_false, if_true, decide_true, Bool.not_true,
        Bool.false_eq_true, if_false, show ¬ 1 + p' = 1 by omega]
    simp only [ND.bin, ND.map, ND.squeeze, A3.toND, e1, e2, List.reverse_cons, List.reverse_nil, List.nil_append, List.cons_append, bshapeRev,
      bdim_self, hb, bind, Except.bind]
  · have e1 : List.filter (fun x => decide (x ≠ 1)) [2, t', p'] = [2, t', p'] := by simp [hp1, ht]
    have e2 : List.filter (fun x => decide (x ≠ 1)) [1 + p', t', p'] = [1 + p', t', p'] := by
      simp only [ne_eq, decide_not, List.filter_cons, List.filter_nil, hp1, ht, decide_false, Bool.not_false, if_true, show ¬ 1 + p' = 1 by omega]
    simp only [ND.bin, ND.map, ND.squeeze, A3.toND, e1, e2, List.reverse_cons, List.reverse_nil, List.nil_append, List.cons_append, bshapeRev,
      bdim_self, hb, bind, Except.bind]

theorem argmaxTrue_lt {n : ℕ} (hn : 0 < n) (p : ℕ → Prop) : argmaxTrue n p < n := by
  unfold argmaxTrue
  split_ifs with h
  · classical exact (Nat.find_spec h).1
  · exact hn

/-- The literal evaluation of `u` hands out the array of the model without its axes of length one. -/
theorem uReturned_same {E : Ext} {J : Junk} {a : Args} {R : Solved} (h : pydisort E J a = .ok R) (ag : Bool) (tau phi : A1 ℝ) (anti : Bool)
    (hp : ag = true → nHalf a = 1 → R.nt = none ∨ phi.n = 1 ∨ (phi.n ≠ 0 ∧ anti = false)) :
    SameOutcome (fun V A => SameND V A.toND.squeeze) (R.uReturned ag tau phi anti) (R.u tau phi anti) := by
  obtain ⟨hacc, O, r, hO, hr, hI, hsol, hof, hg1, hg2⟩ := pydisort_ok h
  have hN : 0 < R.I.N := by
    rw [hI]
    have := hacc.streams.1
    change 0 < nHalf a
    unfold nHalf; omega
  have hF : 0 < R.I.NFourier := by
    rw [hI]
    change 0 < a.nFourier.toNat
    unfold Args.nFourier
    split_ifs with ho
    · exact one_pos
    · have := (hacc.modes (by simpa using ho)).1
      omega
  have hL : 0 < R.I.NLayers := by
    rw [hI]; exact hacc.layers
  have hN' : R.I.N = nHalf a := by rw [hI]; rfl
  unfold Solved.uReturned Solved.u
  by_cases ho : R.onlyFlux = true
  · rw [if_pos ho, if_pos ho]; rfl
  rw [if_neg ho, if_neg ho]
  have key := R.I.uLit_same R.S hN hF ag tau phi anti
  by_cases hg : a.NTGate
  · rw [hg1 hg]
    simp only
    set n := a.ntIn (node E a) O r with hn
    have hnN : n.N = R.I.N := by rw [hI]; rfl
    have hnL : n.NLayers = R.I.NLayers := by rw [hI]; rfl
    unfold Solved.uCorrected Solved.uUncorrected
    rcases hV : R.I.uLit ag R.S tau phi anti with e | V <;> rcases hX : R.I.u R.S tau phi anti with e' | X <;> rw [hV, hX] at key
    · exact key
    · exact key.elim
    · exact key.elim
    obtain ⟨X', rfl, hXX, x0, x2, x1, x1'⟩ := key
    simp only [bind, Except.bind]
    by_cases hne : tau.n = 0
    · obtain ⟨e1, e2⟩ := n.tms_none (tau := tau) (by omega) phi anti (fun t => R.I.layer (tau.get t)) hne
      rw [e1, e2]
      rfl
    have hl : ∀ t < tau.n, (fun t => R.I.layer (tau.get t)) t < n.NLayers := fun t _ => by
      rw [hnL]; exact argmaxTrue_lt hL _
    by_cases hone : n.N ≠ 1 ∨ phi.n = 1
    · obtain ⟨C', c1, c2, c3, c4, c5⟩ := n.corrLit_returns ag (by omega) anti _ hne hl hone
      obtain ⟨C, d1, d2, d3, d4, d5⟩ := n.corr_returns (by omega) anti (fun t => R.I.layer (tau.get t)) hne hone
      rw [c1, d1]
      simp only
      have hs : A3.Same C' C := ⟨by omega, by omega, by omega, fun i hi t ht p hp => by
        rw [c5 i (by omega) t (by omega) p (by omega), d5 i (by omega) t (by omega) p (by omega)]⟩
      have s1 := sum_squeezed R.I.rescale (X := X') (C := C') (by rw [c2, hXX.1, x0, hnN]) (by rw [hXX.1, x0]; omega)
        (by rw [c4, hXX.2.2.1, x2]) (by rw [c3, hXX.2.1]; rcases x1 with h | h <;> omega)
      have s2 := addSqueezed_same R.I.rescale hXX hs
      rcases h1 : ND.bin (fun x y => x + y) X'.toND.squeeze (C'.toND.squeeze.map fun y => R.I.rescale * y) with e | V <;>
        rcases h2 : addSqueezed R.I.rescale X' C' with e2 | A <;> rcases h3 : addSqueezed R.I.rescale X C with e3 | B <;>
        rw [h1, h2] at s1 <;> rw [h2, h3] at s2 <;> first | exact s1.elim | exact s2.elim | exact s1.trans s2 | skip
      have := SameND.squeeze (SameND.of_A3 s2)
      exact ⟨s1.1.trans this.1, fun ix hix => (s1.2 ix hix).trans (this.2 ix (s1.1 ▸ hix))⟩
    · push Not at hone
      obtain ⟨e1, C, e2, c0, c1, c2⟩ := n.corrLit_two hone.1 anti (fun t => R.I.layer (tau.get t)) hne hl hone.2
      rw [n.corr_error hone.1 anti _ hne hone.2]
      cases ag with
      | false => rw [e1]; rfl
      | true =>
        obtain ⟨hp0, ha⟩ := ((hp rfl (by omega)).resolve_left (by rw [hg1 hg]; simp)).resolve_left hone.2
        rw [e2]
        simp only
        rw [sum_rows_error R.I.rescale (X := X') (C := C) (by rw [hXX.1, x0]; omega) (by rw [hXX.2.2.1, c0, x2]) (by rw [hXX.2.2.1, x2]; omega)
          (by rw [hXX.2.2.1, c2, x2]) (by rw [hXX.2.1, c1, x1' ha])]
        rfl
  · rw [hg2 hg]
    simp only
    unfold Solved.uUncorrected
    rcases hV : R.I.uLit ag R.S tau phi anti with e | V <;> rcases hX : R.I.u R.S tau phi anti with e' | X <;> rw [hV, hX] at key
    · exact key
    · exact key.elim
    · exact key.elim
    obtain ⟨X', rfl, hXX, -⟩ := key
    exact SameND.squeeze (SameND.of_A3 hXX)

/-- With two streams, corrections and not exactly one azimuth, `u` raises. -/
theorem u_two_streams {E : Ext} {J : Junk} {a : Args} {R : Solved} (h : pydisort E J a = .ok R) {tau phi : A1 ℝ} {anti : Bool} {A : A3 ℝ}
    (hA : R.u tau phi anti = .ok A) (hN : nHalf a = 1) : R.nt = none ∨ phi.n = 1 := by
  obtain ⟨hacc, O, r, hO, hr, hI, hsol, hof, hg1, hg2⟩ := pydisort_ok h
  by_cases hg : a.NTGate
  · right
    by_contra hp
    unfold Solved.u at hA
    rw [hg1 hg] at hA
    simp only at hA
    split_ifs at hA
    unfold Solved.uCorrected at hA
    rcases hX : R.uUncorrected tau phi anti with e | X
    · rw [hX] at hA; cases hA
    rw [hX] at hA
    have hn : (a.ntIn (node E a) O r).N = 1 := hN
    by_cases hne : tau.n = 0
    · rw [show (Except.ok X >>= fun x => (a.ntIn (node E a) O r).corr tau phi anti (fun t => R.I.layer (tau.get t)) >>= fun c =>
        addSqueezed R.I.rescale x c) = _ from congrArg (fun y => y >>= fun c => addSqueezed R.I.rescale X c)
        ((a.ntIn (node E a) O r).tms_none (by omega) phi anti (fun t => R.I.layer (tau.get t)) hne).1] at hA
      cases hA
    · rw [show (Except.ok X >>= fun x => (a.ntIn (node E a) O r).corr tau phi anti (fun t => R.I.layer (tau.get t)) >>= fun c =>
        addSqueezed R.I.rescale x c) = _ from congrArg (fun y => y >>= fun c => addSqueezed R.I.rescale X c)
        ((a.ntIn (node E a) O r).corr_error hn anti (fun t => R.I.layer (tau.get t)) hne hp)] at hA
      cases hA
  · exact Or.inl (hg2 hg)

end Pydisort

import Verif.Model.EvalArr
import Verif.MathscrArrLemmas
import Verif.ReturnedLemmas
import Verif.SameEval
import Verif.Spec.Vectorised

/-! Helper lemmas: the array programs of the evaluation functions give the entries of the pointwise model. -/

namespace Pydisort
open Finset Spec

theorem take_eq {α : Type} {NL : ℕ} {v : ℕ → α} {l : A1 ℕ} (hl : ∀ t < l.n, l.get t < NL) :
    (A1.mk NL v).take l = .ok ⟨l.n, fun t => v (l.get t)⟩ :=
  if_neg (by rintro ⟨t, ht, h⟩; exact absurd (hl t ht) (not_lt.mpr h))

theorem take1_eq {NF NL n : ℕ} {K : ℕ → ℕ → ℕ → ℝ} {l : A1 ℕ} (hl : ∀ t < l.n, l.get t < NL) :
    (A3.mk NF NL n K).take1 l = .ok ⟨NF, l.n, n, fun m t j => K m (l.get t) j⟩ :=
  if_neg (by rintro ⟨t, ht, h⟩; exact absurd (hl t ht) (not_lt.mpr h))

theorem take2_eq {NF NL n : ℕ} {K : ℕ → ℕ → ℕ → ℝ} {l : A1 ℕ} (hl : ∀ t < l.n, l.get t < NL) :
    (A3.mk NF n NL K).take2 l = .ok ⟨NF, n, l.n, fun m i t => K m i (l.get t)⟩ :=
  if_neg (by rintro ⟨t, ht, h⟩; exact absurd (hl t ht) (not_lt.mpr h))

theorem take1_eq4 {NF NL n n' : ℕ} {K : ℕ → ℕ → ℕ → ℕ → ℝ} {l : A1 ℕ} (hl : ∀ t < l.n, l.get t < NL) :
    (A4.mk NF NL n n' K).take1 l = .ok ⟨NF, l.n, n, n', fun m t i j => K m (l.get t) i j⟩ :=
  if_neg (by rintro ⟨t, ht, h⟩; exact absurd (hl t ht) (not_lt.mpr h))

theorem pyIndex_zero {n : ℕ} (h : 0 < n) : pyIndex n 0 = .ok 0 := by
  unfold pyIndex
  split_ifs <;> first | omega | rfl

theorem pyIndex_neg_one {n : ℕ} (h : 0 < n) : pyIndex n (-1) = .ok (n - 1) := by
  unfold pyIndex
  split_ifs <;> first | omega | (congr 1; omega)

namespace AsmIn
variable (I : AsmIn) (S : Sols)

theorem depths_spec (hL : 0 < I.NLayers) {tau : A1 ℝ} (hc : I.checkTau tau = .ok ()) : ∃ l top bot st,
    I.depths tau = .ok ⟨⟨tau.n, l⟩, ⟨tau.n, top⟩, ⟨tau.n, bot⟩, ⟨tau.n, st⟩⟩ ∧
    ∀ t < tau.n, l t = I.layer (tau.get t) ∧ top t = I.tau0 (I.layer (tau.get t)) ∧ bot t = I.tau0 (I.layer (tau.get t) + 1) ∧
      st t = I.scaledTau (tau.get t) := by
  obtain ⟨n, tau⟩ := tau
  unfold depths
  rw [hc]
  have hlay : ∀ t, t < n → argmaxTrue I.NLayers (fun j => tau (bix n t) ≤ I.tauArr (bix I.NLayers j)) = I.layer (tau t) := by
    intro t ht
    unfold layer
    rw [bix_of_lt ht]
    unfold argmaxTrue
    have e : ∀ k, (k < I.NLayers ∧ tau t ≤ I.tauArr (bix I.NLayers k)) ↔ (k < I.NLayers ∧ tau t ≤ I.tauArr k) := by
      intro k
      constructor
      · rintro ⟨h1, h2⟩; rw [bix_of_lt h1] at h2; exact ⟨h1, h2⟩
      · rintro ⟨h1, h2⟩; refine ⟨h1, ?_⟩; rw [bix_of_lt h1]; exact h2
    simp only [e]
  have hl0 : ∀ t, t < n → argmaxTrue I.NLayers (fun j => tau (bix n t) ≤ I.tauArr (bix I.NLayers j)) < I.NLayers :=
    fun t _ => argmaxTrue_lt hL _
  simp only [tauA, tau0Arr, scaleArr, A1.tail, A1.col, A1.row, A2.bin, bdim_one_left, bdim_one_right, ok_bind, pure, Except.pure, argmaxAxis1, hL.ne',
    if_false, bix_one, Nat.add_sub_cancel]
  generalize hg : (fun t => argmaxTrue I.NLayers fun j => tau (bix n t) ≤ I.tauArr (bix I.NLayers j)) = l
  replace hlay : ∀ t < n, l t = I.layer (tau t) := fun t ht => by rw [← hg]; exact hlay t ht
  have hl : ∀ t < n, l t < I.NLayers := fun t ht => by rw [← hg]; exact hl0 t ht
  have hl1 : ∀ t < n, l t < I.NLayers + 1 := fun t ht => Nat.lt_succ_of_lt (hl t ht)
  clear hg
  simp only [take_eq (l := ⟨n, l⟩) hl, take_eq (l := ⟨n, l⟩) hl1, ok_bind, A1.bin, bdim_self, pure, Except.pure]
  split_ifs with hs
  · refine ⟨_, _, _, _, rfl, fun t ht => ⟨hlay t ht, ?_, ?_, ?_⟩⟩
    · rw [hlay t ht]
    · rw [hlay t ht]
    · have hs' : ∃ k < I.NLayers, I.scale k ≠ 1 := hs
      simp only [bix_of_lt ht, hlay t ht, scaledTau, if_pos hs']
  · refine ⟨_, _, _, _, rfl, fun t ht => ⟨hlay t ht, ?_, ?_, ?_⟩⟩
    · rw [hlay t ht]
    · rw [hlay t ht]
    · have hs' : ¬ ∃ k < I.NLayers, I.scale k ≠ 1 := hs
      simp only [scaledTau, if_neg hs']

variable {n : ℕ} {l : ℕ → ℕ} {top bot st : ℕ → ℝ}

theorem expArr2_spec {K : Mat} (hl : ∀ t < n, l t < I.NLayers) :
    Returns2 (I.expArr2 ⟨I.NLayers, 2 * I.N, K⟩ ⟨⟨n, l⟩, ⟨n, top⟩, ⟨n, bot⟩, ⟨n, st⟩⟩) n (2 * I.N)
      (fun t j => if j < I.N then K (l t) j * (st t - top t) else K (l t) j * (st t - bot t)) := by
  unfold expArr2
  simp only [A2.cols, A1.bin, bdim_self, ok_bind, pure, Except.pure, Nat.zero_min, Nat.sub_zero, Nat.min_self,
    show min I.N (2 * I.N) = I.N by omega, show 2 * I.N - I.N = I.N by omega, takeRows_eq (l := ⟨n, l⟩) hl, A1.col, A2.bin, bdim_one_right, bix_one,
    A2.catLast, if_true]
  refine ⟨_, rfl, rfl, by dsimp only; omega, fun t ht j hj => ?_⟩
  dsimp only
  by_cases h : j < I.N
  · simp only [h, if_true, bix_of_lt ht, bix_of_lt h, Nat.zero_add]
  · have h2 : j - I.N < I.N := by omega
    simp only [h, if_false, bix_of_lt ht, bix_of_lt h2, show I.N + (j - I.N) = j by omega]

theorem homArr2_spec {K : Mat} {Q row0 : ℕ} {GC : ℕ → Mat} (hl : ∀ t < n, l t < I.NLayers) (anti : Bool) :
    Returns2 (I.homArr2 ⟨I.NLayers, 2 * I.N, K⟩ ⟨I.NLayers, Q, 2 * I.N, fun k i j => GC k (row0 + i) j⟩ ⟨⟨n, l⟩, ⟨n, top⟩, ⟨n, bot⟩, ⟨n, st⟩⟩ anti) Q n
      (fun i t => ∑ j ∈ range (2 * I.N), GC (l t) (row0 + i) j *
        (if anti = true then
          Real.exp (if j < I.N then K (l t) j * (st t - top t) else K (l t) j * (st t - bot t)) / (I.scale (l t) * K (l t) j)
        else Real.exp (if j < I.N then K (l t) j * (st t - top t) else K (l t) j * (st t - bot t)))) := by
  unfold homArr2
  obtain ⟨⟨r, c, X⟩, hx, h1, h2, h3⟩ := I.expArr2_spec (top := top) (bot := bot) (st := st) (K := K) hl
  dsimp only at h1 h2 h3
  subst h1 h2
  rw [hx, ok_bind, take0_eq (l := ⟨_, l⟩) hl, ok_bind]
  cases anti
  · simp only [Bool.false_eq_true, if_false, A2.map, einsumLijLj, bdim_self, ok_bind, pure, Except.pure]
    refine ⟨_, rfl, rfl, rfl, fun i hi t ht => ?_⟩
    dsimp only
    refine sum_congr rfl fun j hj => ?_
    rw [mem_range] at hj
    simp only [bix_of_lt ht, bix_of_lt hj]
    rw [h3 t ht j hj]
  · simp only [if_true, A2.map, scaleArr, A1.col, A2.bin, bdim_self, bdim_one_left, ok_bind, pure, Except.pure, takeRows_eq (l := ⟨_, l⟩) hl, einsumLijLj]
    refine ⟨_, rfl, rfl, rfl, fun i hi t ht => ?_⟩
    dsimp only
    refine sum_congr rfl fun j hj => ?_
    rw [mem_range] at hj
    simp only [bix_of_lt ht, bix_of_lt hj, bix_of_lt (hl t ht)]
    rw [h3 t ht j hj]

theorem beamArr2_spec {B : Mat} {Q : ℕ} (hb : I.beam = true) (hl : ∀ t < n, l t < I.NLayers) (anti : Bool) :
    Returns2 (I.beamArr2 ⟨Q, I.NLayers, B⟩ ⟨⟨n, l⟩, ⟨n, top⟩, ⟨n, bot⟩, ⟨n, st⟩⟩ anti) Q n
      (fun i t => (if anti = true then B i (l t) / (-I.scale (l t) / I.mu0) else B i (l t)) * Real.exp (-st t / I.mu0)) := by
  unfold beamArr2
  rw [if_pos hb]
  cases anti
  · simp only [Bool.false_eq_true, if_false, takeCols_eq (l := ⟨n, l⟩) hl, ok_bind, attArr, A1.map, A1.row, A2.bin, bdim_self, bdim_one_right, pure, Except.pure]
    refine ⟨_, rfl, rfl, rfl, fun i hi t ht => ?_⟩
    simp only [bix_of_lt hi, bix_of_lt ht]
  · simp only [if_true, negRate, scaleArr, ok_bind, attArr, A1.map, A1.row, A2.bin, bdim_self, bdim_one_right, pure, Except.pure,
      takeCols_eq (l := ⟨n, l⟩) hl]
    refine ⟨_, rfl, rfl, rfl, fun i hi t ht => ?_⟩
    simp only [bix_of_lt hi, bix_of_lt ht, bix_of_lt (hl t ht)]

end AsmIn
theorem mathscrVAnti_depths {N Nc rows : ℕ} {tau tau' sc : A1 ℝ} {l l' : A1 ℕ} {s : Mat} {G : ℕ → Mat} {K g : ℕ → Vec}
    (hn : l.n = tau.n) (ht : A1.Same tau tau') (hl : A1.Same l l') :
    SameOutcome A2.Same (mathscrVAnti N Nc rows tau sc l s G K g) (mathscrVAnti N Nc rows tau' sc l' s G K g) := by
  unfold mathscrVAnti
  split_ifs
  · refine SameOutcome.bind (rel := A1.Same) (A1.bin_same' _ ht (A1.Same.refl _)) fun u v huv =>
      A2.bin_same' _ ⟨rfl, hl.1, fun q hq t ht => ?_⟩ ⟨rfl, huv.1, fun _ _ j hj => huv.2 j hj⟩
    dsimp only at ht ⊢
    rw [hl.2 t ht]
  · refine A2.bin_same' _ ⟨rfl, hl.1, fun q hq t h => ?_⟩ (A2.Same.refl _)
    dsimp only at h ⊢
    rw [hl.2 t h, ht.2 t (by omega)]
  · rcases A1.bin (fun a b => a * b) ⟨Nc, fun i => (((Nc - 1 - i) + 1 : ℕ) : ℝ)⟩ sc with e | den
    · exact rfl
    simp only [bind, Except.bind]
    rcases bdim Nc den.n with e | d
    · exact rfl
    refine ⟨rfl, hl.1, fun q hq t h => ?_⟩
    dsimp only at h ⊢
    rw [hl.2 t h, ht.2 t (by omega)]

theorem A2.map_same' {α β : Type} (f : α → β) {x y : A2 α} (h : A2.Same x y) : A2.Same (x.map f) (y.map f) :=
  ⟨h.1, h.2.1, fun i hi j hj => congrArg f (h.2.2 i hi j hj)⟩

theorem A1.map_same' {α β : Type} (f : α → β) {x y : A1 α} (h : A1.Same x y) : A1.Same (x.map f) (y.map f) :=
  ⟨h.1, fun i hi => congrArg f (h.2 i hi)⟩

theorem SameOutcome.bind_right {α α' β β' : Type} {rel : α → α' → Prop} {rel' : β → β' → Prop} {x : Py α} {y : Py α'}
    {f : α → Py β} {g : α' → Py β'} (h : SameOutcome rel x y) (hf : ∀ u v, y = .ok v → rel u v → SameOutcome rel' (f u) (g v)) :
    SameOutcome rel' (x >>= f) (y >>= g) := by
  rcases x with e | x <;> rcases y with e' | y
  · exact h
  · exact h.elim
  · exact h.elim
  · exact hf x y rfl h

theorem SameOutcome.orRaise {α β : Type} {rel : α → β → Prop} {x : Py α} {y : Py β} (h : SameOutcome rel x y) : SameOrRaise rel x y := by
  rcases x with e | x <;> rcases y with e' | y
  · trivial
  · exact h.elim
  · exact h.elim
  · exact h

theorem bin_rows {r c r' c' : ℕ} {A B : ℕ → ℕ → ℝ} {f : ℝ → ℝ → ℝ} {w : A2 ℝ} (h : A2.bin f ⟨r, c, A⟩ ⟨r', c', B⟩ = .ok w) (hr : r' = r) :
    w.r = r := by
  subst hr
  unfold A2.bin at h
  dsimp only at h
  rw [bdim_self, ok_bind] at h
  rcases h2 : bdim c c' with e | d
  · rw [h2] at h; cases h
  rw [h2, ok_bind] at h
  cases h; rfl

theorem bin_rows' {r : ℕ} {x : A2 ℝ} {v : A1 ℝ} {f : ℝ → ℝ → ℝ} {w : A2 ℝ} (h : A2.bin f x v.row = .ok w) (hr : x.r = r) : w.r = r := by
  subst hr
  unfold A2.bin at h
  rw [show v.row.r = 1 from rfl, bdim_one_right, ok_bind] at h
  rcases h2 : bdim x.c v.row.c with e | d
  · rw [h2] at h; cases h
  rw [h2, ok_bind] at h
  cases h; rfl

namespace AsmIn
variable (I : AsmIn) (S : Sols) {n : ℕ} {l : ℕ → ℕ} {top bot st : ℕ → ℝ}

theorem first_K (hF : 0 < I.NFourier) : (I.KArr S).first = .ok ⟨I.NLayers, 2 * I.N, S.K 0⟩ := by
  simp only [KArr, A3.first, pyIndex_zero hF, ok_bind, pure, Except.pure]

theorem first_B (hF : 0 < I.NFourier) : (I.BArr S).first = .ok ⟨I.NLayers, 2 * I.N, S.B 0⟩ := by
  simp only [BArr, A3.first, pyIndex_zero hF, ok_bind, pure, Except.pure]

theorem first_G (hF : 0 < I.NFourier) : (I.GArr S).first = .ok ⟨I.NLayers, 2 * I.N, 2 * I.N, S.G 0⟩ := by
  simp only [GArr, A4.first, pyIndex_zero hF, ok_bind, pure, Except.pure]

theorem first_GC (hF : 0 < I.NFourier) : (I.GCArr S).first = .ok ⟨I.NLayers, 2 * I.N, 2 * I.N, S.GC 0⟩ := by
  simp only [GCArr, A4.first, pyIndex_zero hF, ok_bind, pure, Except.pure]

/-- The depths of an evaluation are those of the pointwise model. -/
def DepthsOf (tau : A1 ℝ) (l : ℕ → ℕ) (top bot st : ℕ → ℝ) : Prop :=
  ∀ t < tau.n, l t = I.layer (tau.get t) ∧ top t = I.tau0 (I.layer (tau.get t)) ∧ bot t = I.tau0 (I.layer (tau.get t) + 1) ∧
      st t = I.scaledTau (tau.get t)

variable {I} in
theorem DepthsOf.lt {tau : A1 ℝ} (h : I.DepthsOf tau l top bot st) (hL : 0 < I.NLayers) : ∀ t < tau.n, l t < I.NLayers := fun t ht => by
  rw [(h t ht).1]; exact layer_lt' hL _

theorem isoArr_spec (hL : 0 < I.NLayers) (hF : 0 < I.NFourier) {tau : A1 ℝ} (hD : I.DepthsOf tau l top bot st) (junk : Vec) (row0 rows : ℕ) (anti : Bool) :
    SameOutcome A2.Same (I.isoArr S junk ⟨I.NLayers, rows, 2 * I.N, fun k q j => S.G 0 k (row0 + q) j⟩
      ⟨⟨tau.n, l⟩, ⟨tau.n, top⟩, ⟨tau.n, bot⟩, ⟨tau.n, st⟩⟩ anti) (I.isoPart S tau anti row0 rows) := by
  have hl := hD.lt hL
  unfold isoArr isoPart
  rw [I.first_K S hF, ok_bind]
  dsimp only
  cases anti
  · rw [if_neg Bool.false_ne_true]
    obtain ⟨A, h1, h2, h3, h4⟩ := mathscrCall_false (NL := I.NLayers) (Nc := I.Nscoeffs) (Q := rows) (n := 2 * I.N) (s := I.s)
      (G := fun k q j => S.G 0 k (row0 + q) j) (K := S.K 0) (g := S.Gim) (tau := ⟨tau.n, st⟩) (l := ⟨tau.n, l⟩) junk rfl hl I.scaleArr
    have h1' : mathscrCall junk ⟨tau.n, st⟩ I.scaleArr ⟨tau.n, l⟩ I.Nscoeffs I.sArr
      ⟨I.NLayers, rows, 2 * I.N, fun k q j => S.G 0 k (row0 + q) j⟩ ⟨I.NLayers, 2 * I.N, S.K 0⟩ (I.gimArr S) false = .ok A := h1
    rw [h1']
    refine ⟨h2, h3, fun q hq t ht => ?_⟩
    rw [h2] at hq; rw [h3] at ht
    rw [h4 q hq t ht]
    dsimp only at ht ⊢
    rw [(hD t ht).1, (hD t ht).2.2.2]
  · rw [if_pos rfl]
    refine SameOutcome.trans2 (mathscrCall_true (NL := I.NLayers) (Nc := I.Nscoeffs) (Q := rows) (n := 2 * I.N) (s := I.s)
      (G := fun k q j => S.G 0 k (row0 + q) j) (K := S.K 0) (g := S.Gim) (tau := ⟨tau.n, st⟩) (l := ⟨tau.n, l⟩) junk rfl hl I.scaleArr) ?_
    exact mathscrVAnti_depths rfl ⟨rfl, fun t ht => (hD t ht).2.2.2⟩ ⟨rfl, fun t ht => (hD t ht).1⟩

/-- Homogeneous and beam part together are the values of the pointwise model. -/
theorem sum2_spec (hF : 0 < I.NFourier) {tau : A1 ℝ} (hL : 0 < I.NLayers) (hD : I.DepthsOf tau l top bot st) (m row0 rows : ℕ) (anti : Bool) :
    ∃ h b, I.homArr2 ⟨I.NLayers, 2 * I.N, S.K m⟩ ⟨I.NLayers, rows, 2 * I.N, fun k i j => S.GC m k (row0 + i) j⟩
        ⟨⟨tau.n, l⟩, ⟨tau.n, top⟩, ⟨tau.n, bot⟩, ⟨tau.n, st⟩⟩ anti = .ok h ∧
      I.beamArr2 ⟨rows, I.NLayers, fun i k => S.B m k (row0 + i)⟩ ⟨⟨tau.n, l⟩, ⟨tau.n, top⟩, ⟨tau.n, bot⟩, ⟨tau.n, st⟩⟩ anti = .ok b ∧
      Returns2 (A2.bin (fun x y => x + y) h b) rows tau.n
        (fun i t => if anti = true then I.umAnti S m (row0 + i) (tau.get t) else I.umPlain S m (row0 + i) (tau.get t)) := by
  have hl := hD.lt hL
  obtain ⟨⟨r, c, h⟩, e1, e2, e3, e4⟩ := I.homArr2_spec (K := S.K m) (Q := rows) (row0 := row0) (GC := S.GC m) (top := top) (bot := bot) (st := st) hl anti
  dsimp only at e2 e3 e4
  subst e2 e3
  have hexp : ∀ t < tau.n, ∀ j, (if j < I.N then S.K m (l t) j * (st t - top t) else S.K m (l t) j * (st t - bot t)) = I.exponent S m (tau.get t) j := by
    intro t ht j
    obtain ⟨d1, d2, d3, d4⟩ := hD t ht
    rw [d1, d2, d3, d4]
    rfl
  by_cases hb : I.beam = true
  · obtain ⟨⟨r, c, b⟩, f1, f2, f3, f4⟩ := I.beamArr2_spec (B := fun i k => S.B m k (row0 + i)) (top := top) (bot := bot) (st := st) (Q := r) hb hl anti
    dsimp only at f2 f3 f4
    subst f2 f3
    refine ⟨_, _, e1, f1, _, bin_mk _, rfl, rfl, fun i hi t ht => ?_⟩
    dsimp only
    rw [bix_of_lt hi, bix_of_lt ht, e4 i hi t ht, f4 i hi t ht]
    obtain ⟨d1, d2, d3, d4⟩ := hD t ht
    simp only [hexp t ht]
    simp only [d1, d4, umAnti, umPlain, hb, if_true]
    cases anti <;> simp only [Bool.false_eq_true, if_false, if_true]
  · refine ⟨_, ⟨1, 1, fun _ _ => 0⟩, e1, ?_, ?_⟩
    · unfold beamArr2; rw [if_neg hb]
    · simp only [A2.bin, bdim_one_right, ok_bind, pure, Except.pure]
      refine ⟨_, rfl, rfl, rfl, fun i hi t ht => ?_⟩
      dsimp only
      rw [bix_of_lt hi, bix_of_lt ht, e4 i hi t ht]
      obtain ⟨d1, d2, d3, d4⟩ := hD t ht
      simp only [hexp t ht]
      simp only [d1, umAnti, umPlain, hb, if_false, Bool.false_eq_true]
      cases anti <;> simp only [Bool.false_eq_true, if_false, if_true]

theorem u0Arr_same (hL : 0 < I.NLayers) (hF : 0 < I.NFourier) (junk : Vec) (tau : A1 ℝ) (anti : Bool) :
    SameOutcome A2.Same (I.u0Arr S junk tau anti) (I.u0 S tau anti) := by
  unfold u0Arr u0
  rcases hc : I.checkTau tau with e | u
  · unfold depths; rw [hc]; rfl
  obtain ⟨l, top, bot, st, hdep, hD⟩ := I.depths_spec hL hc
  rw [hdep]
  simp only [ok_bind, I.first_K S hF, I.first_B S hF, I.first_GC S hF, A2.T]
  obtain ⟨h, b, e1, e2, x, e3, e4, e5, e6⟩ := I.sum2_spec S hF hL hD 0 0 (2 * I.N) (anti && I.beam)
  simp only [Nat.zero_add] at e1 e2 e6
  rw [e1, ok_bind, e2, ok_bind, e3, ok_bind]
  have hx : A2.Same x (I.u0Raw S tau anti) := by
    unfold u0Raw
    by_cases ha : anti = true ∧ I.beam = true
    · rw [if_pos ha]
      refine ⟨e4, e5, fun i hi t ht => ?_⟩
      rw [e6 i (by omega) t (by omega), ha.1, ha.2]
      simp
    · rw [if_neg ha]
      refine ⟨e4, e5, fun i hi t ht => ?_⟩
      rw [e6 i (by omega) t (by omega), if_neg]
      intro h
      rw [Bool.and_eq_true] at h
      exact ha h
  unfold addIso
  by_cases hi : I.iso = true
  · simp only [if_pos hi, I.first_G S hF, ok_bind]
    have hv := I.isoArr_spec S hL hF hD junk 0 (2 * I.N) anti
    simp only [Nat.zero_add] at hv
    rw [bind_assoc]
    refine SameOutcome.bind hv fun v v' hvv => SameOutcome.bind (A2.bin_same' _ hx hvv) fun w w' hww => A2.map_same' _ hww
  · simp only [if_neg hi, pure, Except.pure, ok_bind]
    exact A2.map_same' _ hx

theorem A2.Same_one_add {x : A2 ℝ} : SameOutcome A2.Same (A2.bin (fun x y => x + y) x ⟨1, 1, fun _ _ => 0⟩) (.ok x) := by
  simp only [A2.bin, bdim_one_right, ok_bind, pure, Except.pure]
  refine ⟨rfl, rfl, fun i hi j hj => ?_⟩
  simp only [bix_of_lt hi, bix_of_lt hj, add_zero]

theorem quadArr_same {x y : A2 ℝ} (hr : y.r = I.N) (h : A2.Same x y) : SameOutcome A1.Same (I.quadArr x) (.ok (I.fluxQuad y)) := by
  unfold quadArr
  simp only [A1.bin, bdim_self, ok_bind, pure, Except.pure, A1.map, matvecLeft, h.1.trans hr, if_true]
  refine ⟨h.2.1, fun t ht => ?_⟩
  dsimp only [fluxQuad] at ht ⊢
  refine sum_congr rfl fun i hi => ?_
  rw [mem_range] at hi
  rw [bix_of_lt hi, h.2.2 i (by rw [h.1, hr]; exact hi) t ht]

theorem quadStep {x y : A2 ℝ} {f : ℝ → ℝ} (hr : y.r = I.N) (h : A2.Same x y) :
    SameOutcome A1.Same (I.quadArr x >>= fun q => pure (q.map f)) (pure ((I.fluxQuad y).map f)) := by
  have h1 := I.quadArr_same hr h
  rcases hq : I.quadArr x with e | q <;> rw [hq] at h1
  · exact h1.elim
  · exact A1.map_same' f h1

theorem isoPart_rows {tau : A1 ℝ} {anti : Bool} {row0 rows : ℕ} {v : A2 ℝ} (h : I.isoPart S tau anti row0 rows = .ok v) : v.r = rows := by
  unfold isoPart at h
  split_ifs at h
  · unfold mathscrVAnti at h
    split_ifs at h
    · rcases h1 : A1.bin (fun a b => a / b) (tau.map I.scaledTau) (⟨I.NLayers, I.scale⟩ : A1 ℝ) with e | p0
      · rw [h1] at h; cases h
      rw [h1, ok_bind] at h
      exact bin_rows' h rfl
    · exact bin_rows' h rfl
    · rcases h1 : A1.bin (fun a b => a * b) (⟨I.Nscoeffs, fun i => (((I.Nscoeffs - 1 - i) + 1 : ℕ) : ℝ)⟩ : A1 ℝ) (⟨I.NLayers, I.scale⟩ : A1 ℝ) with e | den
      · rw [h1] at h; cases h
      rw [h1, ok_bind] at h
      rcases h2 : bdim I.Nscoeffs den.n with e | d
      · rw [h2] at h; cases h
      rw [h2, ok_bind] at h
      cases h; rfl
  · cases h; rfl

theorem fluxUpArr_same (hL : 0 < I.NLayers) (hF : 0 < I.NFourier) (hN : 0 < I.N) (junk : Vec) (tau : A1 ℝ) (anti : Bool) :
    SameOutcome A1.Same (I.fluxUpArr S junk tau anti) (I.fluxUp S tau anti) := by
  unfold fluxUpArr fluxUp
  rcases hc : I.checkTau tau with e | u
  · unfold depths; rw [hc]; rfl
  obtain ⟨l, top, bot, st, hdep, hD⟩ := I.depths_spec hL hc
  rw [hdep]
  simp only [ok_bind, I.first_K S hF, I.first_B S hF, I.first_GC S hF, I.first_G S hF, A2.T, A2.cols, A3.slice1, Nat.zero_min, Nat.sub_zero,
    show min I.N (2 * I.N) = I.N by omega]
  obtain ⟨h, b, e1, e2, x, e3, e4, e5, e6⟩ := I.sum2_spec S hF hL hD 0 0 I.N anti
  simp only [e1, e2, e3, ok_bind]
  have hx : A2.Same x ⟨I.N, tau.n, fun i t => if anti = true then I.umAnti S 0 i (tau.get t) else I.umPlain S 0 i (tau.get t)⟩ := by
    refine ⟨e4, e5, fun i hi t ht => ?_⟩
    rw [e6 i (by omega) t (by omega)]
    simp only [Nat.zero_add]
  unfold addIso
  by_cases hi : I.iso = true
  · simp only [if_pos hi]
    have hv := I.isoArr_spec S hL hF hD junk 0 I.N anti
    rw [bind_assoc]
    refine SameOutcome.bind_right hv fun v v' h1 hvv => ?_
    refine SameOutcome.bind_right (A2.bin_same' _ hx hvv) fun w w' h2 hww => ?_
    have hr : w'.r = I.N := bin_rows h2 (I.isoPart_rows S h1)
    exact I.quadStep hr hww
  · simp only [if_neg hi, ok_bind]
    refine SameOutcome.bind_right (rel := A2.Same) (y := .ok (⟨I.N, tau.n, fun i t =>
      if anti = true then I.umAnti S 0 i (tau.get t) else I.umPlain S 0 i (tau.get t)⟩ : A2 ℝ))
      (g := fun y => pure ((I.fluxQuad y).map fun x => I.rescale * x)) (SameOutcome.trans2 A2.Same_one_add hx) fun w w' h2 hww => ?_
    cases h2
    exact I.quadStep (y := ⟨I.N, _, _⟩) rfl hww

theorem downRaw_spec (hF : 0 < I.NFourier) {tau : A1 ℝ} (hL : 0 < I.NLayers) (hD : I.DepthsOf tau l top bot st) (anti : Bool) :
    (∃ e, I.downBeamArr ⟨I.N, I.NLayers, fun i k => S.B 0 k (I.N + i)⟩ ⟨⟨tau.n, l⟩, ⟨tau.n, top⟩, ⟨tau.n, bot⟩, ⟨tau.n, st⟩⟩ anti = .error e ∧
      I.fluxDownRaw S tau anti = .error e) ∨
    ∃ b h x y, I.downBeamArr ⟨I.N, I.NLayers, fun i k => S.B 0 k (I.N + i)⟩ ⟨⟨tau.n, l⟩, ⟨tau.n, top⟩, ⟨tau.n, bot⟩, ⟨tau.n, st⟩⟩ anti = .ok b ∧
      I.homArr2 ⟨I.NLayers, 2 * I.N, S.K 0⟩ ⟨I.NLayers, I.N, 2 * I.N, fun k i j => S.GC 0 k (I.N + i) j⟩
        ⟨⟨tau.n, l⟩, ⟨tau.n, top⟩, ⟨tau.n, bot⟩, ⟨tau.n, st⟩⟩ anti = .ok h ∧
      A2.bin (fun x y => x + y) h b = .ok x ∧ I.fluxDownRaw S tau anti = .ok y ∧ A2.Same x y ∧ y.r = I.N := by
  have hl := hD.lt hL
  by_cases hab : I.beam = true ∧ anti = true
  · obtain ⟨hb, rfl⟩ := hab
    unfold downBeamArr fluxDownRaw fluxDownAntiBeam
    simp only [hb, and_self, if_true, negRate, scaleArr, A1.map, A1.row, takeCols_eq (l := ⟨tau.n, l⟩) hl, ok_bind, A2.bin, bdim_one_right]
    rcases hd : bdim I.NLayers tau.n with e | d
    · exact .inl ⟨e, rfl, rfl⟩
    simp only [ok_bind, pure, Except.pure]
    by_cases hx : ∃ t < tau.n, d ≤ I.layer (tau.get t)
    · have hx' : ∃ t < tau.n, d ≤ l t := by
        obtain ⟨t, ht, h⟩ := hx
        exact ⟨t, ht, by rw [(hD t ht).1]; exact h⟩
      refine .inl ⟨.indexError, ?_, ?_⟩
      · unfold A2.takeCols
        rw [if_pos (by exact hx')]
        rfl
      · rw [if_pos hx]
        rfl
    · have hx' : ∀ t < tau.n, l t < d := by
        intro t ht
        by_contra h
        exact hx ⟨t, ht, by rw [← (hD t ht).1]; omega⟩
      rw [takeCols_eq (l := ⟨tau.n, l⟩) hx', if_neg hx]
      obtain ⟨⟨r, c, h⟩, e1, e2, e3, e4⟩ := I.homArr2_spec (K := S.K 0) (Q := I.N) (row0 := I.N) (GC := S.GC 0) (top := top) (bot := bot) (st := st) hl true
      dsimp only at e2 e3 e4
      subst e3
      obtain rfl := e2
      simp only [bdim_self, ok_bind, attArr, A1.map]
      refine .inr ⟨_, _, ?x, _, rfl, e1, ?h1, rfl, ?h2, rfl⟩
      case h1 => simp only [bdim_self, ok_bind]; rfl
      refine ⟨rfl, rfl, fun i hi t ht => ?_⟩
      dsimp only at hi ht ⊢
      have hlt : bix tau.n (l t) < tau.n := by
        have := hx' t ht
        unfold bix
        rcases bdim_eq_ok.1 hd with h | h | h <;> split_ifs <;> omega
      simp only [bix_of_lt hi, bix_of_lt ht]
      rw [e4 i hi t ht]
      obtain ⟨d1, d2, d3, d4⟩ := hD t ht
      rw [(hD _ hlt).1, d4, d1]
      refine congrArg₂ (· + ·) (sum_congr rfl fun j _ => ?_) rfl
      rw [if_pos rfl, d2, d3]
      rfl
  · right
    have e0 : I.downBeamArr ⟨I.N, I.NLayers, fun i k => S.B 0 k (I.N + i)⟩ ⟨⟨tau.n, l⟩, ⟨tau.n, top⟩, ⟨tau.n, bot⟩, ⟨tau.n, st⟩⟩ anti
        = I.beamArr2 ⟨I.N, I.NLayers, fun i k => S.B 0 k (I.N + i)⟩ ⟨⟨tau.n, l⟩, ⟨tau.n, top⟩, ⟨tau.n, bot⟩, ⟨tau.n, st⟩⟩ anti := if_neg hab
    obtain ⟨h, b, e1, e2, x, e3, e4, e5, e6⟩ := I.sum2_spec S hF hL hD 0 I.N I.N anti
    have e7 : I.fluxDownRaw S tau anti = .ok ⟨I.N, tau.n, fun i t =>
        if anti = true then I.umAnti S 0 (I.N + i) (tau.get t) else I.umPlain S 0 (I.N + i) (tau.get t)⟩ := by
      unfold fluxDownRaw
      cases anti
      · simp only [Bool.false_eq_true, if_false]
      · simp only [if_true]
        rw [if_neg (fun h => hab ⟨h, rfl⟩)]
    exact ⟨b, h, x, _, e0.trans e2, e1, e3, e7, ⟨e4, e5, fun i hi t ht => e6 i (by omega) t (by omega)⟩, rfl⟩

theorem directScaledArr_spec {tau : A1 ℝ} (hL : 0 < I.NLayers) (hD : I.DepthsOf tau l top bot st) (anti : Bool) :
    ∃ x, I.directScaledArr ⟨⟨tau.n, l⟩, ⟨tau.n, top⟩, ⟨tau.n, bot⟩, ⟨tau.n, st⟩⟩ anti = .ok x ∧
      SameRow x (if I.beam = true then tau.map (I.directScaled anti) else ⟨1, fun _ => 0⟩) := by
  have hl := hD.lt hL
  unfold directScaledArr
  by_cases hb : I.beam = true
  · simp only [if_pos hb]
    cases anti
    · simp only [Bool.false_eq_true, if_false]
      refine ⟨_, rfl, rfl, rfl, fun t ht => ?_⟩
      simp only [attArr, A1.map, A1.row, directScaled, Bool.false_eq_true, if_false]
      rw [(hD t ht).2.2.2]
    · simp only [if_true, negRate, scaleArr, A1.map, A1.row, takeCols_eq (l := ⟨tau.n, l⟩) hl, ok_bind, A2.bin, bdim_self, attArr, pure, Except.pure]
      refine ⟨_, rfl, rfl, rfl, fun t ht => ?_⟩
      simp only [bix_of_lt ht, directScaled, if_true]
      obtain ⟨d1, d2, d3, d4⟩ := hD t ht
      rw [d4, d1]
  · simp only [if_neg hb]
    exact ⟨_, rfl, rfl, rfl, fun t _ => rfl⟩

theorem rowBin {f : ℝ → ℝ → ℝ} {x y : A2 ℝ} {u v : A1 ℝ} (hx : SameRow x u) (hy : SameRow y v) :
    SameOutcome SameRow (A2.bin f x y) (A1.bin f u v) := by
  obtain ⟨hx1, hx2, hx3⟩ := hx
  obtain ⟨hy1, hy2, hy3⟩ := hy
  unfold A2.bin A1.bin
  rw [hx1, hy1, bdim_self, ok_bind, hx2, hy2]
  rcases hd : bdim u.n v.n with e | d
  · rfl
  refine ⟨rfl, rfl, fun t ht => ?_⟩
  have hd' : bdim v.n u.n = .ok d := by
    rw [bdim_eq_ok] at hd ⊢
    omega
  simp only [bix_one]
  dsimp only at ht
  rw [hx3 _ (bix_lt hd ht), hy3 _ (bix_lt hd' ht)]

theorem fluxDownArr_same (hL : 0 < I.NLayers) (hF : 0 < I.NFourier) (hN : 0 < I.N) (junk : Vec) (tau : A1 ℝ) (anti : Bool) :
    SameOrRaise SameDownRow (I.fluxDownArr S junk tau anti) (I.fluxDown S tau anti) := by
  unfold fluxDownArr fluxDown
  rcases hc : I.checkTau tau with e | u
  · unfold depths; rw [hc]; trivial
  obtain ⟨l, top, bot, st, hdep, hD⟩ := I.depths_spec hL hc
  rw [hdep]
  simp only [ok_bind, I.first_K S hF, I.first_B S hF, I.first_GC S hF, I.first_G S hF, A2.T, A2.cols, A3.slice1, Nat.min_self,
    show min I.N (2 * I.N) = I.N by omega, show 2 * I.N - I.N = I.N by omega]
  have hdir : SameRow (I.directArr tau anti).row (if I.beam = true then tau.map (I.direct anti) else ⟨1, fun _ => 0⟩) := by
    unfold directArr direct
    split_ifs <;> exact ⟨rfl, rfl, fun t _ => rfl⟩
  obtain ⟨ds, hds, hds2⟩ := I.directScaledArr_spec hL hD anti
  simp only [hds, ok_bind]
  -- the last steps
  have fin : ∀ {u u' : A2 ℝ}, A2.Same u u' → u'.r = I.N → SameOrRaise SameDownRow
      (I.quadArr u >>= fun q => A2.bin (fun x y => x + y) q.row ds >>= fun d1 => A2.bin (fun x y => x - y) d1 (I.directArr tau anti).row >>= fun d2 =>
        pure (d2.map fun x => I.rescale * x, (I.directArr tau anti).map fun x => I.rescale * x, I.beam))
      (if I.beam = true then do
        let d1 ← A1.bin (fun x y => x + y) (I.fluxQuad u') (tau.map (I.directScaled anti))
        let d2 ← A1.bin (fun x y => x - y) d1 (tau.map (I.direct anti))
        pure (d2.map (fun x => I.rescale * x), (tau.map (I.direct anti)).map (fun x => I.rescale * x), true)
      else
        pure ((I.fluxQuad u').map (fun x => I.rescale * (x + 0 - 0)), ⟨1, fun _ => I.rescale * 0⟩, false)) := by
    intro u u' hu hr
    have h1 := I.quadArr_same hr hu
    rcases hq : I.quadArr u with e | q <;> rw [hq] at h1
    · exact h1.elim
    have h2 : SameRow q.row (I.fluxQuad u') := ⟨rfl, h1.1, fun t ht => h1.2 t (by rw [h1.1]; exact ht)⟩
    rw [ok_bind]
    by_cases hb : I.beam = true
    · rw [if_pos hb] at hdir hds2 ⊢
      refine SameOutcome.orRaise ?_
      refine SameOutcome.bind (rowBin h2 hds2) fun x y hxy => SameOutcome.bind (rowBin hxy hdir) fun z w hzw => ?_
      refine ⟨⟨hzw.1, hzw.2.1, fun t ht => ?_⟩, ?_, hb⟩
      · exact congrArg (fun x => I.rescale * x) (hzw.2.2 t ht)
      · refine A1.map_same' _ ⟨hdir.2.1, fun t ht => ?_⟩
        have := hdir.2.2 t (by rw [← hdir.2.1]; exact ht)
        exact this
    · rw [if_neg hb] at hdir hds2 ⊢
      refine SameOutcome.orRaise ?_
      have g1 := rowBin (f := fun x y => x + y) h2 hds2
      simp only [A1.bin, bdim_one_right, ok_bind, pure, Except.pure] at g1
      rcases hd1 : A2.bin (fun x y => x + y) q.row ds with e | d1 <;> rw [hd1] at g1
      · exact g1.elim
      rw [ok_bind]
      have g2 := rowBin (f := fun x y => x - y) (u := ⟨(I.fluxQuad u').n, _⟩) g1 hdir
      simp only [A1.bin, bdim_one_right, ok_bind, pure, Except.pure] at g2
      rcases hd2 : A2.bin (fun x y => x - y) d1 (I.directArr tau anti).row with e | d2 <;> rw [hd2] at g2
      · exact g2.elim
      obtain ⟨g3, g4, g5⟩ := g2
      refine ⟨⟨g3, g4, fun t ht => ?_⟩, ?_, by rcases h : I.beam <;> simp_all⟩
      · have ht' : t < (I.fluxQuad u').n := ht
        simp only [A2.map, A1.map]
        rw [g5 t ht']
        dsimp only
        rw [bix_of_lt ht', bix_of_lt ht']
      · refine ⟨hdir.2.1, fun t ht => ?_⟩
        have ht' : t < 1 := by
          have : (I.directArr tau anti).n = 1 := hdir.2.1
          rw [← this]; exact ht
        obtain rfl : t = 0 := by omega
        exact congrArg (fun x => I.rescale * x) (hdir.2.2 0 Nat.one_pos)
  -- the source and the beam
  by_cases hi : I.iso = true
  · unfold addIso
    simp only [if_pos hi]
    have hv := I.isoArr_spec S hL hF hD junk I.N I.N anti
    rcases hv1 : I.isoArr S junk ⟨I.NLayers, I.N, 2 * I.N, fun k q j => S.G 0 k (I.N + q) j⟩
        ⟨⟨tau.n, l⟩, ⟨tau.n, top⟩, ⟨tau.n, bot⟩, ⟨tau.n, st⟩⟩ anti with e | v <;>
      rcases hv2 : I.isoPart S tau anti I.N I.N with e' | v' <;> rw [hv1, hv2] at hv
    · rcases I.fluxDownRaw S tau anti with e'' | raw <;> trivial
    · exact hv.elim
    · exact hv.elim
    rcases I.downRaw_spec S hF hL hD anti with ⟨e, h1, h2⟩ | ⟨b, h, x, ⟨yr, yc, y⟩, h1, h2, h3, h4, h5, h6⟩
    · rw [h1, h2]; trivial
    obtain ⟨vr, vc, vv⟩ := v'
    simp only [h1, h2, h3, h4, ok_bind]
    have hb := A2.bin_same' (fun x y : ℝ => x + y) h5 hv
    rcases hw1 : A2.bin (fun x y => x + y) x v with e | w <;>
      rcases hw2 : A2.bin (fun x y => x + y) (⟨yr, yc, y⟩ : A2 ℝ) ⟨vr, vc, vv⟩ with e' | w' <;> rw [hw1, hw2] at hb
    · trivial
    · exact hb.elim
    · exact hb.elim
    · refine fin hb ?_
      dsimp only at h6
      exact (bin_rows hw2 ((I.isoPart_rows S hv2).trans h6.symm)).trans h6
  · unfold addIso
    simp only [if_neg hi, ok_bind]
    rcases I.downRaw_spec S hF hL hD anti with ⟨e, h1, h2⟩ | ⟨b, h, x, y, h1, h2, h3, h4, h5, h6⟩
    · rw [h1, h2]; trivial
    simp only [h1, h2, h3, h4, ok_bind]
    have hb := SameOutcome.trans2 (A2.Same_one_add (x := x)) (z := .ok y) h5
    rcases hw1 : A2.bin (fun x y => x + y) x (⟨1, 1, fun _ _ => 0⟩ : A2 ℝ) with e | w <;> rw [hw1] at hb
    · exact hb.elim
    · exact fin hb h6

/-! ### The intensity -/

theorem expArr3_spec (hl : ∀ t < n, l t < I.NLayers) :
    Returns3 (I.expArr3 S ⟨⟨n, l⟩, ⟨n, top⟩, ⟨n, bot⟩, ⟨n, st⟩⟩) I.NFourier n (2 * I.N)
      (fun m t j => if j < I.N then S.K m (l t) j * (st t - top t) else S.K m (l t) j * (st t - bot t)) := by
  unfold expArr3
  simp only [KArr, A3.slice2, A1.bin, bdim_self, ok_bind, pure, Except.pure, Nat.zero_min, Nat.sub_zero, Nat.min_self,
    show min I.N (2 * I.N) = I.N by omega, show 2 * I.N - I.N = I.N by omega, take1_eq (l := ⟨n, l⟩) hl, A3.bin, bdim_one_right, bix_one,
    A3.catLast, and_self, if_true]
  refine ⟨_, rfl, rfl, rfl, by dsimp only; omega, fun m hm t ht j hj => ?_⟩
  dsimp only
  by_cases h : j < I.N
  · simp only [h, if_true, bix_of_lt hm, bix_of_lt ht, bix_of_lt h, Nat.zero_add]
  · have h2 : j - I.N < I.N := by omega
    simp only [h, if_false, bix_of_lt hm, bix_of_lt ht, bix_of_lt h2, show I.N + (j - I.N) = j by omega]

theorem homArr3_spec (hl : ∀ t < n, l t < I.NLayers) (anti : Bool) :
    Returns3 (I.homArr3 S ⟨⟨n, l⟩, ⟨n, top⟩, ⟨n, bot⟩, ⟨n, st⟩⟩ anti) I.NFourier (2 * I.N) n
      (fun m i t => ∑ j ∈ range (2 * I.N), S.GC m (l t) i j *
        (if anti = true then
          Real.exp (if j < I.N then S.K m (l t) j * (st t - top t) else S.K m (l t) j * (st t - bot t)) / (I.scale (l t) * S.K m (l t) j)
        else Real.exp (if j < I.N then S.K m (l t) j * (st t - top t) else S.K m (l t) j * (st t - bot t)))) := by
  unfold homArr3
  obtain ⟨⟨r, c, d, X⟩, hx, h1, h2, h3, h4⟩ := I.expArr3_spec S (top := top) (bot := bot) (st := st) hl
  dsimp only at h1 h2 h3 h4
  obtain rfl := h1
  obtain rfl := h2
  obtain rfl := h3
  rw [hx, ok_bind]
  unfold GCArr KArr
  rw [take1_eq4 (l := ⟨_, l⟩) hl, ok_bind]
  cases anti
  · simp only [Bool.false_eq_true, if_false, A3.map, einsumMtijMtj, bdim_self, ok_bind, pure, Except.pure]
    refine ⟨_, rfl, rfl, rfl, rfl, fun m hm i hi t ht => ?_⟩
    dsimp only
    refine sum_congr rfl fun j hj => ?_
    rw [mem_range] at hj
    simp only [bix_of_lt hm, bix_of_lt ht, bix_of_lt hj]
    rw [h4 m hm t ht j hj]
  · simp only [if_true, A3.map, scaleArr, A3.bin, bdim_self, bdim_one_left, ok_bind, pure, Except.pure, take1_eq (l := ⟨_, l⟩) hl, einsumMtijMtj]
    refine ⟨_, rfl, rfl, rfl, rfl, fun m hm i hi t ht => ?_⟩
    dsimp only
    refine sum_congr rfl fun j hj => ?_
    rw [mem_range] at hj
    simp only [bix_of_lt hm, bix_of_lt ht, bix_of_lt hj, bix_of_lt (hl t ht)]
    rw [h4 m hm t ht j hj]

theorem beamArr3_spec (hb : I.beam = true) (hl : ∀ t < n, l t < I.NLayers) (anti : Bool) :
    Returns3 (I.beamArr3 S ⟨⟨n, l⟩, ⟨n, top⟩, ⟨n, bot⟩, ⟨n, st⟩⟩ anti) I.NFourier (2 * I.N) n
      (fun m i t => (if anti = true then S.B m (l t) i / (-I.scale (l t) / I.mu0) else S.B m (l t) i) * Real.exp (-st t / I.mu0)) := by
  unfold beamArr3
  simp only [if_pos hb]
  cases anti
  · simp only [Bool.false_eq_true, if_false, BArr, A3.T021, take2_eq (l := ⟨n, l⟩) hl, ok_bind, attArr, A1.map, A3.bin, bdim_self, bdim_one_right, pure, Except.pure]
    refine ⟨_, rfl, rfl, rfl, rfl, fun m hm i hi t ht => ?_⟩
    simp only [bix_of_lt hm, bix_of_lt hi, bix_of_lt ht]
  · simp only [if_true, BArr, A3.T021, negRate, scaleArr, ok_bind, attArr, A1.map, A3.bin, bdim_self, bdim_one_right, pure, Except.pure,
      take2_eq (l := ⟨n, l⟩) hl]
    refine ⟨_, rfl, rfl, rfl, rfl, fun m hm i hi t ht => ?_⟩
    simp only [bix_of_lt hm, bix_of_lt hi, bix_of_lt ht, bix_of_lt (hl t ht)]

theorem sum3_spec {tau : A1 ℝ} (hL : 0 < I.NLayers) (hD : I.DepthsOf tau l top bot st) (anti : Bool) :
    ∃ h b, I.homArr3 S ⟨⟨tau.n, l⟩, ⟨tau.n, top⟩, ⟨tau.n, bot⟩, ⟨tau.n, st⟩⟩ anti = .ok h ∧
      I.beamArr3 S ⟨⟨tau.n, l⟩, ⟨tau.n, top⟩, ⟨tau.n, bot⟩, ⟨tau.n, st⟩⟩ anti = .ok b ∧
      Returns3 (A3.bin (fun x y => x + y) h b) I.NFourier (2 * I.N) tau.n
        (fun m i t => if anti = true then I.umAnti S m i (tau.get t) else I.umPlain S m i (tau.get t)) := by
  have hl := hD.lt hL
  obtain ⟨⟨r, c, d, h⟩, e1, e2, e3, e4, e5⟩ := I.homArr3_spec S (top := top) (bot := bot) (st := st) hl anti
  dsimp only at e2 e3 e4 e5
  obtain rfl := e2
  obtain rfl := e3
  obtain rfl := e4
  have hexp : ∀ m, ∀ t < tau.n, ∀ j, (if j < I.N then S.K m (l t) j * (st t - top t) else S.K m (l t) j * (st t - bot t)) = I.exponent S m (tau.get t) j := by
    intro m t ht j
    obtain ⟨d1, d2, d3, d4⟩ := hD t ht
    rw [d1, d2, d3, d4]
    rfl
  by_cases hb : I.beam = true
  · obtain ⟨⟨r, c, d, b⟩, f1, f2, f3, f4, f5⟩ := I.beamArr3_spec S (top := top) (bot := bot) (st := st) hb hl anti
    dsimp only at f2 f3 f4 f5
    obtain rfl := f2
    obtain rfl := f3
    obtain rfl := f4
    refine ⟨_, _, e1, f1, ?_⟩
    simp only [A3.bin, bdim_self, ok_bind, pure, Except.pure]
    refine ⟨_, rfl, rfl, rfl, rfl, fun m hm i hi t ht => ?_⟩
    dsimp only
    rw [bix_of_lt hm, bix_of_lt hi, bix_of_lt ht, e5 m hm i hi t ht, f5 m hm i hi t ht]
    obtain ⟨d1, d2, d3, d4⟩ := hD t ht
    simp only [hexp m t ht]
    simp only [d1, d4, umAnti, umPlain, hb, if_true]
    cases anti <;> simp only [Bool.false_eq_true, if_false, if_true]
  · refine ⟨_, ⟨1, 1, 1, fun _ _ _ => 0⟩, e1, ?_, ?_⟩
    · unfold beamArr3; exact if_neg hb
    · simp only [A3.bin, bdim_one_right, ok_bind, pure, Except.pure]
      refine ⟨_, rfl, rfl, rfl, rfl, fun m hm i hi t ht => ?_⟩
      dsimp only
      rw [bix_of_lt hm, bix_of_lt hi, bix_of_lt ht, e5 m hm i hi t ht]
      obtain ⟨d1, d2, d3, d4⟩ := hD t ht
      simp only [hexp m t ht]
      simp only [d1, umAnti, umPlain, hb, if_false, Bool.false_eq_true]
      cases anti <;> simp only [Bool.false_eq_true, if_false, if_true]

theorem A3.bin_same3 {α β γ : Type} (f : α → β → γ) {x x' : A3 α} {y y' : A3 β} (hx : A3.Same x x') (hy : A3.Same y y') :
    SameOutcome A3.Same (A3.bin f x y) (A3.bin f x' y') := by
  unfold A3.bin
  obtain ⟨x1, x2, x3, x4⟩ := hx
  obtain ⟨y1, y2, y3, y4⟩ := hy
  rw [← x1, ← x2, ← x3, ← y1, ← y2, ← y3]
  have sw : ∀ {a b c : ℕ}, bdim a b = .ok c → bdim b a = .ok c := by
    intro a b c h
    rw [bdim_eq_ok] at h ⊢
    omega
  rcases h0 : bdim x.d0 y.d0 with e | d0
  · rfl
  rcases h1 : bdim x.d1 y.d1 with e | d1
  · rfl
  rcases h2 : bdim x.d2 y.d2 with e | d2
  · rfl
  refine ⟨rfl, rfl, rfl, fun i hi j hj k hk => ?_⟩
  dsimp only at hi hj hk ⊢
  rw [x4 _ (bix_lt h0 hi) _ (bix_lt h1 hj) _ (bix_lt h2 hk), y4 _ (bix_lt (sw h0) hi) _ (bix_lt (sw h1) hj) _ (bix_lt (sw h2) hk)]

theorem A3.addRows_same {x x' y y' : A3 ℝ} {lo hi : ℕ} (hhi : hi ≤ x.d0) (hx : A3.Same x x') (hy : A3.Same y y') :
    SameOutcome A3.Same (x.addRows lo hi y) (x'.addRows lo hi y') := by
  unfold A3.addRows
  have hr : A3.Same (x.rows lo hi) (x'.rows lo hi) := by
    refine ⟨rfl, hx.2.1, hx.2.2.1, fun i h j hj k hk => ?_⟩
    simp only [A3.rows] at h hj hk ⊢
    exact hx.2.2.2 _ (by omega) _ hj _ hk
  refine SameOutcome.bind (A3.bin_same3 _ hr hy) fun c c' hc => ?_
  rw [← hc.1, ← hc.2.1, ← hc.2.2.1, ← hx.2.1, ← hx.2.2.1]
  split_ifs with h
  · refine ⟨hx.1, rfl, rfl, fun i h1 j hj k hk => ?_⟩
    dsimp only at h1 hj hk ⊢
    by_cases hi' : lo ≤ i ∧ i < hi
    · simp only [if_pos hi']
      exact hc.2.2.2 _ (by omega) _ (by omega) _ (by omega)
    · simp only [if_neg hi']
      exact hx.2.2.2 _ h1 _ hj _ hk
  · rfl

theorem A3.cat_same {x x' y y' : A3 ℝ} (hx : A3.Same x x') (hy : A3.Same y y') : SameOutcome A3.Same (x.cat y) (x'.cat y') := by
  unfold A3.cat
  obtain ⟨x1, x2, x3, x4⟩ := hx
  obtain ⟨y1, y2, y3, y4⟩ := hy
  by_cases h : x.d1 = y.d1 ∧ x.d2 = y.d2
  · rw [if_pos h, if_pos ⟨x2 ▸ y2 ▸ h.1, x3 ▸ y3 ▸ h.2⟩]
    refine ⟨congrArg₂ _ x1 y1, x2, x3, fun i hi t ht p hp => ?_⟩
    dsimp only at hi ht hp ⊢
    rw [← x1]
    by_cases hin : i < x.d0
    · rw [if_pos hin, if_pos hin]; exact x4 i hin t ht p hp
    · rw [if_neg hin, if_neg hin]; exact y4 _ (by omega) t (by omega) p (by omega)
  · rw [if_neg h, if_neg (by rw [← x2, ← y2, ← x3, ← y3]; exact h)]
    rfl

theorem A3.rows_same {x x' : A3 ℝ} {lo hi : ℕ} (hhi : hi ≤ x.d0) (h : A3.Same x x') : A3.Same (x.rows lo hi) (x'.rows lo hi) :=
  ⟨rfl, h.2.1, h.2.2.1, fun i hi' t ht p hp => h.2.2.2 _ (by change i < hi - lo at hi'; omega) t ht p hp⟩

theorem A3.addFirst_same (ag : Bool) {x x' y y' : A3 ℝ} {n : ℕ} (hn : n ≤ x.d0) (hx : A3.Same x x') (hy : A3.Same y y') :
    SameOutcome A3.Same (x.addFirst ag n y) (x'.addFirst ag n y') := by
  unfold A3.addFirst
  cases ag
  · simp only [Bool.false_eq_true, if_false]
    exact A3.addRows_same hn hx hy
  · simp only [if_true]
    refine SameOutcome.bind (A3.bin_same3 _ (A3.rows_same hn hx) hy) fun u v huv => ?_
    rw [← hx.1]
    exact A3.cat_same huv (A3.rows_same le_rfl hx)

theorem A3.addLast_same (ag : Bool) {x x' y y' : A3 ℝ} {n : ℕ} (hn : n ≤ x.d0) (hx : A3.Same x x') (hy : A3.Same y y') :
    SameOutcome A3.Same (x.addLast ag n y) (x'.addLast ag n y') := by
  unfold A3.addLast
  rw [← hx.1]
  cases ag
  · simp only [Bool.false_eq_true, if_false]
    exact A3.addRows_same le_rfl hx hy
  · simp only [if_true]
    refine SameOutcome.bind (A3.bin_same3 _ (A3.rows_same le_rfl hx) hy) fun u v huv => ?_
    exact A3.cat_same (A3.rows_same hn hx) huv

theorem SameOutcome.trans3 {α : Type} {rel : A3 ℝ → α → Prop} (hr : ∀ x y z, A3.Same x y → rel y z → rel x z) {x y : Py (A3 ℝ)} {z : Py α}
    (h : SameOutcome A3.Same x y) (h' : SameOutcome rel y z) : SameOutcome rel x z := by
  rcases x with e | x <;> rcases y with e' | y <;> rcases z with e'' | z <;> simp only [SameOutcome] at h h' ⊢
  · exact h.trans h'
  · exact hr x y z h h'

theorem umArr_lit (hL : 0 < I.NLayers) (hF : 0 < I.NFourier) {tau : A1 ℝ} (hD : I.DepthsOf tau l top bot st) (ag : Bool) (junk : Vec) (anti : Bool) :
    SameOutcome A3.Same (I.umArr S ag junk ⟨⟨tau.n, l⟩, ⟨tau.n, top⟩, ⟨tau.n, bot⟩, ⟨tau.n, st⟩⟩ anti) (I.umLit ag S tau anti) := by
  unfold umArr umLit
  obtain ⟨h, b, e1, e2, x, e3, e4, e5, e6, e7⟩ := I.sum3_spec S hL hD anti
  simp only [e1, e2, e3, ok_bind]
  have hx : A3.Same x ⟨I.NFourier, 2 * I.N, tau.n, fun m i t =>
      if anti = true then I.umAnti S m i (tau.get t) else I.umPlain S m i (tau.get t)⟩ :=
    ⟨e4, e5, e6, fun m hm i hi t ht => e7 m (by omega) i (by omega) t (by omega)⟩
  by_cases hi : I.iso = true
  · simp only [if_pos hi, I.first_G S hF, ok_bind]
    have hv := I.isoArr_spec S hL hF hD junk 0 (2 * I.N) anti
    simp only [Nat.zero_add] at hv
    refine SameOutcome.bind hv fun v v' hvv => ?_
    have h3 : A3.Same (⟨1, v.r, v.c, fun _ => v.get⟩ : A3 ℝ) ⟨1, v'.r, v'.c, fun _ => v'.get⟩ :=
      ⟨rfl, hvv.1, hvv.2.1, fun _ _ i hi t ht => hvv.2.2 i hi t ht⟩
    by_cases hF1 : I.NFourier = 1
    · simp only [if_pos hF1]
      exact A3.bin_same3 _ hx h3
    · simp only [if_neg hF1]
      exact A3.addFirst_same ag (by omega) hx h3
  · simp only [if_neg hi]
    exact hx

theorem umArr_same (hL : 0 < I.NLayers) (hF : 0 < I.NFourier) (hN : 0 < I.N) {tau : A1 ℝ} (hD : I.DepthsOf tau l top bot st) (ag : Bool) (junk : Vec) (anti : Bool) :
    SameOutcome (I.UmRel S tau anti) (I.umArr S ag junk ⟨⟨tau.n, l⟩, ⟨tau.n, top⟩, ⟨tau.n, bot⟩, ⟨tau.n, st⟩⟩ anti) (I.um0 S tau anti) := by
  refine SameOutcome.trans3 ?_ (I.umArr_lit S hL hF hD ag junk anti) (I.umLit_same S hN hF ag tau anti)
  · rintro x y z ⟨h1, h2, h3, h4⟩ ⟨g1, g2, g3, g4⟩
    exact ⟨h1.trans g1, h2.trans g2, h3.trans g3, fun m hm i hi t ht => (h4 m (by omega) i (by omega) t (by omega)).trans (g4 m hm i hi t ht)⟩

theorem sumModesArr_spec {um : A3 ℝ} (h : um.d0 = I.NFourier) (phi : A1 ℝ) : Returns3 (I.sumModesArr um phi) um.d1 um.d2 phi.n
    (fun i t p => ∑ m ∈ range I.NFourier, um.get m i t * Real.cos ((m : ℝ) * (I.phi0 - phi.get p))) := by
  unfold sumModesArr
  simp only [A1.col, A1.row, A1.map, A2.map, A2.bin, A4.bin, bdim_one_left, bdim_one_right, ok_bind, pure, Except.pure, h, bdim_self]
  refine ⟨_, rfl, rfl, rfl, rfl, fun i hi t ht p hp => ?_⟩
  dsimp only
  refine sum_congr rfl fun m hm => ?_
  rw [mem_range] at hm
  simp only [bix_of_lt hm, bix_of_lt hi, bix_of_lt ht, bix_of_lt hp]

theorem uArr_same (hL : 0 < I.NLayers) (hF : 0 < I.NFourier) (hN : 0 < I.N) (ag : Bool) (junk : Vec) (tau phi : A1 ℝ) (anti : Bool) :
    SameOutcome A3.Same (I.uArr S ag junk tau phi anti) (I.uRaw S tau phi anti) := by
  unfold uArr uRaw
  rcases hc : I.checkTau tau with e | u
  · unfold depths; rw [hc]; rfl
  obtain ⟨l, top, bot, st, hdep, hD⟩ := I.depths_spec hL hc
  rw [hdep]
  simp only [ok_bind]
  refine SameOutcome.bind (I.umArr_same S hL hF hN hD ag junk anti) fun U a hU => ?_
  obtain ⟨h1, h2, h3, h4⟩ := hU
  obtain ⟨A, a1, a2, a3, a4, a5⟩ := I.sumModesArr_spec h1 phi
  rw [a1]
  refine ⟨a2.trans h2, a3.trans h3, a4, fun i hi t ht p hp => ?_⟩
  rw [a5 i (by omega) t (by omega) p (by omega)]
  dsimp only
  refine sum_congr rfl fun m hm => ?_
  rw [mem_range] at hm
  rw [h4 m hm i (by omega) t (by omega)]

theorem ulastBeamArr_same (hb : I.beam = true) (hN : 0 < I.N) {tau : A1 ℝ} (hL : 0 < I.NLayers) (hD : I.DepthsOf tau l top bot st) (anti : Bool) :
    SameOutcome A2.Same (I.ulastBeamArr S ⟨⟨tau.n, l⟩, ⟨tau.n, top⟩, ⟨tau.n, bot⟩, ⟨tau.n, st⟩⟩ anti) (I.ulastBeam S tau anti) := by
  have hatt : A2.Same (I.attArr ⟨tau.n, st⟩).row (tau.map fun t => Real.exp (-I.scaledTau t / I.mu0)).row :=
    ⟨rfl, rfl, fun i hi t ht => by
      simp only [attArr, A1.map, A1.row] at ht ⊢
      rw [(hD t ht).2.2.2]⟩
  have hex : ∀ d, (∃ t < tau.n, d ≤ l t) ↔ ∃ t < tau.n, d ≤ I.layer (tau.get t) := by
    intro d
    constructor <;> rintro ⟨t, ht, h⟩ <;> refine ⟨t, ht, ?_⟩
    · rw [← (hD t ht).1]; exact h
    · rw [(hD t ht).1]; exact h
  unfold ulastBeamArr ulastBeam
  rw [if_pos hb]
  simp only [BArr, A3.T, A3.last, pyIndex_neg_one (show 0 < 2 * I.N by omega), ok_bind, pure, Except.pure]
  cases anti
  · simp only [Bool.false_eq_true, if_false, A2.takeCols]
    by_cases hx : ∃ t < tau.n, I.NFourier ≤ I.layer (tau.get t)
    · rw [if_pos hx, if_pos (by exact (hex _).2 hx)]; rfl
    · rw [if_neg hx, if_neg (by exact fun h => hx ((hex _).1 h)), ok_bind]
      refine A2.bin_same' _ ⟨rfl, rfl, fun t ht k hk => ?_⟩ hatt
      simp only [A2.T] at ht hk ⊢
      rw [(hD t ht).1]
  · simp only [if_true, negRate, scaleArr, A1.map]
    refine SameOutcome.bind (SameOutcome.of_eq A2.Same.refl rfl) fun q q' hq => ?_
    unfold A2.takeCols
    by_cases hx : ∃ t < tau.n, q'.c ≤ I.layer (tau.get t)
    · rw [if_pos hx, if_pos (by rw [hq.2.1]; exact (hex _).2 hx)]; rfl
    · rw [if_neg hx, if_neg (by rw [hq.2.1]; exact fun h => hx ((hex _).1 h)), ok_bind]
      refine A2.bin_same' _ ⟨hq.1, rfl, fun k hk t ht => ?_⟩ hatt
      dsimp only at hk ht ⊢
      rw [(hD t ht).1]
      refine hq.2.2 k hk _ ?_
      by_contra h
      exact hx ⟨t, ht, by rw [← hq.2.1]; omega⟩

theorem ulastArr_same (hN : 0 < I.N) (hF : 0 < I.NFourier) {tau : A1 ℝ} (hL : 0 < I.NLayers) (hD : I.DepthsOf tau l top bot st) (anti : Bool) :
    SameOutcome A2.Same (I.ulastArr S ⟨⟨tau.n, l⟩, ⟨tau.n, top⟩, ⟨tau.n, bot⟩, ⟨tau.n, st⟩⟩ anti) (I.ulast S tau anti) := by
  have hl := hD.lt hL
  unfold ulastArr ulast
  simp only [KArr, GCArr, A3.last, A4.last, pyIndex_neg_one hF, ok_bind, pure, Except.pure]
  obtain ⟨h, e1, e2, e3, e4⟩ := I.homArr2_spec (K := S.K (I.NFourier - 1)) (Q := 2 * I.N) (row0 := 0) (GC := S.GC (I.NFourier - 1)) (top := top) (bot := bot)
    (st := st) hl anti
  simp only [Nat.zero_add] at e1 e4
  simp only [e1, ok_bind]
  have hh : A2.Same h ⟨2 * I.N, tau.n, fun i t => ∑ j ∈ range (2 * I.N),
      S.GC (I.NFourier - 1) (I.layer (tau.get t)) i j * (if anti = true then
        Real.exp (I.exponent S (I.NFourier - 1) (tau.get t) j)
          / (I.scale (I.layer (tau.get t)) * S.K (I.NFourier - 1) (I.layer (tau.get t)) j)
      else Real.exp (I.exponent S (I.NFourier - 1) (tau.get t) j))⟩ := by
    refine ⟨e2, e3, fun i hi t ht => ?_⟩
    rw [e4 i (by omega) t (by omega)]
    dsimp only
    obtain ⟨d1, d2, d3, d4⟩ := hD t (by omega)
    rw [d1, d2, d3, d4]
    rfl
  by_cases hb : I.beam = true
  · rw [if_pos hb]
    exact SameOutcome.bind (I.ulastBeamArr_same S hb hN hL hD anti) fun b b' hbb => A2.bin_same' _ hh hbb
  · rw [if_neg hb]
    unfold ulastBeamArr
    rw [if_neg hb, ok_bind]
    exact SameOutcome.trans2 A2.Same_one_add hh

theorem npMax3_congr {a b c : ℕ} {f g : ℕ → ℕ → ℕ → ℝ} (h : ∀ i < a, ∀ j < b, ∀ k < c, f i j k = g i j k) :
    npMax3 ⟨a, b, c, f⟩ = npMax3 ⟨a, b, c, g⟩ := by
  unfold npMax3
  by_cases hne : (range a ×ˢ range b ×ˢ range c).Nonempty
  · simp only [dif_pos hne]
    congr 1
    refine sup'_congr hne rfl fun x hx => ?_
    simp only [mem_product, mem_range] at hx
    exact h _ hx.1 _ hx.2.1 _ hx.2.2
  · simp only [dif_neg hne]

theorem fourierErrorArr_same (hL : 0 < I.NLayers) (hF : 0 < I.NFourier) (hN : 0 < I.N) (ag : Bool) (junk : Vec) (tau phi : A1 ℝ) (anti : Bool) :
    I.fourierErrorArr S ag junk tau phi anti = I.fourierError S tau phi anti := by
  unfold fourierErrorArr fourierError
  have hu := I.uArr_same S hL hF hN ag junk tau phi anti
  rcases h1 : I.uArr S ag junk tau phi anti with e | u <;> rcases h2 : I.uRaw S tau phi anti with e' | u' <;> rw [h1, h2] at hu
  · have : e = e' := hu
    rw [this]; rfl
  · exact hu.elim
  · exact hu.elim
  have hc : I.checkTau tau = .ok () := by
    unfold uRaw at h2
    rcases hc : I.checkTau tau with e | x
    · rw [hc] at h2; cases h2
    · rfl
  obtain ⟨l, top, bot, st, hdep, hD⟩ := I.depths_spec hL hc
  rw [hdep]
  simp only [ok_bind]
  have hul := I.ulastArr_same S hN hF hL hD anti
  rcases h3 : I.ulastArr S ⟨⟨tau.n, l⟩, ⟨tau.n, top⟩, ⟨tau.n, bot⟩, ⟨tau.n, st⟩⟩ anti with e | ul <;>
    rcases h4 : I.ulast S tau anti with e' | ul' <;> rw [h3, h4] at hul
  · have : e = e' := hul
    rw [this]; rfl
  · exact hul.elim
  · exact hul.elim
  obtain ⟨u1, u2, u3, u4⟩ := hu
  obtain ⟨w1, w2, w3⟩ := hul
  have hp : u'.d2 = phi.n := by
    unfold uRaw at h2
    rw [hc, ok_bind] at h2
    rcases ha : I.um0 S tau anti with e | a <;> rw [ha] at h2
    · cases h2
    · cases h2; rfl
  have hp' : u.d2 = phi.n := u3.trans hp
  simp only [A3.bin, A3.map, A1.map, bdim_one_left, bdim_one_right, ok_bind, pure, Except.pure, hp', bdim_self, w1, w2, u1, u2]
  rcases hr : bdim ul'.r u'.d0 with e | r
  · rfl
  rcases hcc : bdim ul'.c u'.d1 with e | c
  · rfl
  simp only [ok_bind, and_true]
  by_cases hrc : r = u'.d0 ∧ c = u'.d1
  · rw [if_pos hrc, if_pos hrc]
    obtain ⟨rfl, rfl⟩ := hrc
    rw [hp]
    refine npMax3_congr fun i hi t ht p hpp => ?_
    simp only [bix_of_lt hi, bix_of_lt ht, bix_of_lt hpp, bix_of_lt (bix_lt hr hi), bix_of_lt (bix_lt hcc ht)]
    rw [u4 i (by omega) t (by omega) p (by omega), w3 _ (by rw [w1]; exact bix_lt hr hi) _ (by rw [w2]; exact bix_lt hcc ht)]
  · rw [if_neg hrc, if_neg hrc]

theorem actReclassArr_same (hL : 0 < I.NLayers) {tau : A1 ℝ} (hc : I.checkTau tau = .ok ()) (anti : Bool) :
    SameOutcome A1.Same (I.actReclassArr tau anti) (.ok (I.actReclass tau anti)) := by
  obtain ⟨l, top, bot, st, hdep, hD⟩ := I.depths_spec hL hc
  have hl := DepthsOf.lt (I := I) hD hL
  unfold actReclassArr actReclass
  rw [hdep, ok_bind]
  by_cases hs : ∃ k < I.NLayers, I.scale k ≠ 1
  · rw [if_pos hs, if_pos (by exact hs)]
    cases anti
    · simp only [Bool.false_eq_true, if_false, attArr, A1.map, A1.bin, bdim_self, ok_bind, pure, Except.pure]
      refine ⟨rfl, fun t ht => ?_⟩
      dsimp only at ht ⊢
      rw [bix_of_lt ht, (hD t ht).2.2.2]
    · simp only [if_true, scaleArr, take_eq (l := ⟨tau.n, l⟩) hl, attArr, A1.map, A1.bin, bdim_self, ok_bind, pure, Except.pure]
      refine ⟨rfl, fun t ht => ?_⟩
      dsimp only at ht ⊢
      rw [bix_of_lt ht, bix_of_lt ht, (hD t ht).2.2.2, (hD t ht).1]
  · rw [if_neg hs, if_neg (by exact hs)]
    exact ⟨rfl, fun t _ => rfl⟩

theorem depths_error {tau : A1 ℝ} {e : PyErr} (hc : I.checkTau tau = .error e) : I.depths tau = .error e := by
  unfold depths; rw [hc]; rfl

end AsmIn
end Pydisort

import Verif.Model.NTArr
import Verif.EvalArrLemmas
import Verif.NTLemmas
import Verif.ReturnedLemmas

/-! Helper lemmas: the array program of the corrections computes the entries of the pointwise model. -/

namespace Pydisort
open Finset Spec

theorem stackAxis1_map {n : ℕ} (hn : n ≠ 0) (nu : A2 ℝ) (g : ℕ → ℝ → ℝ) :
    stackAxis1 n (fun k => nu.map (g k)) = .ok ⟨nu.r, n, nu.c, fun i k p => g k (nu.get i p)⟩ := by
  unfold stackAxis1
  rw [if_neg hn, if_pos fun k _ => ⟨rfl, rfl⟩]
  rfl

theorem amin_ok {l : A1 ℕ} (h : 0 < l.n) : ∃ m, l.amin = .ok m ∧ ∀ b, m < b ↔ ∃ t < l.n, l.get t < b := by
  unfold A1.amin
  rw [dif_pos h]
  exact ⟨_, rfl, fun b => by simp [Finset.inf'_lt_iff]⟩

theorem amax_ok {l : A1 ℕ} (h : 0 < l.n) : ∃ m, l.amax = .ok m ∧ ∀ b, b < m ↔ ∃ t < l.n, b < l.get t := by
  unfold A1.amax
  rw [dif_pos h]
  exact ⟨_, rfl, fun b => by simp [Finset.lt_sup'_iff]⟩

namespace NTIn
variable (I : NTIn)

theorem tmsDepths_spec {tau : A1 ℝ} {l : ℕ → ℕ} (hl : ∀ t < tau.n, l t < I.NLayers) : ∃ st, I.tmsDepths tau ⟨tau.n, l⟩
      = .ok ⟨⟨tau.n, l⟩, ⟨tau.n, fun t => I.tau0 (l t)⟩, ⟨tau.n, fun t => I.tau0 (l t + 1)⟩, ⟨tau.n, st⟩⟩ ∧
    ∀ t < tau.n, st t = I.st (l t) (tau.get t) := by
  obtain ⟨n, ta⟩ := tau
  dsimp only at hl
  unfold tmsDepths
  simp only [tau0A, tauAr, scaleA, A1.tail, Nat.add_sub_cancel, take_eq (l := ⟨n, l⟩) hl, take_eq (NL := I.NLayers + 1) (l := ⟨n, l⟩) fun t ht => Nat.lt_succ_of_lt (hl t ht), ok_bind, A1.bin, bdim_self, pure, Except.pure]
  refine ⟨_, rfl, fun t ht => ?_⟩
  simp only [bix_of_lt ht, st]

theorem tmsBArr_spec {nu : A2 ℝ} (hr : nu.r = 2 * I.N) {u : A1 ℕ} (hu : ∀ k < u.n, u.get k < I.NLayers) (h0 : u.n ≠ 0) :
    Returns3 (I.tmsBArr nu u) (2 * I.N) u.n nu.c (fun i k p => I.tmsB i (u.get k) (nu.get i p)) := by
  obtain ⟨n, l⟩ := u
  dsimp only at hu h0
  unfold tmsBArr
  simp only [omegaSA, fA, muA, A1.map, takeRows_eq (l := ⟨n, l⟩) hu, take_eq (l := ⟨n, l⟩) hu, ok_bind, stackAxis1_map h0, A1.mid, A1.lead, A3.bin, bdim_self, bdim_one_left, bdim_one_right,
    pure, Except.pure, hr]
  refine ⟨_, rfl, rfl, rfl, rfl, fun i hi k hk p hp => ?_⟩
  simp only [bix_of_lt hi, bix_of_lt hk, bix_of_lt hp, tmsB]

theorem tmsBArr_none {nu : A2 ℝ} {u : A1 ℕ} (h0 : u.n = 0) :
    I.tmsBArr nu u = .error (.valueError "need at least one array to concatenate") := by
  obtain ⟨n, l⟩ := u
  obtain rfl : n = 0 := h0
  unfold tmsBArr
  rw [takeRows_eq (l := ⟨0, l⟩) (fun t ht => by cases ht), ok_bind, stackAxis1, if_pos rfl]
  rfl

theorem tmsOwnArr_spec {n : ℕ} {l : ℕ → ℕ} {st : ℕ → ℝ} {u v : A1 ℕ} (hu : ∀ k < u.n, u.get k < I.NLayers) (hv : v.n = n) (hvu : ∀ t < n, v.get t < u.n)
    (hl : ∀ t < n, u.get (v.get t) = l t) (anti : Bool) :
    Returns2 (I.tmsOwnArr ⟨⟨n, l⟩, ⟨n, fun t => I.tau0 (l t)⟩, ⟨n, fun t => I.tau0 (l t + 1)⟩, ⟨n, st⟩⟩ u v anti) (2 * I.N) n
      (fun i t => I.tmsOwn anti (l t) (st t) i) := by
  obtain ⟨k, u⟩ := u
  obtain ⟨n', v⟩ := v
  obtain rfl : n' = n := hv
  dsimp only at hu hvu hl
  have hc : ∀ (r : ℕ) (A : ℕ → ℕ → ℝ), (A2.mk r k A).takeCols ⟨n', v⟩ = .ok ⟨r, n', fun i t => A i (v t)⟩ := fun r A => takeCols_eq hvu
  have hr : ∀ (A : ℕ → ℝ), (A1.mk k A).take ⟨n', v⟩ = .ok ⟨n', fun t => A (v t)⟩ := fun A => take_eq (l := ⟨n', v⟩) hvu
  unfold tmsOwnArr
  cases anti
  · simp only [muPosA, A1.map, A1.row, A1.col, A2.map, ok_bind, A1.bin, A2.bin, bdim_self, bdim_one_left, bdim_one_right, pure, Except.pure, Bool.false_eq_true, if_false, A2.catRows, if_true]
    refine ⟨_, rfl, by dsimp only; omega, rfl, fun i hi t ht => ?_⟩
    by_cases hin : i < I.N
    · simp only [if_pos hin, bix_of_lt hin, bix_of_lt ht, bix_one, tmsOwn, Bool.false_eq_true, if_false]
    · have h' : i - I.N < I.N := by omega
      simp only [if_neg hin, bix_of_lt h', bix_of_lt ht, bix_one, tmsOwn, Bool.false_eq_true, if_false]
  · simp only [muPosA, scaleA, A1.map, A1.row, A1.col, A2.map, take_eq (l := ⟨k, u⟩) hu, hr, ok_bind, A1.bin, A2.bin, bdim_self, bdim_one_left, bdim_one_right, pure, Except.pure, hc, if_true, A2.catRows]
    refine ⟨_, rfl, by dsimp only; omega, rfl, fun i hi t ht => ?_⟩
    by_cases hin : i < I.N
    · simp only [if_pos hin, bix_of_lt hin, bix_of_lt ht, bix_of_lt (hvu t ht), bix_one, tmsOwn, if_true, hl t ht]
    · have h' : i - I.N < I.N := by omega
      simp only [if_neg hin, bix_of_lt h', bix_of_lt ht, bix_of_lt (hvu t ht), bix_one, tmsOwn, if_true, hl t ht]

theorem expFrontArr_spec (hL : 0 < I.NLayers) : ∃ e, I.expFrontArr = ⟨I.NLayers, e⟩ ∧ ∀ r < I.NLayers, e r = I.expFront r := by
  refine ⟨I.expFrontArr.get, ?_, fun r hr => ?_⟩
  · unfold expFrontArr A1.cat A1.map A1.tail A1.init tau0A
    congr 1
    dsimp only; omega
  · simp only [expFrontArr, A1.cat, A1.map, A1.tail, A1.init, tau0A, expFront, mu0Inv]
    by_cases h : r = 0
    · subst h; simp
    · rw [if_neg h, if_neg (by omega), show r - 1 + 1 = r by omega]

theorem logDecayArr_spec : Returns2 I.logDecayArr I.N I.NLayers I.logDecay := by
  unfold logDecayArr
  simp only [thickA, MinvA, A1.map, A1.row, A1.col, A2.bin, bdim_one_left, bdim_one_right, ok_bind, pure, Except.pure]
  refine ⟨_, rfl, rfl, rfl, fun i hi j hj => ?_⟩
  simp only [bix_of_lt hi, bix_of_lt hj, bix_one, logDecay]

theorem cumsum_congr {u v : Vec} {n i : ℕ} (h : ∀ j < n, u j = v j) (hi : i < n) : cumsum u i = cumsum v i :=
  sum_congr rfl fun j hj => h j (by rw [mem_range] at hj; omega)

theorem decayProdArr_spec : Returns2 I.decayProdArr I.N (I.NLayers + 1) I.decayProd := by
  obtain ⟨⟨r, c, A⟩, h1, h2, h3, h4⟩ := I.logDecayArr_spec
  dsimp only at h2 h3 h4
  subst h2 h3
  unfold decayProdArr
  simp only [h1, ok_bind, A2.cumsum1, A2.map, A2.catLast, if_true]
  refine ⟨_, rfl, rfl, Nat.add_comm _ _, fun i hi j hj => ?_⟩
  dsimp only
  unfold decayProd
  by_cases h : j = 0
  · subst h; simp
  · rw [if_neg (by omega), if_neg h]
    rw [cumsum_congr (fun j hj => h4 i hi j hj) (by omega)]

theorem intFactorArr_spec : Returns2 I.intFactorArr I.N I.NLayers I.intFactor := by
  unfold intFactorArr
  simp only [muPosA, scaleA, A1.row, A1.col, A2.bin, bdim_one_left, bdim_one_right, ok_bind, pure, Except.pure]
  refine ⟨_, rfl, rfl, rfl, fun i hi j hj => ?_⟩
  simp only [bix_of_lt hi, bix_of_lt hj, bix_one, intFactor]

theorem bin_thick {g : ℝ → ℝ} : A2.bin (fun x y : ℝ => x * y) ⟨1, I.NLayers, fun _ j => I.thick j⟩ ⟨I.N, 1, fun i _ => g (I.M_inv i)⟩
    = .ok ⟨I.N, I.NLayers, fun i j => I.thick (bix I.NLayers j) * g (I.M_inv (bix I.N i))⟩ := by
  simp only [A2.bin, bdim_one_left, bdim_one_right, ok_bind, pure, Except.pure, bix_one]

theorem RposArr_spec (hL : 0 < I.NLayers) (anti : Bool) : Returns2 (I.RposArr anti) I.N I.NLayers (I.Rpos anti) := by
  obtain ⟨⟨r, c, A⟩, h1, h2, h3, h4⟩ := I.decayProdArr_spec
  obtain ⟨⟨r', c', f⟩, g1, g2, g3, g4⟩ := I.intFactorArr_spec
  obtain ⟨e, e1, e2⟩ := I.expFrontArr_spec hL
  dsimp only at h2 h3 h4 g2 g3 g4
  subst h2 h3 g2 g3
  unfold RposArr
  simp only [h1, g1, ok_bind, thickA, MinvA, A1.map, A1.row, A1.col, A2.map, I.bin_thick (g := fun x => x + I.mu0Inv), bin_mk, e1, bin_mk_row, A2.cols,
    show min I.NLayers (I.NLayers + 1) - min 0 (I.NLayers + 1) = I.NLayers by omega, A2.flip1, A2.cumsum1,
    show min I.NLayers I.NLayers - min 1 I.NLayers = I.NLayers - 1 by omega, show min I.NLayers (I.NLayers + 1) - min 1 (I.NLayers + 1) = I.NLayers - 1 by omega, A2.catLast, if_true]
  cases anti
  all_goals
    simp only [if_true, Bool.false_eq_true, if_false]
    refine ⟨_, rfl, rfl, by dsimp only; omega, fun i hi j hj => ?_⟩
    dsimp only
    unfold Rpos
    by_cases hj' : j < I.NLayers - 1
    · rw [if_pos hj', if_pos hj']
      simp only [bix_of_lt hi, bix_of_lt hj']
      rw [h4 i hi (1 + j) (by omega), show 1 + j = j + 1 by omega]
      congr 1
      unfold cumsumPos
      refine cumsum_congr (n := I.NLayers) (fun r hr => ?_) (by omega)
      have h' : I.NLayers - 1 - r < I.NLayers := by omega
      simp only [bix_of_lt h', e2 _ h', Nat.zero_add, h4 i hi _ (Nat.lt_succ_of_lt h'), g4 i hi _ h', wTermPos, em1Pos, if_true, Bool.false_eq_true, if_false, mu0Inv]
    · rw [if_neg hj', if_neg hj']

theorem RnegArr_spec (hL : 0 < I.NLayers) (anti : Bool) : Returns2 (I.RnegArr anti) I.N I.NLayers (I.Rneg anti) := by
  obtain ⟨⟨r, c, A⟩, h1, h2, h3, h4⟩ := I.decayProdArr_spec
  obtain ⟨⟨r', c', f⟩, g1, g2, g3, g4⟩ := I.intFactorArr_spec
  obtain ⟨⟨r'', c'', ld⟩, k1, k2, k3, k4⟩ := I.logDecayArr_spec
  obtain ⟨e, e1, e2⟩ := I.expFrontArr_spec hL
  dsimp only at h2 h3 h4 g2 g3 g4 k2 k3 k4
  subst h2 h3 g2 g3 k2 k3
  unfold RnegArr
  simp only [h1, g1, k1, ok_bind, thickA, MinvA, A1.map, A1.row, A1.col, A2.map, I.bin_thick (g := fun x => x - I.mu0Inv), e1, bin_mk_row, tau0A, A1.tail, Nat.add_sub_cancel, bin_mk, A2.cols,
    show min (I.NLayers + 1) (I.NLayers + 1) - min 1 (I.NLayers + 1) = I.NLayers by omega, A2.cumsum1,
    show min I.NLayers (I.NLayers + 1) - min 1 (I.NLayers + 1) = I.NLayers - 1 by omega, show min (I.NLayers - 1) I.NLayers - min 0 I.NLayers = I.NLayers - 1 by omega, A2.catLast, if_true]
  cases anti
  all_goals
    simp only [if_true, Bool.false_eq_true, if_false]
    refine ⟨_, rfl, rfl, by dsimp only; omega, fun i hi j hj => ?_⟩
    dsimp only
    unfold Rneg
    by_cases hj' : j = 0
    · subst hj'; simp
    · rw [if_neg hj', if_neg (by omega)]
      have hj1 : j - 1 < I.NLayers - 1 := by omega
      simp only [bix_of_lt hi, bix_of_lt hj1]
      rw [h4 i hi (1 + (j - 1)) (by omega), show 1 + (j - 1) = j by omega, Nat.zero_add]
      congr 1
      refine cumsum_congr (n := I.NLayers) (fun r hr => ?_) (by omega)
      simp only [bix_of_lt hr, e2 _ hr, h4 i hi _ (show r + 1 < I.NLayers + 1 by omega), g4 i hi _ hr, k4 i hi _ hr, termNeg, if_true, Bool.false_eq_true, if_false, mu0Inv, Nat.add_comm 1 r]

theorem addBelow_spec (hL : 0 < I.NLayers) (ag anti : Bool) {n P : ℕ} {l : ℕ → ℕ} {st : ℕ → ℝ} {tau : A1 ℝ} (hn : tau.n = n) (hl : ∀ t < n, l t < I.NLayers)
    (hst : ∀ t < n, st t = I.st (l t) (tau.get t)) {u v : A1 ℕ} (hv : v.n = n) (hvu : ∀ t < n, v.get t < u.n) (hul : ∀ t < n, u.get (v.get t) = l t)
    {nu : A2 ℝ} (hP : nu.c = P) {B : ℕ → ℕ → ℕ → ℝ} (hB : ∀ i < 2 * I.N, ∀ k < u.n, ∀ p < P, B i k p = I.tmsB i (u.get k) (nu.get i p))
    {sol sol' : A3 ℝ} (hs : A3.Same sol sol') (h0 : sol.d0 = 2 * I.N) :
    SameOutcome A3.Same (I.addBelow ag anti ⟨⟨n, l⟩, ⟨n, fun t => I.tau0 (l t)⟩, ⟨n, fun t => I.tau0 (l t + 1)⟩, ⟨n, st⟩⟩ v ⟨2 * I.N, u.n, P, B⟩ sol)
      (A3.addFirst ag sol' I.N (I.tmsBelow tau nu anti l)) := by
  obtain ⟨⟨r, c, R⟩, h1, h2, h3, h4⟩ := I.RposArr_spec hL anti
  obtain ⟨k, u⟩ := u
  obtain ⟨n', v⟩ := v
  obtain rfl : n' = n := hv
  dsimp only at hvu hul hB h2 h3 h4
  subst h2 h3 hP
  unfold addBelow
  simp only [h1, ok_bind, tau0A, A1.tail, Nat.add_sub_cancel, take_eq (l := ⟨n', l⟩) hl, A1.bin, bdim_self, pure, Except.pure, MinvA, A1.row, A1.col, A2.bin, A2.map, bdim_one_left, bdim_one_right,
    takeCols_eq (l := ⟨n', l⟩) hl, A3.rows, take1_eq (l := ⟨n', v⟩) hvu, A2.deep, A3.bin, Nat.sub_zero, Nat.zero_add]
  refine AsmIn.A3.addFirst_same ag (by omega) hs ⟨rfl, hn.symm, rfl, fun i hi t ht p hp => ?_⟩
  dsimp only at hi ht hp
  have h' := hvu t ht
  simp only [bix_of_lt hi, bix_of_lt ht, bix_of_lt hp, bix_one, tmsBelow, h4 i hi _ (hl t ht), hst t ht, hB i (by omega) _ h' p hp, hul t ht]

theorem addAbove_spec (hL : 0 < I.NLayers) (ag anti : Bool) {n P : ℕ} {l : ℕ → ℕ} {st : ℕ → ℝ} {tau : A1 ℝ} (hn : tau.n = n) (hl : ∀ t < n, l t < I.NLayers)
    (hst : ∀ t < n, st t = I.st (l t) (tau.get t)) {u v : A1 ℕ} (hv : v.n = n) (hvu : ∀ t < n, v.get t < u.n) (hul : ∀ t < n, u.get (v.get t) = l t)
    {nu : A2 ℝ} (hP : nu.c = P) {B : ℕ → ℕ → ℕ → ℝ} (hB : ∀ i < 2 * I.N, ∀ k < u.n, ∀ p < P, B i k p = I.tmsB i (u.get k) (nu.get i p))
    {sol sol' : A3 ℝ} (hs : A3.Same sol sol') (h0 : sol.d0 = 2 * I.N) :
    SameOutcome A3.Same (I.addAbove ag anti ⟨⟨n, l⟩, ⟨n, fun t => I.tau0 (l t)⟩, ⟨n, fun t => I.tau0 (l t + 1)⟩, ⟨n, st⟩⟩ v ⟨2 * I.N, u.n, P, B⟩ sol)
      (A3.addLast ag sol' I.N (I.tmsAbove tau nu anti l)) := by
  obtain ⟨⟨r, c, R⟩, h1, h2, h3, h4⟩ := I.RnegArr_spec hL anti
  obtain ⟨k, u⟩ := u
  obtain ⟨n', v⟩ := v
  obtain rfl : n' = n := hv
  dsimp only at hvu hul hB h2 h3 h4
  subst h2 h3 hP
  unfold addAbove
  simp only [h1, ok_bind, tau0A, A1.init, Nat.add_sub_cancel, take_eq (l := ⟨n', l⟩) hl, A1.bin, bdim_self, pure, Except.pure, MinvA, A1.row, A1.col, A2.bin, A2.map, bdim_one_left, bdim_one_right,
    takeCols_eq (l := ⟨n', l⟩) hl, A3.rows, take1_eq (l := ⟨n', v⟩) hvu, A2.deep, A3.bin, show 2 * I.N - I.N = I.N by omega]
  refine AsmIn.A3.addLast_same ag (by omega) hs ⟨rfl, hn.symm, rfl, fun i hi t ht p hp => ?_⟩
  dsimp only at hi ht hp
  have h' := hvu t ht
  simp only [bix_of_lt hi, bix_of_lt ht, bix_of_lt hp, bix_one, tmsAbove, h4 i hi _ (hl t ht), hst t ht, hB (I.N + i) (by omega) _ h' p hp, hul t ht]

theorem tmsArr_same (hL : 0 < I.NLayers) (hN : 0 < I.N) (ag : Bool) (tau phi : A1 ℝ) (anti : Bool) {l : ℕ → ℕ} (hl : ∀ t < tau.n, l t < I.NLayers) :
    SameOutcome A3.Same (I.tmsArr ag tau phi anti ⟨tau.n, l⟩) (I.tmsLit ag tau phi anti l) := by
  obtain ⟨st, d1, d2⟩ := I.tmsDepths_spec hl
  obtain ⟨nu, n1, n2, n3, n4⟩ := nu2d (mu := ⟨2 * I.N, I.muArr⟩) (phi := phi) (-I.mu0) I.phi0 (Or.inl (by simp only; omega))
  have hnu : I.nuTMS phi = .ok nu := n1
  unfold tmsArr tmsLit
  simp only [d1, hnu, ok_bind]
  by_cases h0 : tau.n = 0
  · rw [if_pos h0, I.tmsBArr_none (by
      by_contra hc
      have : (npUnique ⟨tau.n, l⟩).1.get 0 ∈ ((range tau.n).image l).sort (fun a b => a ≤ b) := by
        change List.getD _ 0 0 ∈ _
        rw [List.getD_eq_getElem _ _ (Nat.pos_of_ne_zero hc)]
        exact List.getElem_mem _
      rw [h0] at this
      simp at this)]
    rfl
  rw [if_neg h0]
  have hpos : 0 < tau.n := Nat.pos_of_ne_zero h0
  have hvu : ∀ t < tau.n, (npUnique ⟨tau.n, l⟩).2.get t < (npUnique ⟨tau.n, l⟩).1.n := fun t ht => npUnique_inv_lt ⟨tau.n, l⟩ ht
  have hul : ∀ t < tau.n, (npUnique ⟨tau.n, l⟩).1.get ((npUnique ⟨tau.n, l⟩).2.get t) = l t := fun t ht => npUnique_inv ⟨tau.n, l⟩ ht
  have hu : ∀ k < (npUnique ⟨tau.n, l⟩).1.n, (npUnique ⟨tau.n, l⟩).1.get k < I.NLayers := npUnique_lt (l := ⟨tau.n, l⟩) hl
  have hvn : (npUnique ⟨tau.n, l⟩).2.n = tau.n := rfl
  generalize (npUnique ⟨tau.n, l⟩).1 = u at *
  generalize (npUnique ⟨tau.n, l⟩).2 = v at *
  obtain ⟨⟨b0, b1, b2, B⟩, e1, e2, e3, e4, e5⟩ := I.tmsBArr_spec n2 hu (by have := hvu 0 hpos; omega)
  obtain ⟨⟨o0, o1, O⟩, f1, f2, f3, f4⟩ := I.tmsOwnArr_spec (l := l) (st := st) hu hvn hvu hul anti
  dsimp only at e2 e3 e4 e5 f2 f3 f4
  subst e2 e3 e4 f2 f3
  rw [e1, ok_bind, f1, ok_bind]
  obtain ⟨vn, v⟩ := v
  obtain rfl : vn = tau.n := hvn
  dsimp only at hvu hul
  rw [take1_eq (l := ⟨tau.n, v⟩) hvu, ok_bind]
  simp only [A2.deep, A3.bin, bdim_self, bdim_one_right, ok_bind, pure, Except.pure]
  have hself : A3.Same (⟨2 * I.N, tau.n, nu.c, fun i t p => B (bix (2 * I.N) i) (v (bix tau.n t)) (bix nu.c p) * O (bix (2 * I.N) i) (bix tau.n t)⟩ : A3 ℝ)
      (I.tmsSelf tau nu anti l) := ⟨rfl, rfl, rfl, fun i hi t ht p hp => by
        dsimp only at hi ht hp
        simp only [bix_of_lt hi, bix_of_lt ht, bix_of_lt hp, tmsSelf, e5 i hi _ (hvu t ht) p hp, hul t ht, f4 i hi t ht, d2 t ht]⟩
  by_cases hm : I.NLayers > 1
  · obtain ⟨mn, m1, m2⟩ := amin_ok (l := ⟨tau.n, l⟩) hpos
    obtain ⟨mx, x1, x2⟩ := amax_ok (l := ⟨tau.n, l⟩) hpos
    simp only [if_pos hm, m1, x1, ok_bind]
    simp only [m2, gt_iff_lt, x2]
    have above : ∀ sol sol' : A3 ℝ, A3.Same sol sol' → sol.d0 = 2 * I.N → SameOutcome A3.Same
        (if ∃ t < tau.n, 0 < l t then I.addAbove ag anti ⟨⟨tau.n, l⟩, ⟨tau.n, fun t => I.tau0 (l t)⟩, ⟨tau.n, fun t => I.tau0 (l t + 1)⟩, ⟨tau.n, st⟩⟩
          ⟨tau.n, v⟩ ⟨2 * I.N, u.n, nu.c, B⟩ sol else .ok sol)
        (if ∃ t < tau.n, 0 < l t then A3.addLast ag sol' I.N (I.tmsAbove tau nu anti l) else .ok sol') := by
      intro sol sol' hs h0
      by_cases hx : ∃ t < tau.n, 0 < l t
      · rw [if_pos hx, if_pos hx]
        exact I.addAbove_spec hL ag anti rfl hl d2 rfl hvu hul rfl e5 hs h0
      · rw [if_neg hx, if_neg hx]
        exact hs
    by_cases hn : ∃ t < tau.n, l t < I.NLayers - 1
    · rw [if_pos hn, if_pos hn]
      refine SameOutcome.bind_right (I.addBelow_spec hL ag anti rfl hl d2 rfl hvu hul rfl e5 hself rfl) fun x y hy hxy => above x y hxy ?_
      obtain ⟨C, c1, c2, -⟩ := A3.addFirst_returns ag (N := I.N) (M := 2 * I.N) (sol := I.tmsSelf tau nu anti l) (tmp := I.tmsBelow tau nu anti l) (by omega) rfl rfl rfl rfl rfl rfl
      rw [c1] at hy
      cases hy
      exact hxy.1.trans c2
    · rw [if_neg hn, if_neg hn]
      exact above _ _ hself rfl
  · simp only [if_neg hm]
    exact hself

theorem residueArr_spec (hleg : I.NLeg ≤ I.NLegAll) : ∃ r, I.residueArr = .ok ⟨I.NLegAll, r⟩ ∧ ∀ j < I.NLegAll, r j = I.residueAvg j := by
  unfold residueArr
  simp only [fA, omegaA, tauAr, A1.bin, bdim_self, ok_bind, pure, Except.pure, A2.setCols, A2.T, Nat.min_eq_left hleg, true_or, and_self, if_true, A1.col, A2.bin, bdim_one_right, A2.sum0, A1.map]
  refine ⟨_, rfl, fun j hj => ?_⟩
  unfold residueAvg sum2
  congr 1
  · refine sum_congr rfl fun k hk => ?_
    rw [mem_range] at hk
    simp only [bix_of_lt hk, bix_of_lt hj]
  · refine sum_congr rfl fun k hk => ?_
    rw [mem_range] at hk
    simp only [bix_of_lt hk]

theorem chiArr_spec (tau : A1 ℝ) (anti : Bool) : Returns2 (I.chiArr tau anti) I.N tau.n (fun i t => imsChi anti (I.mu i) I.scaledMu0 (tau.get t)) := by
  obtain ⟨n, tau⟩ := tau
  unfold chiArr
  cases anti
  all_goals
    simp only [muPosA, A1.map, A1.row, A1.col, A2.map, A1.bin, A2.bin, bdim_self, bdim_one_left, bdim_one_right, ok_bind, pure, Except.pure, if_true, Bool.false_eq_true, if_false]
    refine ⟨_, rfl, rfl, rfl, fun i hi t ht => ?_⟩
    simp only [bix_of_lt hi, bix_of_lt ht, bix_one, imsChi, if_true, Bool.false_eq_true, if_false]

theorem imsArr_same (hleg : I.NLeg ≤ I.NLegAll) (tau phi : A1 ℝ) (anti : Bool) : SameOutcome A3.Same (I.imsArr tau phi anti) (I.ims tau phi anti) := by
  obtain ⟨r, r1, r2⟩ := I.residueArr_spec hleg
  obtain ⟨⟨c0, c1, chi⟩, e1, e2, e3, e4⟩ := I.chiArr_spec tau anti
  dsimp only at e2 e3 e4
  subst e2 e3
  unfold imsArr ims
  simp only [r1, e1, ok_bind]
  rcases hnu : I.nuIMS phi with e | nu
  · rfl
  simp only [ok_bind, A1.map, A1.bin, bdim_self, pure, Except.pure, A2.map, A2.deep, A3.bin, bdim_one_left, bdim_one_right]
  rcases hb : bdim nu.r I.N with e | d
  · rfl
  refine ⟨rfl, rfl, rfl, fun i hi t ht p hp => ?_⟩
  dsimp only at hi ht hp
  have hi' : bix I.N i < I.N := bix_lt' hb hi
  simp only [bix_of_lt ht, bix_of_lt hp, e4 _ hi' t ht, imsFac]
  congr 2
  unfold legSeries
  refine sum_congr rfl fun k hk => ?_
  rw [mem_range] at hk
  simp only [bix_of_lt hk, r2 k hk]

theorem tmsLit_d0 (hN : 0 < I.N) {ag : Bool} {tau phi : A1 ℝ} {anti : Bool} {l : ℕ → ℕ} (hl : ∀ t < tau.n, l t < I.NLayers) {y : A3 ℝ}
    (hy : I.tmsLit ag tau phi anti l = .ok y) : y.d0 = 2 * I.N := by
  by_cases ht : tau.n = 0
  · obtain ⟨nu, n1, -⟩ := nu2d (mu := ⟨2 * I.N, I.muArr⟩) (phi := phi) (-I.mu0) I.phi0 (Or.inl (by simp only; omega))
    have hnu : I.nuTMS phi = .ok nu := n1
    unfold tmsLit at hy
    rw [hnu, ok_bind, if_pos ht] at hy
    cases hy
  · obtain ⟨A, a1, a2, -⟩ := I.tmsLit_returns ag hN phi anti l ht hl
    rw [a1] at hy
    cases hy
    exact a2

theorem tmsLit_congr (hN : 0 < I.N) (ag : Bool) (tau phi : A1 ℝ) (anti : Bool) {l l' : ℕ → ℕ} (hl : ∀ t < tau.n, l t < I.NLayers) (h : ∀ t < tau.n, l t = l' t) :
    SameOutcome A3.Same (I.tmsLit ag tau phi anti l) (I.tmsLit ag tau phi anti l') := by
  by_cases ht : tau.n = 0
  · obtain ⟨nu, n1, -⟩ := nu2d (mu := ⟨2 * I.N, I.muArr⟩) (phi := phi) (-I.mu0) I.phi0 (Or.inl (by simp only; omega))
    have hnu : I.nuTMS phi = .ok nu := n1
    unfold tmsLit
    rw [hnu, ok_bind, ok_bind, if_pos ht, if_pos ht]
    rfl
  · obtain ⟨A, a1, a2, a3, a4, a5⟩ := I.tmsLit_returns ag hN phi anti l ht hl
    obtain ⟨B, b1, b2, b3, b4, b5⟩ := I.tmsLit_returns ag hN phi anti l' ht (fun t ht => h t ht ▸ hl t ht)
    rw [a1, b1]
    refine ⟨a2.trans b2.symm, a3.trans b3.symm, a4.trans b4.symm, fun i hi t ht p hp => ?_⟩
    rw [a5 i (by omega) t (by omega) p (by omega), b5 i (by omega) t (by omega) p (by omega)]
    beta_reduce
    rw [h t (by omega)]

theorem corrArr_same (hL : 0 < I.NLayers) (hN : 0 < I.N) (hleg : I.NLeg ≤ I.NLegAll) (ag : Bool) (tau phi : A1 ℝ) (anti : Bool) {l l' : ℕ → ℕ}
    (hl : ∀ t < tau.n, l t < I.NLayers) (h : ∀ t < tau.n, l t = l' t) :
    SameOutcome A3.Same (I.corrArr ag tau phi anti ⟨tau.n, l⟩) (I.corrLit ag tau phi anti l') := by
  unfold corrArr corrLit
  have h1 : SameOutcome A3.Same (I.tmsArr ag tau phi anti ⟨tau.n, l⟩) (I.tmsLit ag tau phi anti l') :=
    AsmIn.SameOutcome.trans3 (fun x y z h h' => ⟨h.1.trans h'.1, h.2.1.trans h'.2.1, h.2.2.1.trans h'.2.2.1, fun i hi t ht p hp =>
      (h.2.2.2 i hi t ht p hp).trans (h'.2.2.2 i (h.1 ▸ hi) t (h.2.1 ▸ ht) p (h.2.2.1 ▸ hp))⟩) (I.tmsArr_same hL hN ag tau phi anti hl)
      (I.tmsLit_congr hN ag tau phi anti hl h)
  refine SameOutcome.bind_right h1 fun x y hy hxy => ?_
  refine SameOutcome.bind (I.imsArr_same hleg tau phi anti) fun b b' hb => ?_
  have h0 : x.d0 = 2 * I.N := hxy.1.trans (I.tmsLit_d0 hN (fun t ht => h t ht ▸ hl t ht) hy)
  exact AsmIn.A3.addLast_same ag (by omega) hxy hb

end NTIn

theorem bread_self_take {s ix : List ℕ} (h : ValidIx s ix) : ValidIx s (List.zipWith bix s (ix.take s.length)) := by
  induction h with
  | nil => exact .nil
  | cons h1 h2 ih =>
    refine .cons ?_ ih
    rw [bix_of_lt h1]; exact h1

theorem bread_valid : ∀ {a b s ix : List ℕ}, bshapeRev a b = .ok s → ValidIx s ix → ValidIx a (List.zipWith bix a (ix.take a.length)) ∧
    ValidIx b (List.zipWith bix b (ix.take b.length)) := by
  intro a
  induction a with
  | nil =>
    intro b s ix h hix
    cases h
    exact ⟨.nil, bread_self_take hix⟩
  | cons x xs ih =>
    intro b s ix h hix
    cases b with
    | nil =>
      cases h
      exact ⟨bread_self_take hix, .nil⟩
    | cons y ys =>
      unfold bshapeRev at h
      rcases h1 : bdim x y with e | d
      · rw [h1] at h; cases h
      rcases h2 : bshapeRev xs ys with e | ds
      · rw [h1, h2] at h; cases h
      rw [h1, h2] at h
      cases h
      obtain _ | ⟨g0, g1⟩ := hix
      obtain ⟨k1, k2⟩ := ih h2 g1
      exact ⟨.cons (bix_lt h1 g0) k1, .cons (bix_lt' h1 g0) k2⟩

theorem bshapeRev_length : ∀ {a b s : List ℕ}, bshapeRev a b = .ok s → a.length ≤ s.length ∧ b.length ≤ s.length := by
  intro a
  induction a with
  | nil => intro b s h; cases h; exact ⟨Nat.zero_le _, le_rfl⟩
  | cons x xs ih =>
    intro b s h
    cases b with
    | nil => cases h; exact ⟨le_rfl, Nat.zero_le _⟩
    | cons y ys =>
      unfold bshapeRev at h
      rcases h1 : bdim x y with e | d
      · rw [h1] at h; cases h
      rcases h2 : bshapeRev xs ys with e | ds
      · rw [h1, h2] at h; cases h
      rw [h1, h2] at h
      cases h
      exact ⟨Nat.succ_le_succ (ih h2).1, Nat.succ_le_succ (ih h2).2⟩

theorem ValidIx.rev {s ix : List ℕ} (h : ValidIx s ix) : ValidIx s.reverse ix.reverse := List.forall₂_reverse_iff.mpr h

theorem bread_reverse {a ix : List ℕ} (h : a.length ≤ ix.length) : (bread a ix).reverse = List.zipWith bix a.reverse (ix.reverse.take a.reverse.length) := by
  unfold bread
  rw [List.reverse_zipWith (by rw [List.length_drop]; omega), List.reverse_drop, List.length_reverse, show ix.length - (ix.length - a.length) = a.length by omega]

theorem ND.bin_same {x x' y y' : ND ℝ} (f : ℝ → ℝ → ℝ) (hx : SameND x x') (hy : SameND y y') :
    SameOutcome SameND (ND.bin f x y) (ND.bin f x' y') := by
  unfold ND.bin
  rw [← hx.1, ← hy.1]
  rcases h : bshapeRev x.shape.reverse y.shape.reverse with e | s
  · rfl
  refine ⟨rfl, fun ix hix => ?_⟩
  dsimp only at hix ⊢
  have hl := bshapeRev_length h
  rw [List.length_reverse, List.length_reverse] at hl
  have hlen : s.length = ix.length := by have := hix.length_eq; rwa [List.length_reverse] at this
  have hix' : ValidIx s ix.reverse := by have := ValidIx.rev hix; rwa [List.reverse_reverse] at this
  obtain ⟨k1, k2⟩ := bread_valid h hix'
  rw [← bread_reverse (by omega)] at k1 k2
  have k1 := ValidIx.rev k1
  have k2 := ValidIx.rev k2
  rw [List.reverse_reverse, List.reverse_reverse] at k1 k2
  rw [hx.2 _ k1, hy.2 _ k2]

theorem ND.map_same {x x' : ND ℝ} (f : ℝ → ℝ) (hx : SameND x x') : SameND (x.map f) (x'.map f) :=
  ⟨hx.1, fun ix hix => congrArg f (hx.2 ix hix)⟩

theorem uProgram_same {R : Solved} (hL : 0 < R.I.NLayers) (hF : 0 < R.I.NFourier) (hN : 0 < R.I.N)
    (hnt : ∀ n, R.nt = some n → n.N = R.I.N ∧ n.NLayers = R.I.NLayers ∧ n.NLeg ≤ n.NLegAll) (ag : Bool) (junk : Vec) (tau phi : A1 ℝ) (anti : Bool) :
    SameOutcome SameND (R.uProgram ag junk tau phi anti) (R.uReturned ag tau phi anti) := by
  unfold Solved.uProgram Solved.uReturned
  by_cases ho : R.onlyFlux = true
  · rw [if_pos ho, if_pos ho]; rfl
  rw [if_neg ho, if_neg ho]
  rcases hc : R.I.checkTau tau with e | u
  · rw [R.I.depths_error hc]
    unfold AsmIn.uLit
    rw [hc]
    cases R.nt <;> rfl
  obtain ⟨l, top, bot, st, hdep, hD⟩ := R.I.depths_spec hL hc
  have hl := AsmIn.DepthsOf.lt (I := R.I) hD hL
  have key := R.I.umArr_lit R.S hL hF hD ag junk anti
  have key2 := R.I.umLit_same R.S hN hF ag tau anti
  unfold AsmIn.uLit
  simp only [hdep, hc, ok_bind]
  rcases hU : R.I.umArr R.S ag junk ⟨⟨tau.n, l⟩, ⟨tau.n, top⟩, ⟨tau.n, bot⟩, ⟨tau.n, st⟩⟩ anti with e | U <;>
    rcases hV : R.I.umLit ag R.S tau anti with e' | V <;> rw [hU, hV] at key
  · obtain rfl : e = e' := key
    cases R.nt <;> rfl
  · exact key.elim
  · exact key.elim
  have hV0 : V.d0 = R.I.NFourier := by
    rw [hV] at key2
    rcases hx : R.I.um0 R.S tau anti with e | x <;> rw [hx] at key2
    · exact key2.elim
    · exact key2.1
  obtain ⟨A, a1, a2, a3, a4, a5⟩ := R.I.sumModesArr_spec (key.1.trans hV0) phi
  have hS : A3.Same A ⟨V.d1, V.d2, phi.n, fun i t p => ∑ m ∈ range V.d0, V.get m i t * Real.cos ((m : ℝ) * (R.I.phi0 - phi.get p))⟩ := by
    refine ⟨a2.trans key.2.1, a3.trans key.2.2.1, a4, fun i hi t ht p hp => ?_⟩
    rw [a5 i (by omega) t (by omega) p (by omega), hV0]
    dsimp only
    refine sum_congr rfl fun m hm => ?_
    rw [mem_range] at hm
    rw [key.2.2.2 m (by rw [key.1, hV0]; exact hm) i (by omega) t (by omega)]
  have hx := ND.map_same (fun x => R.I.rescale * x) (SameND.squeeze (SameND.of_A3 hS))
  simp only [ok_bind, a1]
  rcases hn : R.nt with _ | n
  · exact hx
  obtain ⟨n1, n2, n3⟩ := hnt n hn
  have hcorr := n.corrArr_same (l := l) (l' := fun t => R.I.layer (tau.get t)) (by omega) (by omega) n3 ag tau phi anti (fun t ht => by rw [n2]; exact hl t ht)
    (fun t ht => (hD t ht).1)
  simp only [pure, Except.pure, ok_bind]
  refine SameOutcome.bind hcorr fun c c' hc => ?_
  exact ND.bin_same _ hx (ND.map_same _ (SameND.squeeze (SameND.of_A3 hc)))

end Pydisort

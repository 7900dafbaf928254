import Verif.Spec.Report
import Verif.Props.Returned
import Mathlib.Data.List.GetD

/-! Helper lemmas for `_compare`. -/

namespace Pydisort
open Spec

theorem mem_indices {s ix : List ℕ} : ix ∈ indices s ↔ ValidIx s ix := by
  induction s generalizing ix with
  | nil => cases ix <;> simp [indices, ValidIx]
  | cons d ds ih =>
    simp only [indices, List.mem_flatMap, List.mem_range, List.mem_map]
    constructor
    · rintro ⟨i, hi, is, his, rfl⟩
      exact .cons hi (ih.1 his)
    · intro h
      obtain _ | ⟨h1, h2⟩ := h
      exact ⟨_, h1, _, ih.2 h2, rfl⟩

theorem length_indices (s : List ℕ) : (indices s).length = s.prod := by
  induction s with
  | nil => rfl
  | cons d ds ih => simp [indices, ih, List.length_flatMap]

theorem flatMap_getD {α : Type} (n k : ℕ) (f : ℕ → List α) (hf : ∀ i, (f i).length = k) (dflt : α) {i j : ℕ} (hi : i < n) (hj : j < k) :
    ((List.range n).flatMap f).getD (i * k + j) dflt = (f i).getD j dflt := by
  induction n with
  | zero => omega
  | succ n ih =>
    rw [List.range_succ, List.flatMap_append]
    have hl : ((List.range n).flatMap f).length = n * k := by
      simp [List.length_flatMap, hf]
    rcases Nat.lt_or_ge i n with h | h
    · rw [List.getD_append _ _ _ _ (by rw [hl]; nlinarith), ih h]
    · obtain rfl : i = n := by omega
      rw [List.getD_append_right _ _ _ _ (by rw [hl]; omega), hl]
      simp

theorem indices_flat {s ix : List ℕ} (h : ValidIx s ix) : flatIx s ix < s.prod ∧ (indices s).getD (flatIx s ix) [] = ix := by
  induction h with
  | nil => simp [indices, flatIx]
  | @cons d i ds is hi _ ih =>
    obtain ⟨h1, h2⟩ := ih
    refine ⟨?_, ?_⟩
    · simp only [flatIx, List.prod_cons]
      nlinarith
    · simp only [flatIx, indices]
      rw [flatMap_getD d ds.prod (fun i => (indices ds).map (i :: ·)) (fun i => by rw [List.length_map, length_indices]) [] hi h1,
        List.getD_eq_getElem _ _ (by rw [List.length_map, length_indices]; exact h1), List.getElem_map]
      rw [List.getD_eq_getElem _ _ (by rw [length_indices]; exact h1)] at h2
      rw [h2]

theorem prod_filter (s : List ℕ) : (s.filter (· ≠ 1)).prod = s.prod := by
  induction s with
  | nil => rfl
  | cons d ds ih =>
    by_cases hd : d = 1
    · rw [List.filter_cons_of_neg (by simpa using hd), List.prod_cons, ih, hd, one_mul]
    · rw [List.filter_cons_of_pos (by simpa using hd), List.prod_cons, List.prod_cons, ih]

theorem flatIx_squeezed {s ix : List ℕ} (h : ValidIx s ix) : flatIx (s.filter (· ≠ 1)) (squeezedIx s ix) = flatIx s ix := by
  induction h with
  | nil => rfl
  | @cons d i ds is hi _ ih =>
    by_cases hd : d = 1
    · rw [List.filter_cons_of_neg (by simpa using hd)]
      have : i = 0 := by omega
      simp only [squeezedIx, hd, if_true, flatIx, this, ih]; omega
    · rw [List.filter_cons_of_pos (by simpa using hd)]
      simp only [squeezedIx, hd, if_false, flatIx, prod_filter, ih]

theorem foldl_max (x : ℝ) (xs : List ℝ) : IsGreatest {d | d ∈ x :: xs} (xs.foldl max x) := by
  induction xs generalizing x with
  | nil => simp [IsGreatest, upperBounds]
  | cons y ys ih =>
    obtain ⟨h1, h2⟩ := ih (max x y)
    rw [List.foldl_cons]
    refine ⟨?_, fun d hd => ?_⟩
    · rcases List.mem_cons.1 h1 with h | h
      · rw [Set.mem_setOf_eq, h]
        rcases max_cases x y with ⟨h, _⟩ | ⟨h, _⟩ <;> rw [h] <;> simp
      · exact List.mem_cons_of_mem _ (List.mem_cons_of_mem _ h)
    · have hm := h2 (a := max x y) (by simp)
      rcases List.mem_cons.1 hd with h | h
      · rw [h]; exact (le_max_left _ _).trans hm
      · rcases List.mem_cons.1 h with h | h
        · rw [h]; exact (le_max_right _ _).trans hm
        · exact h2 (List.mem_cons_of_mem _ h)

theorem ndMax_ok {a : ND ℝ} {ix : List ℕ} (h : ValidIx a.shape ix) :
    ∃ m, ndMax a = .ok m ∧ IsGreatest {d | ∃ ix, ValidIx a.shape ix ∧ d = a.get ix} m := by
  have hm : a.get ix ∈ (indices a.shape).map a.get := List.mem_map_of_mem (mem_indices.2 h)
  unfold ndMax
  rcases hl : (indices a.shape).map a.get with _ | ⟨x, xs⟩
  · rw [hl] at hm; simp at hm
  · refine ⟨_, rfl, ?_⟩
    convert foldl_max x xs using 1
    ext d
    rw [← hl]
    simp only [Set.mem_setOf_eq, List.mem_map, mem_indices]
    exact ⟨fun ⟨ix, h, e⟩ => ⟨ix, h, e.symm⟩, fun ⟨ix, h, e⟩ => ⟨ix, h, e.symm⟩⟩

theorem divideWhere_eq (r y : ℝ) : divideWhere |r - y| r = relative r y := by
  unfold divideWhere relative
  by_cases h : r = 0 <;> simp [h]

/-- The result is a scalar or has one entry per reference value. -/
theorem compareFlux_ok {n : ℕ} (hn : 0 < n) {ref : A1 ℝ} (hr : ref.n = n) {x : ND ℝ} {v : ℕ → ℝ}
    (hx : x.shape = [n] ∧ (∀ t < n, x.get [t] = v t) ∨ x.shape = [] ∧ ∀ t < n, x.get [] = v t) :
    ∃ r, compareFlux ref x = .ok r ∧ Compares n ref.get v r := by
  have hv : ∀ t, ValidIx [n] [t] ↔ t < n := fun t =>
    ⟨fun h => by obtain _ | ⟨h, _⟩ := h; exact h, fun h => .cons h .nil⟩
  have hbin : ∃ d : ND ℝ, ND.bin (fun r y => |r - y|) ref.toND x = .ok d ∧ d.shape = [n] ∧ ∀ t < n, d.get [t] = |ref.get t - v t| := by
    rcases hx with ⟨h1, h2⟩ | ⟨h1, h2⟩
    · refine ⟨_, by simp only [ND.bin, A1.toND, h1, hr, bshapeRev_self, bind, Except.bind, pure, Except.pure]; rfl, by simp, fun t ht => ?_⟩
      simp only
      rw [bread_self ((hv t).2 ht), h2 t ht]; rfl
    · refine ⟨_, by simp only [ND.bin, A1.toND, h1, hr, List.reverse_cons, List.reverse_nil, List.nil_append, bshapeRev, bind, Except.bind, pure, Except.pure]; rfl, by simp, fun t ht => ?_⟩
      simp only
      rw [bread_self ((hv t).2 ht), ← h2 t ht]; rfl
  obtain ⟨d, hd, ds, dv⟩ := hbin
  have hbin' : ∃ q : ND ℝ, ND.bin divideWhere d ref.toND = .ok q ∧ q.shape = [n] ∧ ∀ t < n, q.get [t] = relative (ref.get t) (v t) := by
    refine ⟨_, by simp only [ND.bin, A1.toND, ds, hr, bshapeRev_self, bind, Except.bind, pure, Except.pure]; rfl, by simp, fun t ht => ?_⟩
    simp only
    rw [bread_self ((hv t).2 ht), dv t ht]
    exact divideWhere_eq _ _
  obtain ⟨q, hq, qs, qv⟩ := hbin'
  obtain ⟨m, hm, gm⟩ := ndMax_ok (a := d) (ix := [0]) (by rw [ds]; exact (hv 0).2 hn)
  obtain ⟨r, hr', gr⟩ := ndMax_ok (a := q) (ix := [0]) (by rw [qs]; exact (hv 0).2 hn)
  have key : ∀ {b : ND ℝ} {w : ℕ → ℝ}, b.shape = [n] → (∀ t < n, b.get [t] = w t) →
      {d | ∃ ix, ValidIx b.shape ix ∧ d = b.get ix} = {d | ∃ t < n, d = w t} := by
    intro b w hb hw
    ext d
    simp only [Set.mem_setOf_eq, hb]
    constructor
    · rintro ⟨ix, hix, rfl⟩
      obtain _ | ⟨h, _ | _⟩ := hix
      exact ⟨_, h, hw _ h⟩
    · rintro ⟨t, ht, rfl⟩
      exact ⟨[t], (hv t).2 ht, (hw t ht).symm⟩
  refine ⟨⟨d, q, m, r⟩, ?_, ⟨ds, qs⟩, dv, qv, ?_, ?_⟩
  · simp only [compareFlux, hd, hq, hm, hr', bind, Except.bind, pure, Except.pure]
  · rw [← key ds dv]; exact gm
  · rw [← key qs qv]; exact gr

theorem compareFlux_of_hands {n : ℕ} (hn : 0 < n) {ref : A1 ℝ} (hr : ref.n = n) {y : Py (ND ℝ)} {v : List ℕ → ℝ} (h : Hands y [n] v) :
    ∃ x, y = .ok x ∧ ∃ r, compareFlux ref x = .ok r ∧ Compares n ref.get (fun t => v [t]) r := by
  obtain ⟨x, hx, hs, hv⟩ := h
  refine ⟨x, hx, compareFlux_ok hn hr ?_⟩
  by_cases h1 : n = 1
  · subst h1
    refine Or.inr ⟨by simpa using hs, fun t ht => ?_⟩
    have := hv [t] (.cons ht .nil)
    simpa [squeezedIx] using this
  · refine Or.inl ⟨by simpa [h1] using hs, fun t ht => ?_⟩
    have := hv [t] (.cons ht .nil)
    simpa [squeezedIx, h1] using this

theorem maxUpTo_isGreatest (n : ℕ) (v : ℕ → ℝ) : IsGreatest {d | ∃ i < n + 1, d = v i} (maxUpTo n v) := by
  induction n with
  | zero =>
    refine ⟨⟨0, by omega, rfl⟩, ?_⟩
    rintro d ⟨i, hi, rfl⟩
    obtain rfl : i = 0 := by omega
    exact le_rfl
  | succ n ih =>
    obtain ⟨⟨i, hi, he⟩, h2⟩ := ih
    refine ⟨?_, ?_⟩
    · rcases max_cases (maxUpTo n v) (v (n + 1)) with ⟨h, _⟩ | ⟨h, _⟩
      · exact ⟨i, by omega, h.trans he⟩
      · exact ⟨n + 1, by omega, h⟩
    · rintro d ⟨j, hj, rfl⟩
      rcases Nat.lt_or_ge j (n + 1) with h | h
      · exact (h2 ⟨j, h, rfl⟩).trans (le_max_left _ _)
      · obtain rfl : j = n + 1 := by omega
        exact le_max_right _ _

theorem argmaxDepth_ok {a : A3 ℝ} (h0 : 0 < a.d0) (h1 : 0 < a.d1) (h2 : 0 < a.d2) :
    ∃ k < a.d1, argmaxDepth a = .ok k ∧ ∃ m, maxAtDepth a k = .ok m ∧ (∀ i < a.d0, ∀ t < a.d1, ∀ p < a.d2, a.get i t p ≤ m) ∧
      ∃ i < a.d0, ∃ p < a.d2, m = a.get i k p := by
  set w : ℕ → ℝ := fun t => maxUpTo (a.d2 - 1) fun p => maxUpTo (a.d0 - 1) fun i => a.get i t p with hw
  have hle : ∀ i < a.d0, ∀ t, ∀ p < a.d2, a.get i t p ≤ w t := by
    intro i hi t p hp
    refine ((maxUpTo_isGreatest (a.d0 - 1) fun i => a.get i t p).2 ⟨i, by omega, rfl⟩).trans ?_
    exact (maxUpTo_isGreatest (a.d2 - 1) fun p => maxUpTo (a.d0 - 1) fun i => a.get i t p).2 ⟨p, by omega, rfl⟩
  have hat : ∀ t, ∃ i < a.d0, ∃ p < a.d2, w t = a.get i t p := by
    intro t
    obtain ⟨p, hp, e⟩ := (maxUpTo_isGreatest (a.d2 - 1) fun p => maxUpTo (a.d0 - 1) fun i => a.get i t p).1
    obtain ⟨i, hi, e'⟩ := (maxUpTo_isGreatest (a.d0 - 1) fun i => a.get i t p).1
    exact ⟨i, by omega, p, by omega, e.trans e'⟩
  set k := argmaxTrue a.d1 fun i => ∀ j < a.d1, w j ≤ w i with hk
  have hk1 : k < a.d1 := argmaxTrue_lt h1 _
  have hmax : ∀ j < a.d1, w j ≤ w k := by
    obtain ⟨m, hm⟩ := Finset.exists_max_image (Finset.range a.d1) w ⟨0, Finset.mem_range.2 h1⟩
    have hex : ∃ i, i < a.d1 ∧ ∀ j < a.d1, w j ≤ w i := ⟨m, Finset.mem_range.1 hm.1, fun j hj => hm.2 j (Finset.mem_range.2 hj)⟩
    classical
    have h3 := Nat.find_spec hex
    have h4 : k = Nat.find hex := argmaxTrue_eq h3.1 h3.2 fun j hj hc => Nat.find_min hex hj ⟨hj.trans h3.1, hc⟩
    rw [h4]; exact h3.2
  refine ⟨k, hk1, ?_, ?_⟩
  · simp only [argmaxDepth, A3.maxAxis0, A2.maxAxis1, npArgmax, h0.ne', h1.ne', h2.ne', if_false, bind, Except.bind]
    rfl
  · obtain ⟨m, hm, ⟨⟨ix, hix, he⟩, hub⟩⟩ := ndMax_ok (a := ⟨[a.d0, a.d2], fun ix => a.get (ix.getD 0 0) k (ix.getD 1 0)⟩) (ix := [0, 0])
      (.cons h0 (.cons h2 .nil))
    obtain _ | ⟨g0, _ | ⟨g1, _ | _⟩⟩ := hix
    refine ⟨m, hm, fun i hi t ht p hp => ?_, _, g0, _, g1, he⟩
    obtain ⟨i', hi', p', hp', e⟩ := hat k
    refine (hle i hi t p hp).trans ((hmax t ht).trans ?_)
    rw [e]
    exact hub ⟨[i', p'], .cons hi' (.cons hp' .nil), rfl⟩

/-- Reordering and reshaping an array without its axes of length one. -/
theorem take_reshape {x : ND ℝ} {M n P : ℕ} (hM : M ≠ 1) {v : ℕ → ℕ → ℕ → ℝ} (hs : x.shape = [M, n, P].filter (· ≠ 1))
    (hv : ∀ i < M, ∀ t < n, ∀ p < P, x.get (squeezedIx [M, n, P] [i, t, p]) = v i t p) {idx : A1 ℕ} (hlen : idx.n = M) (hidx : ∀ k < M, idx.get k < M) :
    ∃ y z, x.take idx = .ok y ∧ y.reshape [M, n, P] = .ok z ∧ ∀ i < M, ∀ t < n, ∀ p < P, z.get [i, t, p] = v (idx.get i) t p := by
  have hs' : x.shape = M :: [n, P].filter (· ≠ 1) := by rw [hs, List.filter_cons_of_pos (by simpa using hM)]
  have ht : x.take idx = .ok ⟨M :: [n, P].filter (· ≠ 1), fun ix => x.get (idx.get (ix.headD 0) :: ix.tail)⟩ := by
    unfold ND.take
    rw [hs']
    simp only
    rw [if_neg (by push Not; intro k hk; rw [hlen] at hk; exact hidx k hk), hlen]
  refine ⟨_, _, ht, if_pos ?_, ?_⟩
  · simp only [List.prod_cons, prod_filter]
  · intro i hi t ht' p hp
    have hV : ValidIx [M, n, P] [i, t, p] := .cons hi (.cons ht' (.cons hp .nil))
    have h1 := (indices_flat (validIx_squeezedIx hV)).2
    rw [flatIx_squeezed hV, List.filter_cons_of_pos (by simpa using hM)] at h1
    have h2 := hv (idx.get i) (hidx i hi) t ht' p hp
    simp only at h1 ⊢
    rw [h1, ← h2]
    simp only [squeezedIx, hM, if_false, List.headD_cons, List.tail_cons]

theorem mask_rows (mask : A1 Bool) :
    let L := (List.range mask.n).filter (mask.get ·)
    (∀ i j, i < j → j < L.length → L.getD i 0 < L.getD j 0) ∧ ∀ i, (∃ j < L.length, L.getD j 0 = i) ↔ i < mask.n ∧ mask.get i = true := by
  intro L
  refine ⟨fun i j hij hj => ?_, fun i => ?_⟩
  · have hp : L.Pairwise (· < ·) := List.pairwise_lt_range.filter _
    rw [List.getD_eq_getElem _ _ hj, List.getD_eq_getElem _ _ (hij.trans hj)]
    exact List.pairwise_iff_getElem.1 hp i j _ _ hij
  · have : i ∈ L ↔ i < mask.n ∧ mask.get i = true := by simp [L]
    rw [← this]
    constructor
    · rintro ⟨j, hj, rfl⟩
      rw [List.getD_eq_getElem _ _ hj]; exact List.getElem_mem hj
    · intro h
      obtain ⟨j, hj, e⟩ := List.getElem_of_mem h
      exact ⟨j, hj, by rw [List.getD_eq_getElem _ _ hj, e]⟩

theorem compareIntensity_ok {x : ND ℝ} {M n P : ℕ} (hM : M ≠ 1) {v : ℕ → ℕ → ℕ → ℝ} (hn : 0 < n) (hP : 0 < P)
    (hs : x.shape = [M, n, P].filter (· ≠ 1))
    (hv : ∀ i < M, ∀ t < n, ∀ p < P, x.get (squeezedIx [M, n, P] [i, t, p]) = v i t p) {idx : A1 ℕ} (hlen : idx.n = M)
    (hidx : ∀ k < M, idx.get k < M) {mask : A1 Bool} (hm : mask.n = M) (hm1 : ∃ i < M, mask.get i = true) {uu : A3 ℝ}
    (h0 : uu.d0 = M) (h1 : uu.d1 = n) (h2 : uu.d2 = P) {tau : A1 ℝ} (ht : tau.n = n) :
    ∃ r, compareIntensity uu tau mask idx x = .ok r ∧ ComparesIntensities tau mask uu (fun i => v (idx.get i)) r := by
  obtain ⟨y, z, hy, hz, hval⟩ := take_reshape hM hs hv hlen hidx
  obtain ⟨m1, m2⟩ := mask_rows mask
  set L := (List.range mask.n).filter (mask.get ·) with hL
  set D : A3 ℝ := ⟨L.length, n, P, fun j t p => |uu.get (L.getD j 0) t p - z.get [L.getD j 0, t, p]|⟩ with hD
  set Q : A3 ℝ := ⟨L.length, n, P, fun j t p => divideWhere (D.get j t p) (uu.get (L.getD j 0) t p)⟩ with hQ
  have hLM : ∀ j < L.length, L.getD j 0 < M := fun j hj => hm ▸ ((m2 _).1 ⟨j, hj, rfl⟩).1
  have hDv : ∀ j < L.length, ∀ t < n, ∀ p < P, D.get j t p = |uu.get (L.getD j 0) t p - v (idx.get (L.getD j 0)) t p| := by
    intro j hj t ht p hp
    simp only [hD]
    rw [hval _ (hLM j hj) t ht p hp]
  have hQv : ∀ j < L.length, ∀ t < n, ∀ p < P, Q.get j t p = relative (uu.get (L.getD j 0) t p) (v (idx.get (L.getD j 0)) t p) := by
    intro j hj t ht p hp
    simp only [hQ]
    rw [hDv j hj t ht p hp, divideWhere_eq]
  have hL0 : 0 < L.length := by
    obtain ⟨i, hi, hmi⟩ := hm1
    obtain ⟨j, hj, _⟩ := (m2 i).2 ⟨hm ▸ hi, hmi⟩
    omega
  obtain ⟨k, hk, k1, m, k2, k3, i, hi, p, hp, k4⟩ := argmaxDepth_ok (a := D) hL0 hn hP
  obtain ⟨k', hk', k1', m', k2', k3', i', hi', p', hp', k4'⟩ := argmaxDepth_ok (a := Q) hL0 hn hP
  refine ⟨⟨D, Q, tau.get k, m, tau.get k', m'⟩, ?_, ⟨fun j => L.getD j 0, m1, m2, ⟨rfl, h1.symm, h1.symm, h2.symm, h2.symm⟩, ?_⟩, ⟨?_, ?_⟩, ⟨?_, ?_⟩⟩
  · have e1 : A3.masked ⟨M, n, P, fun i t p => |uu.get i t p - z.get [i, t, p]|⟩ mask = .ok D := if_pos hm
    have e2 : A3.masked uu mask = .ok ⟨L.length, uu.d1, uu.d2, fun j => uu.get (L.getD j 0)⟩ := if_pos (hm.trans h0.symm)
    have e3 : tau.item k = .ok (tau.get k) := if_pos (by rw [ht]; exact hk)
    have e4 : tau.item k' = .ok (tau.get k') := if_pos (by rw [ht]; exact hk')
    simp only [compareIntensity, hy, h0, h1, h2, hz, e1, e2, bind, Except.bind, pure, Except.pure]
    simp only [k1]
    rw [show argmaxDepth ⟨D.d0, D.d1, D.d2, fun i t p => divideWhere (D.get i t p) (uu.get (L.getD i 0) t p)⟩ = .ok k' from k1']
    simp only [e3, e4, k2]
    rw [show maxAtDepth ⟨D.d0, D.d1, D.d2, fun i t p => divideWhere (D.get i t p) (uu.get (L.getD i 0) t p)⟩ k' = .ok m' from k2']
  · intro j hj t ht p hp
    rw [h1] at ht; rw [h2] at hp
    exact ⟨hDv j hj t ht p hp, hQv j hj t ht p hp⟩
  · intro i hi hmi t ht p hp
    rw [h1] at ht; rw [h2] at hp
    obtain ⟨j, hj, rfl⟩ := (m2 i).2 ⟨hi, hmi⟩
    rw [← hDv j hj t ht p hp]
    exact k3 j hj t ht p hp
  · have hmm := (m2 _).1 ⟨i, hi, rfl⟩
    exact ⟨_, hmm.1, hmm.2, k, by rw [h1]; exact hk, p, by rw [h2]; exact hp, k4.trans (hDv i hi k hk p hp), rfl⟩
  · intro i hi hmi t ht p hp
    rw [h1] at ht; rw [h2] at hp
    obtain ⟨j, hj, rfl⟩ := (m2 i).2 ⟨hi, hmi⟩
    rw [← hQv j hj t ht p hp]
    exact k3' j hj t ht p hp
  · have hmm := (m2 _).1 ⟨i', hi', rfl⟩
    exact ⟨_, hmm.1, hmm.2, k', by rw [h1]; exact hk', p', by rw [h2]; exact hp', k4'.trans (hQv i' hi' k' hk' p' hp'), rfl⟩

theorem fluxDown_dark {I : AsmIn} {S : Sols} {tau : A1 ℝ} {anti : Bool} {x : A1 ℝ × A1 ℝ × Bool} (h : I.fluxDown S tau anti = .ok x)
    (hb : I.beam = false) (t : ℕ) : x.2.1.get t = 0 := by
  unfold AsmIn.fluxDown at h
  rcases h1 : I.checkTau tau with e | _
  · rw [h1] at h; cases h
  rcases h2 : I.fluxDownRaw S tau anti with e | raw
  · rw [h1, h2] at h; cases h
  rcases h3 : I.addIso S tau anti I.N I.N raw with e | b
  · rw [h1, h2] at h
    simp only [bind, Except.bind] at h
    rw [h3] at h; cases h
  rw [h1, h2] at h
  simp only [bind, Except.bind] at h
  rw [h3] at h
  simp only at h
  rw [if_neg (by rw [hb]; simp)] at h
  cases h
  simp

end Pydisort

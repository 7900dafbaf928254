import Verif.Props.Returned
import Verif.Props.Interp
import Verif.Subroutines.Handed

/-! Helper lemmas: arrays without axes of length one as arguments of `interpolate` and of the actinic fluxes. -/

namespace Pydisort
open Finset Spec

theorem squeezedIx_self {s ix : List ℕ} (h : ValidIx s ix) (h1 : ∀ d ∈ s, d ≠ 1) : squeezedIx s ix = ix := by
  induction h with
  | nil => rfl
  | @cons d i ds is hd _ ih =>
    simp only [squeezedIx]
    rw [if_neg (h1 d (by simp)), ih fun e he => h1 e (by simp [he])]

theorem filter_ne_one (s : List ℕ) : ∀ d ∈ s.filter (· ≠ 1), d ≠ 1 := fun d hd => by simpa using (List.mem_filter.mp hd).2

theorem squeezedIx_twice {d i : ℕ} {s ix : List ℕ} (hi : i < d) (h : ValidIx s ix) :
    squeezedIx (d :: s.filter (· ≠ 1)) (i :: squeezedIx s ix) = squeezedIx (d :: s) (i :: ix) := by
  simp only [squeezedIx]
  rw [squeezedIx_self (validIx_squeezedIx h) (filter_ne_one s)]

/-- What a function hands out whose result is squeezed once more. -/
theorem hands_squeeze {x : Py (ND ℝ)} {d : ℕ} {s : List ℕ} {r : ND ℝ} {v : List ℕ → ℝ} (hx : x = .ok r.squeeze)
    (hs : r.shape = d :: s.filter (· ≠ 1)) (hv : ∀ i < d, ∀ ix, ValidIx s ix → r.get (i :: squeezedIx s ix) = v (i :: ix)) :
    Hands x (d :: s) v := by
  refine ⟨_, hx, ?_, fun ix hix => ?_⟩
  · unfold ND.squeeze
    simp only [hs]
    rw [List.filter_cons, List.filter_cons, List.filter_filter]
    simp
  · obtain _ | ⟨h0, h1⟩ := hix
    rename_i i js
    rw [← squeezedIx_twice h0 h1, ← hs, squeeze_get _ (by rw [hs]; exact .cons h0 (validIx_squeezedIx h1)), hv _ h0 _ h1]

theorem gaussHalf_ok {E : Ext} {N : ℕ} (hN : 0 < N) : ∃ q, gaussLegendreQuad E (2 * N / 2) 0 1 = .ok q ∧ q.1 = ⟨N, halfNode E N⟩ := by
  rw [show 2 * N / 2 = N by omega]
  unfold gaussLegendreQuad
  rw [if_neg hN.ne']
  refine ⟨_, rfl, ?_⟩
  unfold transformInterval A1.map
  dsimp only
  congr 1
  funext j
  unfold halfNode
  ring

theorem hands_len {x : Py (ND ℝ)} {d : ℕ} {s : List ℕ} {v : List ℕ → ℝ} (h : Hands x (d :: s) v) (hd : d ≠ 1) :
    ∃ A, x = .ok A ∧ A.shape = d :: s.filter (· ≠ 1) ∧ A.len = .ok d ∧
      ∀ i < d, ∀ ix, ValidIx s ix → A.get (i :: squeezedIx s ix) = v (i :: ix) := by
  obtain ⟨A, h1, h2, h3⟩ := h
  have hs : A.shape = d :: s.filter (· ≠ 1) := by rw [h2, List.filter_cons, if_pos (by simpa using hd)]
  refine ⟨A, h1, hs, by unfold ND.len; rw [hs], fun i hi ix hix => ?_⟩
  rw [← h3 _ (.cons hi hix)]
  simp only [squeezedIx]
  rw [if_neg hd]

/-- Products with the weights of a squeezed array of two axes. -/
theorem weightRows_ok {w : A1 ℝ} {A : ND ℝ} {d n lo hi : ℕ} {v : List ℕ → ℝ} (hs : A.shape = d :: [n].filter (· ≠ 1))
    (hv : ∀ i < d, ∀ ix, ValidIx [n] ix → A.get (i :: squeezedIx [n] ix) = v (i :: ix)) (hw : w.n = min hi d - lo) :
    ∃ B, weightRows w A lo hi = .ok B ∧ B.shape = [n].filter (· ≠ 1) ∧
      ∀ t < n, B.get (squeezedIx [n] [t]) = ∑ i ∈ range w.n, 2 * Real.pi * w.get i * v [lo + i, t] := by
  unfold weightRows
  rw [hs]
  simp only
  rw [if_pos hw]
  refine ⟨_, rfl, rfl, fun t ht => ?_⟩
  change ∑ i ∈ range w.n, 2 * Real.pi * w.get i * A.get ((lo + i) :: squeezedIx [n] [t]) = _
  refine sum_congr rfl fun i hi' => ?_
  rw [hv (lo + i) (by have := mem_range.mp hi'; omega) [t] (.cons ht .nil)]

/-- A squeezed array with one axis, squeezed again. -/
theorem hands_squeeze1 {x : Py (ND ℝ)} {n : ℕ} {r : ND ℝ} {v : List ℕ → ℝ} (hx : x = .ok r.squeeze)
    (hs : r.shape = [n].filter (· ≠ 1)) (hv : ∀ t < n, r.get (squeezedIx [n] [t]) = v [t]) : Hands x [n] v := by
  refine ⟨_, hx, ?_, fun ix hix => ?_⟩
  · unfold ND.squeeze
    simp only [hs, List.filter_filter]
    simp
  · obtain _ | ⟨h0, _ | _⟩ := hix
    rename_i t
    have e := squeeze_get r (ix := squeezedIx [n] [t]) (by rw [hs]; exact validIx_squeezedIx (.cons h0 .nil))
    rw [hs, squeezedIx_self (validIx_squeezedIx (.cons h0 .nil)) (filter_ne_one _)] at e
    rw [e, hv t h0]

end Pydisort

import Verif.Spec.Split
import Verif.FieldsLemmas

/-! Helper lemmas: splitting a layer. -/

namespace Pydisort
open Finset Spec

section
variable {E : Ext} {a : Args} {k : ℕ} {x : ℝ}

theorem dup_lt {k n j : ℕ} (hk : k < n) (hj : j < n + 1) : dup k j < n := by unfold dup; split_ifs <;> omega

theorem split_n : (splitLayer a k x).tauArr.n = a.tauArr.n + 1 := rfl

theorem split_bottom (hk : k < a.tauArr.n) : bottom (splitLayer a k x) = bottom a := by
  unfold bottom splitLayer
  simp only [Nat.add_sub_cancel]
  rw [if_neg (by omega)]
  unfold dup
  rw [if_neg (by omega)]

theorem split_bdry_le {j : ℕ} (hj : j ≤ k) : bdry (splitLayer a k x).tauArr.get j = bdry a.tauArr.get j := by
  unfold bdry splitLayer dup
  split_ifs <;> first | rfl | omega | (simp only; split_ifs <;> first | rfl | omega)

theorem split_bdry_mid : bdry (splitLayer a k x).tauArr.get (k + 1) = x := by
  simp [bdry, splitLayer]

theorem split_bdry_gt {j : ℕ} (hj : k < j) : bdry (splitLayer a k x).tauArr.get (j + 1) = bdry a.tauArr.get j := by
  unfold bdry splitLayer dup
  simp only
  rw [if_neg (by omega), if_neg (by omega), if_neg (by omega), if_neg (by omega)]
  rfl

theorem split_omega (j : ℕ) : (splitLayer a k x).omega.get j = a.omega.get (dup k j) := rfl

theorem split_peak (h : Accepted a) (hk : k < a.tauArr.n) {j : ℕ} (hj : j < a.tauArr.n + 1) :
    peak (splitLayer a k x) j = peak a (dup k j) := by
  have hd := dup_lt hk hj
  unfold peak splitLayer
  simp only
  by_cases hf : a.fArr.n = a.tauArr.n
  · rw [if_pos hf, if_pos (by rw [hf]; exact hj), if_pos (by rw [hf]; exact hd)]
  · rw [if_neg hf]
    rcases h.peakLen with h0 | h0
    · have : ∀ i, (if i < a.fArr.n then a.fArr.get i else 0) = 0 := by
        intro i; split_ifs with hi
        · exact h0 i hi
        · rfl
      rw [this, this]
    · exact absurd h0 hf

theorem split_leg (j i : ℕ) : leg (splitLayer a k x) j i = leg a (dup k j) i := rfl

theorem split_scale (h : Accepted a) (hk : k < a.tauArr.n) {j : ℕ} (hj : j < a.tauArr.n + 1) :
    scale (splitLayer a k x) j = scale a (dup k j) := by
  unfold scale; rw [split_peak h hk hj]; rfl

theorem split_omegaStar (h : Accepted a) (hk : k < a.tauArr.n) {j : ℕ} (hj : j < a.tauArr.n + 1) :
    omegaStar (splitLayer a k x) j = omegaStar a (dup k j) := by
  unfold omegaStar; rw [split_peak h hk hj, split_scale h hk hj]; rfl

theorem split_legStar (h : Accepted a) (hk : k < a.tauArr.n) {j : ℕ} (hj : j < a.tauArr.n + 1) :
    legStar (splitLayer a k x) j = legStar a (dup k j) := by
  funext i; unfold legStar; rw [split_peak h hk hj]; rfl

theorem split_kernel (h : Accepted a) (hk : k < a.tauArr.n) {j : ℕ} (hj : j < a.tauArr.n + 1) (m : ℕ) :
    kernel (splitLayer a k x) m j = kernel a m (dup k j) := by
  funext y z
  unfold kernel
  rw [split_omegaStar h hk hj, split_legStar h hk hj]
  rfl

theorem split_beamSource (h : Accepted a) (hk : k < a.tauArr.n) {j : ℕ} (hj : j < a.tauArr.n + 1) (m : ℕ) :
    beamSource (splitLayer a k x) m j = beamSource a m (dup k j) := by
  funext y
  unfold beamSource
  rw [split_omegaStar h hk hj, split_legStar h hk hj]
  rfl

theorem split_source (h : Accepted a) (hk : k < a.tauArr.n) {j : ℕ} (hj : j < a.tauArr.n + 1) (t : ℝ) :
    source (splitLayer a k x) j t = source a (dup k j) t := by
  have hd := dup_lt hk hj
  unfold source splitLayer
  simp only
  by_cases hf : a.s.r = a.tauArr.n
  · rw [if_pos hf, if_pos (by rw [hf]; exact hj), if_pos (by rw [hf]; exact hd)]
  · rw [if_neg hf]
    rcases h.sourceRows with h0 | h0
    · have : ∀ i, (if i < a.s.r then ∑ c ∈ range a.s.c, a.s.get i c * t ^ c else 0) = 0 := by
        intro i; split_ifs with hi
        · exact sum_eq_zero fun c hc => by rw [h0 i hi c (mem_range.1 hc), zero_mul]
        · rfl
      rw [this, this]
    · exact absurd h0 hf

theorem split_bdryStar_le (h : Accepted a) (hk : k < a.tauArr.n) {j : ℕ} (hj : j ≤ k) :
    bdryStar (splitLayer a k x) j = bdryStar a j := by
  unfold bdryStar
  refine sum_congr rfl fun i hi => ?_
  have hi := mem_range.1 hi
  rw [split_scale h hk (by omega), split_bdry_le (by omega), split_bdry_le (by omega)]
  unfold dup
  rw [if_pos (by omega)]

theorem split_bdryStar_mid (h : Accepted a) (hk : k < a.tauArr.n) :
    bdryStar (splitLayer a k x) (k + 1) = bdryStar a k + scale a k * (x - bdry a.tauArr.get k) := by
  have : bdryStar (splitLayer a k x) (k + 1) = bdryStar (splitLayer a k x) k
    + scale (splitLayer a k x) k * (bdry (splitLayer a k x).tauArr.get (k + 1) - bdry (splitLayer a k x).tauArr.get k) := by
    unfold bdryStar; rw [sum_range_succ]
  rw [this, split_bdryStar_le h hk le_rfl, split_bdry_mid, split_bdry_le le_rfl, split_scale h hk (by omega)]
  unfold dup; rw [if_pos le_rfl]

theorem split_bdryStar_gt (h : Accepted a) (hk : k < a.tauArr.n) : ∀ {j : ℕ}, k < j → j ≤ a.tauArr.n →
    bdryStar (splitLayer a k x) (j + 1) = bdryStar a j := by
  intro j hj hn
  induction j with
  | zero => omega
  | succ j ih =>
    have e1 : bdryStar (splitLayer a k x) (j + 1 + 1) = bdryStar (splitLayer a k x) (j + 1)
      + scale (splitLayer a k x) (j + 1) * (bdry (splitLayer a k x).tauArr.get (j + 1 + 1) - bdry (splitLayer a k x).tauArr.get (j + 1)) := by
      unfold bdryStar; rw [sum_range_succ]
    have e2 : bdryStar a (j + 1) = bdryStar a j + scale a j * (bdry a.tauArr.get (j + 1) - bdry a.tauArr.get j) := by
      unfold bdryStar; rw [sum_range_succ]
    have hd : dup k (j + 1) = j := by unfold dup; rw [if_neg (by omega)]; rfl
    rw [e1, e2, split_scale h hk (by omega), hd, split_bdry_gt hj]
    rcases Nat.lt_or_ge k j with h1 | h1
    · rw [ih h1 (by omega), split_bdry_gt h1]
    · have : j = k := by omega
      subst this
      rw [split_bdryStar_mid h hk, split_bdry_mid]
      ring

theorem split_tauStar (h : Accepted a) (hk : k < a.tauArr.n) {j : ℕ} (hj : j < a.tauArr.n + 1) (t : ℝ) :
    tauStar (splitLayer a k x) j t = tauStar a (dup k j) t := by
  unfold tauStar
  rw [split_scale h hk hj]
  rcases Nat.lt_trichotomy j (k + 1) with h1 | h1 | h1
  · have hd : dup k j = j := by unfold dup; rw [if_pos (by omega)]
    rw [hd, split_bdryStar_le h hk (by omega), split_bdry_le (by omega)]
  · subst h1
    have hd : dup k (k + 1) = k := by unfold dup; rw [if_neg (by omega)]; rfl
    rw [hd, split_bdryStar_mid h hk, split_bdry_mid]
    ring
  · obtain ⟨j, rfl⟩ : ∃ i, j = i + 1 := ⟨j - 1, by omega⟩
    have hd : dup k (j + 1) = j := by unfold dup; rw [if_neg (by omega)]; rfl
    rw [hd, split_bdryStar_gt h hk (by omega) (by omega), split_bdry_gt (by omega)]

theorem split_layer_le (hx0 : bdry a.tauArr.get k < x) (hx1 : x < bdry a.tauArr.get (k + 1)) {j : ℕ} :
    bdry a.tauArr.get (dup k j) ≤ bdry (splitLayer a k x).tauArr.get j
      ∧ bdry (splitLayer a k x).tauArr.get (j + 1) ≤ bdry a.tauArr.get (dup k j + 1) := by
  rcases Nat.lt_trichotomy j k with h1 | h1 | h1
  · have hd : dup k j = j := by unfold dup; rw [if_pos (by omega)]
    rw [hd, split_bdry_le (by omega), split_bdry_le (by omega)]
    exact ⟨le_rfl, le_rfl⟩
  · subst h1
    have hd : dup j j = j := by unfold dup; rw [if_pos (by omega)]
    rw [hd, split_bdry_le (by omega), split_bdry_mid]
    exact ⟨le_rfl, hx1.le⟩
  · obtain ⟨j, rfl⟩ : ∃ i, j = i + 1 := ⟨j - 1, by omega⟩
    have hd : dup k (j + 1) = j := by unfold dup; rw [if_neg (by omega)]; rfl
    rw [hd, split_bdry_gt (j := j + 1) (by omega)]
    refine ⟨?_, le_rfl⟩
    rcases Nat.lt_or_ge k j with h2 | h2
    · rw [split_bdry_gt h2]
    · have : j = k := by omega
      subst this
      rw [split_bdry_mid]; exact hx0.le

theorem split_accepted (h : Accepted a) (hk : k < a.tauArr.n) (hx0 : bdry a.tauArr.get k < x)
    (hx1 : x < bdry a.tauArr.get (k + 1)) : Accepted (splitLayer a k x) where
  layers := Nat.succ_pos _
  top := by
    rcases Nat.eq_zero_or_pos k with h0 | h0
    · subst h0
      rw [bdry_zero] at hx0
      simpa [splitLayer] using hx0
    · have : ¬ 0 = k := by omega
      simpa [splitLayer, this, dup] using h.top
  increasing := by
    intro j hj
    have hj' : j + 1 < a.tauArr.n + 1 := hj
    have key : bdry (splitLayer a k x).tauArr.get (j + 1) < bdry (splitLayer a k x).tauArr.get (j + 1 + 1) := by
      rcases Nat.lt_trichotomy (j + 1) k with h1 | h1 | h1
      · rw [split_bdry_le (by omega), split_bdry_le (by omega)]; exact bdry_lt h (by omega)
      · subst h1; rw [split_bdry_mid, split_bdry_le le_rfl]; exact hx0
      · rw [split_bdry_gt h1]
        rcases Nat.lt_or_ge k j with h2 | h2
        · rw [split_bdry_gt h2]; exact bdry_lt h (by omega)
        · have : j = k := by omega
          subst this
          rw [split_bdry_mid]; exact hx1
    rwa [Spec.bdry_succ, Spec.bdry_succ] at key
  omegaLen := by
    change a.omega.n + 1 = a.tauArr.n + 1
    rw [h.omegaLen]
  omega := fun j hj => h.omega _ (dup_lt hk hj)
  legRows := by
    change a.leg.r + 1 = a.tauArr.n + 1
    rw [h.legRows]
  legCols := h.legCols
  legVal := fun j hj i hi h1 => h.legVal _ (dup_lt hk hj) i hi h1
  peakLen := by
    unfold splitLayer
    simp only
    by_cases hf : a.fArr.n = a.tauArr.n
    · rw [if_pos hf]; exact Or.inr (congrArg (· + 1) hf)
    · rw [if_neg hf]; exact Or.inl (h.peakLen.resolve_right hf)
  peak := by
    unfold splitLayer
    simp only
    by_cases hf : a.fArr.n = a.tauArr.n
    · rw [if_pos hf]; intro j hj
      have hj' : j < a.fArr.n + 1 := hj
      exact h.peak _ (by rw [hf]; exact dup_lt hk (by omega))
    · rw [if_neg hf]; exact h.peak
  sourceRows := by
    unfold NoSource splitLayer
    simp only
    by_cases hf : a.s.r = a.tauArr.n
    · rw [if_pos hf]; exact Or.inr (congrArg (· + 1) hf)
    · rw [if_neg hf]; exact Or.inl (h.sourceRows.resolve_right hf)
  streams := h.streams
  modes := h.modes
  nLeg := h.nLeg
  beam := h.beam
  beamDir := h.beamDir
  bottom := h.bottom
  topBC := h.topBC
  banded := h.banded

theorem split_noSource (h : Accepted a) (hk : k < a.tauArr.n) (hs : NoSource a) : NoSource (splitLayer a k x) := by
  unfold NoSource splitLayer
  simp only
  by_cases hf : a.s.r = a.tauArr.n
  · rw [if_pos hf]; intro i hi j hj
    have hi' : i < a.s.r + 1 := hi
    exact hs _ (by rw [hf]; exact dup_lt hk (by omega)) j hj
  · rw [if_neg hf]; exact hs

theorem split_wellPosed (h : WellPosed E a) (hk : k < a.tauArr.n) (hx0 : bdry a.tauArr.get k < x)
    (hx1 : x < bdry a.tauArr.get (k + 1)) : WellPosed E (splitLayer a k x) where
  accepted := split_accepted h.accepted hk hx0 hx1
  gauss := h.gauss
  eig := h.eig
  peak := fun j hj => by rw [split_peak h.accepted hk hj]; exact h.peak _ (dup_lt hk hj)
  dissipates := by
    intro m hm j hj
    rw [split_kernel h.accepted hk hj]
    exact h.dissipates m hm _ (dup_lt hk hj)
  beam := by
    intro hI m hm j hj
    rw [split_kernel h.accepted hk hj, split_omegaStar h.accepted hk hj, split_legStar h.accepted hk hj]
    exact h.beam hI m hm _ (dup_lt hk hj)
  surface := h.surface
  bottomBC := h.bottomBC
  topBC := h.topBC
  sourceShape := by
    unfold splitLayer
    simp only
    by_cases hf : a.s.r = a.tauArr.n
    · rw [if_pos hf]; exact Or.inr (congrArg (· + 1) hf)
    · rw [if_neg hf]; exact Or.inl (h.sourceShape.resolve_right hf)
  degree := by
    refine h.degree.imp (split_noSource h.accepted hk) fun hd => ?_
    unfold splitLayer
    simp only
    split_ifs <;> exact hd
  angles := h.angles

theorem split_rescalable (h : Accepted a) (hk : k < a.tauArr.n) (hr : Rescalable a) : Rescalable (splitLayer a k x) := by
  rcases hr with hl | ⟨h1, h2, h3⟩
  · left
    rcases hl with h1 | h1 | h1 | h1 | h1
    · exact Or.inl h1
    · exact Or.inr (Or.inl h1)
    · exact Or.inr (Or.inr (Or.inl h1))
    · refine Or.inr (Or.inr (Or.inr (Or.inl ?_)))
      rw [split_source h hk (Nat.succ_pos _)]
      exact h1
    · refine Or.inr (Or.inr (Or.inr (Or.inr ?_)))
      change 0 < source _ a.tauArr.n (bottom (splitLayer a k x))
      rw [split_source h hk (Nat.lt_succ_self _), split_bottom hk]
      have : dup k a.tauArr.n = a.tauArr.n - 1 := by unfold dup; rw [if_neg (by omega)]
      rw [this]; exact h1
  · exact Or.inr ⟨split_noSource h hk h1, h2, h3⟩

theorem split_isSolution (h : Accepted a) (hk : k < a.tauArr.n) (hx0 : bdry a.tauArr.get k < x)
    (hx1 : x < bdry a.tauArr.get (k + 1)) {mu w : Vec} {rho : ℝ → ℝ → ℝ} {m : ℕ} {V : ℝ → ℕ → ℝ}
    (hV : IsSolution a mu w rho m V) : IsSolution (splitLayer a k x) mu w rho m V where
  cont := by rw [split_bottom hk]; exact hV.cont
  ode := by
    intro j hj t ht0 ht1 i hi
    have hb := split_layer_le hx0 hx1 (j := j)
    obtain ⟨d, hd, he⟩ := hV.ode _ (dup_lt hk hj) t (hb.1.trans_lt ht0) (ht1.trans_le hb.2) i hi
    refine ⟨d, hd, ?_⟩
    unfold rteUser at he ⊢
    rw [split_scale h hk hj, split_kernel h hk hj, split_beamSource h hk hj, split_tauStar h hk hj, split_source h hk hj]
    exact he
  top := hV.top
  bot := by
    intro i hi
    rw [split_bottom hk]
    have := hV.bot i hi
    unfold reflected at this ⊢
    rw [split_n, split_bdryStar_gt h hk hk le_rfl]
    exact this

theorem tauStar_layers (h : Accepted a) {l l' : ℕ} (hl : l < a.tauArr.n) (hl' : l' < a.tauArr.n) {t : ℝ} (h1 : InLayer a l t)
    (h2 : InLayer a l' t) : tauStar a l t = tauStar a l' t := by
  wlog hle : l ≤ l' generalizing l l'
  · exact (this hl' hl h2 h1 (by omega)).symm
  rcases Nat.lt_or_ge l l' with hlt | hge
  · have e : l' = l + 1 := by
      by_contra hne
      have := bdry_lt h (l := l + 1) (by omega)
      have h3 := bdry_le h (j := l + 1 + 1) (k := l') (by omega) hl'.le
      have := h1.2; have := h2.1
      linarith
    subst e
    have : t = bdry a.tauArr.get (l + 1) := le_antisymm h1.2 h2.1
    unfold tauStar
    rw [this]
    have e2 : bdryStar a (l + 1) = bdryStar a l + scale a l * (bdry a.tauArr.get (l + 1) - bdry a.tauArr.get l) := by
      unfold bdryStar; rw [sum_range_succ]
    rw [e2]; ring
  · rw [show l = l' by omega]

end
end Pydisort

import Verif.Spec.Inexact
import Verif.Props.Neglect

/-! Helper lemmas: a field that solves the transfer equation approximately is near the solution. -/

namespace Pydisort
open Finset Spec

variable {E : Ext} {a : Args}

/-- The jumps of a field above layer `l`. -/
noncomputable def jumps (a : Args) (v : ℕ → ℝ → ℕ → ℝ) (l i : ℕ) : ℝ :=
  ∑ k ∈ range l, (v (k + 1) (a.tauArr.get k) i - v k (a.tauArr.get k) i)

theorem jumps_le {mu w : Vec} {rho : ℝ → ℝ → ℝ} {v : ℕ → ℝ → ℕ → ℝ} {η δ β : ℝ} (hv : NearlySolves a mu w rho v η δ β) (hδ : 0 ≤ δ) {l i : ℕ} (hl : l < a.tauArr.n)
    (hi : i < 2 * nHalf a) : |jumps a v l i| ≤ (a.tauArr.n - 1 : ℕ) * δ := by
  unfold jumps
  refine (abs_sum_le_sum_abs _ _).trans ?_
  refine (sum_le_sum (g := fun _ => δ) fun k hk => ?_).trans ?_
  · rw [mem_range] at hk
    rw [abs_sub_comm]
    exact hv.mid k (by omega) i hi
  · rw [sum_const, card_range, nsmul_eq_mul]
    refine mul_le_mul_of_nonneg_right ?_ hδ
    exact_mod_cast (by omega : l ≤ a.tauArr.n - 1)

/-- Two layers that contain a depth are neighbours, and the depth is the interface. -/
theorem two_layers (h : Accepted a) {l l' : ℕ} (hl' : l' < a.tauArr.n) (hlt : l < l') {t : ℝ} (h1 : InLayer a l t)
    (h2 : InLayer a l' t) : l' = l + 1 ∧ t = a.tauArr.get l := by
  have e : l' = l + 1 := by
    by_contra hne
    have := bdry_lt h (l := l + 1) (by omega)
    have h3 := bdry_le h (j := l + 1 + 1) (k := l') (by omega) hl'.le
    have := h1.2; have := h2.1
    linarith
  subst e
  refine ⟨rfl, ?_⟩
  have := le_antisymm h1.2 h2.1
  rwa [bdry_succ] at this

/-- Without its jumps the field is given by one function. -/
noncomputable def joined (a : Args) (v : ℕ → ℝ → ℕ → ℝ) (t : ℝ) (i : ℕ) : ℝ := v (layOf a t) t i - jumps a v (layOf a t) i

theorem unjump_agree (h : Accepted a) (v : ℕ → ℝ → ℕ → ℝ) {l l' : ℕ} (hl : l < a.tauArr.n) (hl' : l' < a.tauArr.n) {t : ℝ} (h1 : InLayer a l t) (h2 : InLayer a l' t) (i : ℕ) :
    v l t i - jumps a v l i = v l' t i - jumps a v l' i := by
  wlog hle : l ≤ l' generalizing l l'
  · exact (this hl' hl h2 h1 (by omega)).symm
  rcases Nat.lt_or_ge l l' with hlt | hge
  · obtain ⟨e, ht⟩ := two_layers h hl' hlt h1 h2
    subst e
    have : jumps a v (l + 1) i = jumps a v l i + (v (l + 1) (a.tauArr.get l) i - v l (a.tauArr.get l) i) := sum_range_succ _ _
    rw [this, ht]; ring
  · rw [show l' = l by omega]

theorem range_of_layer (h : Accepted a) {l : ℕ} (hl : l < a.tauArr.n) {t : ℝ} (ht : InLayer a l t) : 0 ≤ t ∧ t ≤ bottom a := by
  have b1 := bdry_le h (Nat.zero_le l) hl.le
  have b2 := bdry_le h (show l + 1 ≤ a.tauArr.n from hl) le_rfl
  rw [bdry_zero] at b1
  rw [bdry_bottom h] at b2
  exact ⟨b1.trans ht.1, ht.2.trans b2⟩

theorem joined_eq (h : Accepted a) (v : ℕ → ℝ → ℕ → ℝ) {l : ℕ} (hl : l < a.tauArr.n) {t : ℝ} (ht : InLayer a l t) (i : ℕ) :
    joined a v t i = v l t i - jumps a v l i := by
  obtain ⟨h0, h1⟩ := range_of_layer h hl ht
  obtain ⟨k1, k2⟩ := layOf_spec h h0 h1
  exact unjump_agree h v k1 hl k2 ht i

theorem joined_cont (h : Accepted a) {v : ℕ → ℝ → ℕ → ℝ} {i : ℕ} (hc : ∀ l < a.tauArr.n, ∀ t, InLayer a l t → ContinuousAt (fun x => v l x i) t) :
    ContinuousOn (fun t => joined a v t i) (Set.Icc 0 (bottom a)) := by
  have main : ∀ k ≤ a.tauArr.n, ContinuousOn (fun t => joined a v t i) (Set.Icc 0 (bdry a.tauArr.get k)) := by
    intro k
    induction k with
    | zero =>
      intro _
      rw [bdry_zero, Set.Icc_self]
      exact continuousOn_singleton _ _
    | succ k ih =>
      intro hk
      have hk0 : 0 ≤ bdry a.tauArr.get k := by
        have := bdry_le h (Nat.zero_le k) (show k ≤ a.tauArr.n by omega)
        rwa [bdry_zero] at this
      have h2 : ContinuousOn (fun t => joined a v t i) (Set.Icc (bdry a.tauArr.get k) (bdry a.tauArr.get (k + 1))) := by
        have hc' : ContinuousOn (fun t => v k t i - jumps a v k i) (Set.Icc (bdry a.tauArr.get k) (bdry a.tauArr.get (k + 1))) := fun t ht =>
          ((hc k (by omega) t ht).sub continuousAt_const).continuousWithinAt
        exact hc'.congr fun t ht => joined_eq h v (by omega) ht i
      rw [← Set.Icc_union_Icc_eq_Icc hk0 (bdry_lt h (show k < a.tauArr.n by omega)).le]
      exact (ih (by omega)).union_of_isClosed h2 isClosed_Icc isClosed_Icc
  have := main a.tauArr.n le_rfl
  rwa [bdry_bottom h] at this

theorem near_super (hacc : Accepted a) (hg : GaussContract E (nHalf a)) (hpk : ∀ l < a.tauArr.n, peak a l < 1)
    (hk : NonnegScattering a (node E a)) {rho : ℝ → ℝ → ℝ} (hr0 : ∀ i < nHalf a, ∀ j < nHalf a, 0 ≤ rho (node E a i) (node E a j)) {κ : ℝ}
    (hκ : AbsorbsFraction a (node E a) (weight E a) rho κ) {U : ℝ → ℕ → ℝ} (hU : IsSolution a (node E a) (weight E a) rho 0 U) {v : ℕ → ℝ → ℕ → ℝ} {η δ β : ℝ}
    (hδ : 0 ≤ δ) (hv : NearlySolves a (node E a) (weight E a) rho v η δ β) (s : ℝ) (hs : |s| = 1) :
    ∀ t, 0 ≤ t → t ≤ bottom a → ∀ i < 2 * nHalf a, 0 ≤ (max η β + 2 * ((a.tauArr.n - 1 : ℕ) * δ)) / κ + s * (U t i - joined a v t i) := by
  have hn := streams_pos hacc
  have hL := hacc.layers
  have hbot0 : 0 ≤ bottom a := by
    have := bdry_le hacc (Nat.zero_le a.tauArr.n) le_rfl
    rwa [bdry_zero, bdry_bottom hacc] at this
  set D : ℝ := (a.tauArr.n - 1 : ℕ) * δ with hD
  have hD0 : 0 ≤ D := by positivity
  set c := (max η β + 2 * D) / κ with hc
  have hβ0 : 0 ≤ β := (abs_nonneg _).trans (hv.top 0 hn)
  have hm0 : 0 ≤ max η β := hβ0.trans (le_max_right _ _)
  have hcκ : c * κ = max η β + 2 * D := by rw [hc]; field_simp [hκ.pos.ne']
  have hc0 : 0 ≤ c := div_nonneg (by linarith) hκ.pos.le
  have hs1 : ∀ x : ℝ, -|x| ≤ s * x := fun x => by
    have := neg_abs_le (s * x)
    rwa [abs_mul, hs, one_mul] at this
  have hj : ∀ l < a.tauArr.n, ∀ i < 2 * nHalf a, |jumps a v l i| ≤ D := fun l hl i hi => jumps_le hv hδ hl hi
  refine nonneg_of_super (E := E) hacc hg hpk hk hr0 (fun i hi => by linarith [hκ.surface i hi, hκ.pos]) (V := fun t i => c + s * (U t i - joined a v t i))
    (fun i hi => continuousOn_const.add (continuousOn_const.mul ((hU.cont i hi).sub (joined_cont hacc fun l hl t ht => ?_)))) ?_ ?_ ?_
  · obtain ⟨d, hd, _⟩ := hv.ode l hl t ht i hi
    exact hd.continuousAt
  · intro l hl t ht0 ht1 i hi
    have hin : InLayer a l t := ⟨ht0.le, ht1.le⟩
    obtain ⟨d₁, g₁, e₁⟩ := hU.ode l hl t ht0 ht1 i hi
    obtain ⟨d₂, g₂, e₂⟩ := hv.ode l hl t hin i hi
    have g₂' : HasDerivAt (fun x => joined a v x i) d₂ t := by
      refine (g₂.sub_const (jumps a v l i)).congr_of_eventuallyEq ?_
      filter_upwards [Ioo_mem_nhds ht0 ht1] with x hx
      exact joined_eq hacc v hl ⟨hx.1.le, hx.2.le⟩ i
    refine ⟨s * (d₁ - d₂), ((g₁.sub g₂').const_mul s).const_add _, ?_⟩
    rw [rteUser_zero] at e₁ e₂
    have hrow := row_sum_kernel hacc hg (hpk l hl) (stream (nHalf a) (node E a) i)
    have hsc := Args.scale_pos hacc hl
    have he := effAlbedo_range hacc hl (hpk l hl)
    have hka := hκ.layers l hl
    have hK : ∀ j ∈ range (2 * nHalf a), 0 ≤ streamW (nHalf a) (weight E a) j * kernel a 0 l (stream (nHalf a) (node E a) i) (stream (nHalf a) (node E a) j) := by
      intro j hj'
      have hj' := mem_range.1 hj'
      refine mul_nonneg ?_ (hk l hl i hi j hj')
      unfold streamW
      split_ifs
      · exact (weight_pos hg (by assumption)).le
      · exact (weight_pos hg (by omega)).le
    set q : ℕ → ℝ := fun j => streamW (nHalf a) (weight E a) j * kernel a 0 l (stream (nHalf a) (node E a) i) (stream (nHalf a) (node E a) j) with hq
    have hq1 : ∑ j ∈ range (2 * nHalf a), q j * (c + s * (U t j - joined a v t j)) = effAlbedo a l * c
        + s * (∑ j ∈ range (2 * nHalf a), q j * U t j - ∑ j ∈ range (2 * nHalf a), q j * v l t j + ∑ j ∈ range (2 * nHalf a), q j * jumps a v l j) := by
      rw [← hrow, sum_mul, ← sum_sub_distrib, ← sum_add_distrib, mul_sum, ← sum_add_distrib]
      refine sum_congr rfl fun j _ => ?_
      rw [joined_eq hacc v hl hin]
      ring
    have hJ : |∑ j ∈ range (2 * nHalf a), q j * jumps a v l j| ≤ effAlbedo a l * D := by
      rw [← hrow, sum_mul]
      refine (abs_sum_le_sum_abs _ _).trans (sum_le_sum fun j hj' => ?_)
      rw [abs_mul, abs_of_nonneg (hK j hj')]
      exact mul_le_mul_of_nonneg_left (hj l hl j (mem_range.1 hj')) (hK j hj')
    change stream (nHalf a) (node E a) i * (s * (d₁ - d₂)) ≤ scale a l * (c + s * (U t i - joined a v t i)
      - ∑ j ∈ range (2 * nHalf a), q j * (c + s * (U t j - joined a v t j)))
    rw [hq1, joined_eq hacc v hl hin]
    change stream (nHalf a) (node E a) i * d₁ = scale a l * (U t i - ∑ j ∈ range (2 * nHalf a), q j * U t j) - _ at e₁
    change |stream (nHalf a) (node E a) i * d₂ - (scale a l * (v l t i - ∑ j ∈ range (2 * nHalf a), q j * v l t j) - _)| ≤ _ at e₂
    set X := scale a l * (beamSource a 0 l (stream (nHalf a) (node E a) i) * Real.exp (-tauStar a l t / a.mu0)) + (1 - a.omega.get l) * source a l t
    set KU := ∑ j ∈ range (2 * nHalf a), q j * U t j
    set Kv := ∑ j ∈ range (2 * nHalf a), q j * v l t j
    set KJ := ∑ j ∈ range (2 * nHalf a), q j * jumps a v l j
    have h3 : stream (nHalf a) (node E a) i * (s * (d₁ - d₂)) = s * (stream (nHalf a) (node E a) i * d₁)
        - s * (stream (nHalf a) (node E a) i * d₂ - (scale a l * (v l t i - Kv) - X)) - s * (scale a l * (v l t i - Kv) - X) := by ring
    rw [h3, e₁]
    have h4 := hs1 (stream (nHalf a) (node E a) i * d₂ - (scale a l * (v l t i - Kv) - X))
    have h5 := hs1 (jumps a v l i - KJ)
    have h6 : |jumps a v l i - KJ| ≤ 2 * D := by
      have := abs_sub (jumps a v l i) KJ
      have := hj l hl i hi
      have := mul_le_mul_of_nonneg_right he.2.1.le hD0
      linarith
    have h7 : max η β + 2 * D ≤ c * (1 - effAlbedo a l) := by
      rw [← hcκ]; exact mul_le_mul_of_nonneg_left hka hc0
    have h8 : scale a l * η ≤ scale a l * max η β := mul_le_mul_of_nonneg_left (le_max_left _ _) hsc.le
    have h9 : scale a l * (max η β + 2 * D) ≤ scale a l * (c * (1 - effAlbedo a l)) := mul_le_mul_of_nonneg_left h7 hsc.le
    have h10 : scale a l * (-(2 * D)) ≤ scale a l * (s * (jumps a v l i - KJ)) := mul_le_mul_of_nonneg_left (by linarith) hsc.le
    linarith [h8, h9, h10, h4, e₂]
  · intro i hi
    have h0 : joined a v 0 (nHalf a + i) = v 0 0 (nHalf a + i) := by
      rw [joined_eq hacc v hL ⟨by rw [bdry_zero], by have := bdry_lt hacc hL; rw [bdry_zero] at this; exact this.le⟩]
      simp [jumps]
    beta_reduce
    rw [hU.top i hi, h0]
    have h1 := hs1 (bcVal a.bneg 0 i - v 0 0 (nHalf a + i))
    rw [abs_sub_comm] at h1
    have h2 := hv.top i hi
    have hk1 : κ ≤ 1 := by linarith [hκ.layers 0 hL, (effAlbedo_range hacc hL (hpk 0 hL)).1]
    have h3 : β ≤ c := by
      have : c * κ ≤ c * 1 := mul_le_mul_of_nonneg_left hk1 hc0
      linarith [le_max_right η β]
    linarith
  · intro i hi
    have hin : InLayer a (a.tauArr.n - 1) (bottom a) := by
      have h1 := bdry_lt hacc (show a.tauArr.n - 1 < a.tauArr.n by omega)
      rw [show a.tauArr.n - 1 + 1 = a.tauArr.n by omega, bdry_bottom hacc] at h1
      refine ⟨h1.le, ?_⟩
      rw [show a.tauArr.n - 1 + 1 = a.tauArr.n by omega, bdry_bottom hacc]
    have hlast : a.tauArr.n - 1 < a.tauArr.n := by omega
    have hb := hv.bot i hi
    have hsf := hκ.surface i hi
    have hr := hU.bot i hi
    beta_reduce
    simp only [joined_eq hacc v hlast hin]
    rw [hr]
    unfold reflectance at hsf
    set n := a.tauArr.n - 1
    set b := bottom a
    have hw : ∀ j ∈ range (nHalf a), 0 ≤ weight E a j * node E a j * rho (node E a i) (node E a j) := fun j hj' =>
      mul_nonneg (mul_nonneg (weight_pos hg (mem_range.1 hj')).le (node_pos hg (mem_range.1 hj')).1.le) (hr0 i hi j (mem_range.1 hj'))
    split_ifs at hb hsf ⊢ with hm
    · unfold reflected at hb ⊢
      rw [if_pos rfl, one_add_one_eq_two] at hb ⊢
      set g : ℕ → ℝ := fun j => weight E a j * node E a j * rho (node E a i) (node E a j) with hgd
      have h1 : ∑ j ∈ range (nHalf a), g j * (c + s * (U b (nHalf a + j) - (v n b (nHalf a + j) - jumps a v n (nHalf a + j))))
          = (∑ j ∈ range (nHalf a), g j) * c + s * (∑ j ∈ range (nHalf a), g j * U b (nHalf a + j) - ∑ j ∈ range (nHalf a), g j * v n b (nHalf a + j)
            + ∑ j ∈ range (nHalf a), g j * jumps a v n (nHalf a + j)) := by
        rw [sum_mul, ← sum_sub_distrib, ← sum_add_distrib, mul_sum, ← sum_add_distrib]
        exact sum_congr rfl fun j _ => by ring
      have hJ : |∑ j ∈ range (nHalf a), g j * jumps a v n (nHalf a + j)| ≤ (∑ j ∈ range (nHalf a), g j) * D := by
        rw [sum_mul]
        refine (abs_sum_le_sum_abs _ _).trans (sum_le_sum fun j hj' => ?_)
        rw [abs_mul, abs_of_nonneg (hw j hj')]
        exact mul_le_mul_of_nonneg_left (hj n hlast _ (by have := mem_range.1 hj'; omega)) (hw j hj')
      change 2 * ∑ j ∈ range (nHalf a), g j * _ ≤ c + s * (_ + (2 * ∑ j ∈ range (nHalf a), g j * _ + _) - _)
      change κ ≤ 1 - 2 * ∑ j ∈ range (nHalf a), g j at hsf
      change |v n b i - (_ + (2 * ∑ j ∈ range (nHalf a), g j * v n b (nHalf a + j) + _))| ≤ β at hb
      rw [h1]
      set GJ := ∑ j ∈ range (nHalf a), g j * jumps a v n (nHalf a + j)
      set Gv := ∑ j ∈ range (nHalf a), g j * v n b (nHalf a + j)
      set GU := ∑ j ∈ range (nHalf a), g j * U b (nHalf a + j)
      set G := ∑ j ∈ range (nHalf a), g j
      set X := a.mu0 * a.I0 / Real.pi * rho (node E a i) a.mu0 * Real.exp (-bdryStar a a.tauArr.n / a.mu0)
      have h4 := hs1 (bcVal a.bpos 0 i + (2 * Gv + X) - v n b i)
      rw [abs_sub_comm] at h4
      have h5 := hs1 (jumps a v n i - 2 * GJ)
      have hG0 : 0 ≤ G := sum_nonneg hw
      have h6 : |jumps a v n i - 2 * GJ| ≤ 2 * D := by
        have q1 := abs_sub (jumps a v n i) (2 * GJ)
        have q2 := hj n hlast i (by omega)
        have q3 : |2 * GJ| = 2 * |GJ| := by rw [abs_mul, abs_two]
        have q4 : 2 * G * D ≤ 1 * D := mul_le_mul_of_nonneg_right (by linarith [hκ.pos]) hD0
        linarith
      have h7 : max η β + 2 * D ≤ c * (1 - 2 * G) := by
        rw [← hcκ]; exact mul_le_mul_of_nonneg_left hsf hc0
      have h8 := le_max_right η β
      linarith
    · have h4 := hs1 (bcVal a.bpos 0 i + 0 - v n b i)
      rw [abs_sub_comm] at h4
      have h5 := hs1 (jumps a v n i)
      have h6 := hj n hlast i (by omega)
      have h7 : max η β + 2 * D ≤ c * (1 - 0) := by
        rw [← hcκ]; exact mul_le_mul_of_nonneg_left hsf hc0
      have h8 := le_max_right η β
      linarith

/-- A field with small residuals is near the solution. -/
theorem near_solution (hacc : Accepted a) (hg : GaussContract E (nHalf a)) (hpk : ∀ l < a.tauArr.n, peak a l < 1)
    (hk : NonnegScattering a (node E a)) {rho : ℝ → ℝ → ℝ} (hr0 : ∀ i < nHalf a, ∀ j < nHalf a, 0 ≤ rho (node E a i) (node E a j)) {κ : ℝ}
    (hκ : AbsorbsFraction a (node E a) (weight E a) rho κ) {U : ℝ → ℕ → ℝ} (hU : IsSolution a (node E a) (weight E a) rho 0 U) {v : ℕ → ℝ → ℕ → ℝ} {η δ β : ℝ}
    (hδ : 0 ≤ δ) (hv : NearlySolves a (node E a) (weight E a) rho v η δ β) :
    ∀ l < a.tauArr.n, ∀ t, InLayer a l t → ∀ i < 2 * nHalf a, |v l t i - U t i| ≤ errorBound a.tauArr.n κ η δ β := by
  intro l hl t ht i hi
  obtain ⟨h0, h1⟩ := range_of_layer hacc hl ht
  have p := near_super hacc hg hpk hk hr0 hκ hU hδ hv 1 (by simp) t h0 h1 i hi
  have q := near_super hacc hg hpk hk hr0 hκ hU hδ hv (-1) (by simp) t h0 h1 i hi
  rw [joined_eq hacc v hl ht] at p q
  have hj := abs_le.1 (jumps_le hv hδ hl hi)
  unfold errorBound
  exact abs_le.2 ⟨by linarith, by linarith⟩

/-! ### The field described by the arrays -/

theorem tauStar_deriv (a : Args) (l : ℕ) (t : ℝ) : HasDerivAt (fun x => tauStar a l x) (scale a l) t := by
  unfold tauStar
  have := (((hasDerivAt_id' t).sub_const (bdry a.tauArr.get l)).const_mul (scale a l)).const_add (bdryStar a l)
  simpa using this

theorem polyPart_deriv (Nc : ℕ) (P : ℕ → ℕ → ℕ → ℝ) (l : ℕ) (t : ℝ) (i : ℕ) : HasDerivAt (fun x => polyPart a Nc P l x i) (scale a l * polySlope a Nc P l t i) t := by
  unfold polyPart polySlope
  have h1 := HasDerivAt.fun_sum (u := range Nc) (A := fun p x => P l p i * tauStar a l x ^ p) (A' := fun p => P l p i * ((p : ℝ) * tauStar a l t ^ (p - 1) * scale a l)) (x := t)
    (fun p _ => ((tauStar_deriv a l t).pow p).const_mul _)
  refine h1.congr_deriv ?_
  rw [mul_sum]
  exact sum_congr rfl fun p _ => by ring

theorem arrayField_deriv (r : ℝ) (GC : ℕ → ℕ → ℕ → ℝ) (K B : ℕ → ℕ → ℝ) (Nc : ℕ) (P : ℕ → ℕ → ℕ → ℝ) (l : ℕ) (t : ℝ) (i : ℕ) :
    HasDerivAt (fun x => arrayField a r GC K B Nc P l x i) (r * (∑ j ∈ range (2 * nHalf a), GC l i j
        * (Real.exp (K l j * (tauStar a l t - bdryStar a (if j < nHalf a then l else l + 1))) * (K l j * scale a l))
      + (if 0 < a.I0 then B l i * (Real.exp (-tauStar a l t / a.mu0) * (-scale a l / a.mu0)) else 0) + scale a l * polySlope a Nc P l t i)) t := by
  have hT := tauStar_deriv a l t
  unfold arrayField
  refine HasDerivAt.const_mul r (HasDerivAt.add (HasDerivAt.add ?_ ?_) (polyPart_deriv Nc P l t i))
  · refine HasDerivAt.fun_sum fun j _ => ?_
    exact (((hT.sub_const _).const_mul (K l j)).exp).const_mul (GC l i j)
  · split_ifs
    · exact ((hT.neg.div_const a.mu0).exp).const_mul (B l i)
    · exact hasDerivAt_const _ _

theorem array_nearly (hacc : Accepted a) {mu w : Vec} {rho : ℝ → ℝ → ℝ} {r : ℝ} {GC : ℕ → ℕ → ℕ → ℝ} {K B : ℕ → ℕ → ℝ} {Nc : ℕ} {P : ℕ → ℕ → ℕ → ℝ} {η δ β : ℝ}
    (h : SmallResiduals a mu w rho r GC K B Nc P η δ β) : NearlySolves a mu w rho (arrayField a r GC K B Nc P) η δ β := by
  refine ⟨fun l hl t ht i hi => ⟨_, arrayField_deriv r GC K B Nc P l t i, ?_⟩, h.mid, h.top, h.bot⟩
  have hsc := Args.scale_pos hacc hl
  rw [rteUser_zero]
  set e : ℕ → ℝ := fun j => Real.exp (K l j * (tauStar a l t - bdryStar a (if j < nHalf a then l else l + 1))) with he
  set x : ℝ := Real.exp (-tauStar a l t / a.mu0) with hx
  have hlo : bdryStar a l ≤ tauStar a l t := by
    unfold tauStar
    have := mul_nonneg hsc.le (sub_nonneg.2 ht.1)
    linarith
  have hhi : tauStar a l t ≤ bdryStar a (l + 1) := by
    rw [bdryStar_eq]
    unfold tauStar
    have := mul_le_mul_of_nonneg_left (sub_le_sub_right ht.2 (bdry a.tauArr.get l)) hsc.le
    linarith
  have he1 : ∀ j ∈ range (2 * nHalf a), 0 ≤ e j ∧ e j ≤ 1 := by
    intro j hj
    refine ⟨(Real.exp_pos _).le, Real.exp_le_one_iff.2 ?_⟩
    split_ifs with h1
    · exact mul_nonpos_of_nonpos_of_nonneg (h.downward l hl j h1) (by linarith)
    · exact mul_nonpos_of_nonneg_of_nonpos (h.upward l hl j (mem_range.1 hj) (by omega)) (by linarith)
  have hT0 : 0 ≤ tauStar a l t := by
    refine le_trans ?_ hlo
    unfold bdryStar
    refine sum_nonneg fun k hk => mul_nonneg (Args.scale_pos hacc (show k < a.tauArr.n by have := mem_range.1 hk; omega)).le ?_
    have := bdry_lt hacc (l := k) (by have := mem_range.1 hk; omega)
    linarith
  have hmu : 0 < a.I0 → 0 < a.mu0 := fun hI => (hacc.beamDir hI).1.1
  set q : ℕ → ℝ := fun j => streamW (nHalf a) w j * kernel a 0 l (stream (nHalf a) mu i) (stream (nHalf a) mu j) with hq
  set Y : ℕ → ℝ := fun p => polyPart a Nc P l t p with hY
  have hsum : ∑ j ∈ range (2 * nHalf a), q j * arrayField a r GC K B Nc P l t j
      = r * (∑ j ∈ range (2 * nHalf a), (∑ p ∈ range (2 * nHalf a), q p * GC l p j) * e j
        + (if 0 < a.I0 then (∑ p ∈ range (2 * nHalf a), q p * B l p) * x else 0) + ∑ p ∈ range (2 * nHalf a), q p * Y p) := by
    unfold arrayField
    have h1 : ∀ p, q p * (r * (∑ j ∈ range (2 * nHalf a), GC l p j * e j + (if 0 < a.I0 then B l p * x else 0) + Y p))
        = r * (∑ j ∈ range (2 * nHalf a), q p * GC l p j * e j) + r * (if 0 < a.I0 then q p * B l p * x else 0) + r * (q p * Y p) := by
      intro p
      rw [show (∑ j ∈ range (2 * nHalf a), q p * GC l p j * e j) = q p * ∑ j ∈ range (2 * nHalf a), GC l p j * e j from by
        rw [mul_sum]; exact sum_congr rfl fun j _ => by ring]
      split_ifs <;> ring
    rw [sum_congr rfl fun p _ => h1 p, sum_add_distrib, sum_add_distrib, ← mul_sum, ← mul_sum, ← mul_sum, sum_comm, mul_add, mul_add]
    congr 3
    · exact sum_congr rfl fun j _ => by rw [sum_mul]
    · split_ifs
      · rw [sum_mul]
      · simp
  change |_ - (scale a l * (arrayField a r GC K B Nc P l t i - ∑ j ∈ range (2 * nHalf a), q j * arrayField a r GC K B Nc P l t j) - _)| ≤ _
  rw [hsum]
  have hE := h.eig l hl t ht i hi
  set ρ : ℕ → ℝ := fun j => GC l i j - ∑ p ∈ range (2 * nHalf a), q p * GC l p j - stream (nHalf a) mu i * K l j * GC l i j with hρ
  change |r| * ∑ j ∈ range (2 * nHalf a), |ρ j| + (if 0 < a.I0 then |r * ((1 + stream (nHalf a) mu i / a.mu0) * B l i
    - ∑ p ∈ range (2 * nHalf a), q p * B l p) - beamSource a 0 l (stream (nHalf a) mu i)| else 0)
    + |r * (Y i - ∑ p ∈ range (2 * nHalf a), q p * Y p - stream (nHalf a) mu i * polySlope a Nc P l t i) - (1 - a.omega.get l) / scale a l * source a l t| ≤ η at hE
  have hρs : ∑ j ∈ range (2 * nHalf a), ρ j * e j = ∑ j ∈ range (2 * nHalf a), GC l i j * e j
      - ∑ j ∈ range (2 * nHalf a), (∑ p ∈ range (2 * nHalf a), q p * GC l p j) * e j
      - stream (nHalf a) mu i * ∑ j ∈ range (2 * nHalf a), K l j * GC l i j * e j := by
    rw [mul_sum, ← sum_sub_distrib, ← sum_sub_distrib]
    exact sum_congr rfl fun j _ => by simp only [hρ]; ring
  have hρle : |∑ j ∈ range (2 * nHalf a), ρ j * e j| ≤ ∑ j ∈ range (2 * nHalf a), |ρ j| := by
    refine (abs_sum_le_sum_abs _ _).trans (sum_le_sum fun j hj => ?_)
    rw [abs_mul, abs_of_nonneg (he1 j hj).1]
    exact mul_le_of_le_one_right (abs_nonneg _) (he1 j hj).2
  have hders : ∑ j ∈ range (2 * nHalf a), GC l i j * (e j * (K l j * scale a l))
      = scale a l * ∑ j ∈ range (2 * nHalf a), K l j * GC l i j * e j := by
    rw [mul_sum]; exact sum_congr rfl fun j _ => by ring
  rw [hders]
  have hself : arrayField a r GC K B Nc P l t i = r * (∑ j ∈ range (2 * nHalf a), GC l i j * e j + (if 0 < a.I0 then B l i * x else 0) + Y i) := rfl
  rw [hself]
  set S1 := ∑ j ∈ range (2 * nHalf a), K l j * GC l i j * e j
  set S2 := ∑ j ∈ range (2 * nHalf a), GC l i j * e j
  set S3 := ∑ j ∈ range (2 * nHalf a), (∑ p ∈ range (2 * nHalf a), q p * GC l p j) * e j
  set S4 := ∑ p ∈ range (2 * nHalf a), q p * B l p
  set S5 := ∑ p ∈ range (2 * nHalf a), q p * Y p
  set Z := polySlope a Nc P l t i
  set P' := ∑ j ∈ range (2 * nHalf a), ρ j * e j
  set X := beamSource a 0 l (stream (nHalf a) mu i) with hX
  set T := r * (Y i - S5 - stream (nHalf a) mu i * Z) - (1 - a.omega.get l) / scale a l * source a l t with hT
  have hTs : scale a l * T = scale a l * (r * (Y i - S5 - stream (nHalf a) mu i * Z)) - (1 - a.omega.get l) * source a l t := by
    rw [hT]
    have := hsc.ne'
    field_simp
  by_cases hI : 0 < a.I0
  · rw [if_pos hI] at hE
    simp only [if_pos hI]
    have hx1 : x ≤ 1 := Real.exp_le_one_iff.2 (div_nonpos_of_nonpos_of_nonneg (by linarith) (hmu hI).le)
    have hx0 : 0 ≤ x := (Real.exp_pos _).le
    have e1 : stream (nHalf a) mu i * (r * (scale a l * S1 + B l i * (x * (-scale a l / a.mu0)) + scale a l * Z))
        - (scale a l * (r * (S2 + B l i * x + Y i) - r * (S3 + S4 * x + S5)) - (scale a l * (X * x) + (1 - a.omega.get l) * source a l t))
        = -(scale a l * (r * P' + (r * ((1 + stream (nHalf a) mu i / a.mu0) * B l i - S4) - X) * x + T)) := by
      rw [mul_add (scale a l) (_ + _) T, hTs, hρs]
      have := (hmu hI).ne'
      field_simp
      ring
    rw [e1, abs_neg, abs_mul, abs_of_pos hsc]
    refine mul_le_mul_of_nonneg_left ?_ hsc.le
    refine (abs_add_le _ _).trans (le_trans (add_le_add ((abs_add_le _ _).trans (add_le_add ?_ ?_)) le_rfl) hE)
    · rw [abs_mul]; exact mul_le_mul_of_nonneg_left hρle (abs_nonneg r)
    · rw [abs_mul, abs_of_nonneg hx0]; exact mul_le_of_le_one_right (abs_nonneg _) hx1
  · rw [if_neg hI, add_zero] at hE
    have hI0 : a.I0 = 0 := le_antisymm (not_lt.1 hI) hacc.beam
    have hX0 : X = 0 := beamSource_zero hI0 0 l _
    simp only [if_neg hI]
    rw [hX0]
    have e1 : stream (nHalf a) mu i * (r * (scale a l * S1 + 0 + scale a l * Z))
        - (scale a l * (r * (S2 + 0 + Y i) - r * (S3 + 0 + S5)) - (scale a l * (0 * x) + (1 - a.omega.get l) * source a l t))
        = -(scale a l * (r * P' + T)) := by
      rw [mul_add (scale a l) _ T, hTs, hρs]
      ring
    rw [e1, abs_neg, abs_mul, abs_of_pos hsc]
    refine mul_le_mul_of_nonneg_left ((abs_add_le _ _).trans (le_trans (add_le_add ?_ le_rfl) hE)) hsc.le
    rw [abs_mul]; exact mul_le_mul_of_nonneg_left hρle (abs_nonneg r)

end Pydisort

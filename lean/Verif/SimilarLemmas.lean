import Verif.Spec.Similar
import Verif.SplitLemmas
import Verif.Props.Absorbing
import Verif.Props.Bounds

/-! Helper lemmas: the atmosphere with scaled optical properties. -/

namespace Pydisort
open Finset Spec

section
variable {E : Ext} {a : Args} {s' : A2 ℝ}

theorem bdryStar_succ (a : Args) (l : ℕ) :
    bdryStar a (l + 1) = bdryStar a l + scale a l * (bdry a.tauArr.get (l + 1) - bdry a.tauArr.get l) := by
  unfold bdryStar; rw [sum_range_succ]

theorem bdryStar_zero (a : Args) : bdryStar a 0 = 0 := by simp [bdryStar]

theorem pre_bdry (l : ℕ) : bdry (preScaled a s').tauArr.get l = bdryStar a l := by
  rcases l with _ | l
  · rw [bdry_zero, bdryStar_zero]
  · rw [Spec.bdry_succ]; rfl

theorem pre_peak (l : ℕ) : peak (preScaled a s') l = 0 := by
  unfold peak preScaled; simp

theorem pre_scale (l : ℕ) : scale (preScaled a s') l = 1 := by unfold scale; rw [pre_peak]; ring

theorem pre_omegaStar (l : ℕ) : omegaStar (preScaled a s') l = omegaStar a l := by
  have : (preScaled a s').omega.get l = omegaStar a l := rfl
  conv_lhs => unfold omegaStar
  rw [pre_peak, pre_scale, this]; ring

theorem pre_legStar {l : ℕ} (hp : peak a l < 1) : legStar (preScaled a s') l = legStar a l := by
  funext k
  have : leg (preScaled a s') l k = legStar a l k := by
    unfold leg
    split_ifs with h
    · subst h
      unfold legStar leg
      rw [if_pos rfl, div_self (by linarith)]
    · rfl
  conv_lhs => unfold legStar
  rw [pre_peak, this]; ring

theorem pre_kernel {l : ℕ} (hp : peak a l < 1) (m : ℕ) : kernel (preScaled a s') m l = kernel a m l := by
  funext x y
  unfold kernel
  rw [pre_omegaStar, pre_legStar hp]
  rfl

theorem pre_beamSource {l : ℕ} (hp : peak a l < 1) (m : ℕ) : beamSource (preScaled a s') m l = beamSource a m l := by
  funext x
  unfold beamSource
  rw [pre_omegaStar, pre_legStar hp]
  rfl

theorem pre_bdryStar (l : ℕ) : bdryStar (preScaled a s') l = bdryStar a l := by
  induction l with
  | zero => rw [bdryStar_zero, bdryStar_zero]
  | succ l ih => rw [bdryStar_succ, ih, pre_scale, pre_bdry, pre_bdry]; ring

theorem pre_tauStar (l : ℕ) (t : ℝ) : tauStar (preScaled a s') l t = t := by
  unfold tauStar
  rw [pre_bdryStar, pre_scale, pre_bdry]; ring

theorem bdryStar_lt (h : Accepted a) {l : ℕ} (hl : l < a.tauArr.n) : bdryStar a l < bdryStar a (l + 1) := by
  rw [bdryStar_succ]
  have := mul_pos (Args.scale_pos h hl) (sub_pos.2 (bdry_lt h hl))
  linarith

theorem legStar_lt_one (h : Accepted a) (hpk : ∀ l < a.tauArr.n, peak a l < 1) {l k : ℕ} (hl : l < a.tauArr.n) (hk : k < a.leg.c)
    (h1 : 1 ≤ k) : legStar a l k < 1 := by
  unfold legStar
  have := hpk l hl
  rw [div_lt_one (by linarith)]
  have : leg a l k = a.leg.get l k := by unfold leg; rw [if_neg (by omega)]
  rw [this]
  linarith [(h.legVal l hl k hk h1).2]

theorem nLeg_le (h : Accepted a) : nLeg a ≤ a.leg.c := by
  have := h.legCols; have := h.nLeg
  unfold nLeg; omega

theorem pre_accepted (h : Accepted a) (hpk : ∀ l < a.tauArr.n, peak a l < 1) (ho : PreOK a s') : Accepted (preScaled a s') where
  layers := h.layers
  top := by
    have := bdryStar_lt h h.layers
    rwa [bdryStar_zero] at this
  increasing := fun k hk => bdryStar_lt h hk
  omegaLen := rfl
  omega := fun k hk => omegaStar_range (h.omega k hk).1 (h.omega k hk).2 (hpk k hk) (Args.peak_range h k).1
  legRows := rfl
  legCols := by
    change a.NLeg.getD a.NQuad ≤ ((nLeg a : ℕ) : ℤ)
    have := h.nLeg
    unfold nLeg; omega
  legVal := fun l hl k hk h1 => ⟨ho.leg l hl k hk h1, legStar_lt_one h hpk hl (lt_of_lt_of_le hk (nLeg_le h)) h1⟩
  peakLen := Or.inl fun _ _ => rfl
  peak := fun _ _ => ⟨le_rfl, zero_le_one⟩
  sourceRows := Or.inr ho.rows
  streams := h.streams
  modes := h.modes
  nLeg := h.nLeg
  beam := h.beam
  beamDir := h.beamDir
  bottom := h.bottom
  topBC := h.topBC
  banded := h.banded

theorem pre_wellPosed (h : WellPosed E a) (ho : PreOK a s') : WellPosed E (preScaled a s') where
  accepted := pre_accepted h.accepted h.peak ho
  gauss := h.gauss
  eig := h.eig
  peak := fun l _ => by rw [pre_peak]; exact one_pos
  dissipates := by
    intro m hm l hl
    rw [pre_kernel (h.peak l hl)]
    exact h.dissipates m hm l hl
  beam := by
    intro hI m hm l hl
    rw [pre_kernel (h.peak l hl), pre_omegaStar, pre_legStar (h.peak l hl)]
    exact h.beam hI m hm l hl
  surface := h.surface
  bottomBC := h.bottomBC
  topBC := h.topBC
  sourceShape := Or.inr ho.rows
  degree := Or.inr ho.degree
  angles := fun hc => by cases hc

theorem tauStar_bdry_succ (a : Args) (l : ℕ) : tauStar a l (bdry a.tauArr.get (l + 1)) = bdryStar a (l + 1) := by
  unfold tauStar; rw [bdryStar_succ]

theorem tauStar_bdry (a : Args) (l : ℕ) : tauStar a l (bdry a.tauArr.get l) = bdryStar a l := by
  unfold tauStar; ring

theorem poly_zero {n : ℕ} {c : ℕ → ℝ} (h : ∀ x : ℝ, ∑ k ∈ range n, c k * x ^ k = 0) : ∀ k < n, c k = 0 := by
  have : (∑ k ∈ range n, Polynomial.monomial k (c k)) = (0 : Polynomial ℝ) := by
    apply Polynomial.funext
    intro x
    rw [Polynomial.eval_finset_sum]
    simpa using h x
  intro k hk
  have e := congrArg (fun p => Polynomial.coeff p k) this
  simp only [Polynomial.finset_sum_coeff, Polynomial.coeff_monomial, Polynomial.coeff_zero] at e
  rw [sum_ite_eq' (range n) k c, if_pos (mem_range.2 hk)] at e
  exact e

theorem pre_noSource (h : Accepted a) (ho : PreOK a s') (hs : NoSource a) : NoSource (preScaled a s') := by
  intro l hl
  have hl' : l < a.tauArr.n := by
    have : l < s'.r := hl
    rwa [ho.rows] at this
  refine poly_zero fun x => ?_
  have hsc := (Args.scale_pos h hl').ne'
  have := ho.source l hl' (bdry a.tauArr.get l + (x - bdryStar a l) / scale a l)
  rw [source_zero hs] at this
  have e : tauStar a l (bdry a.tauArr.get l + (x - bdryStar a l) / scale a l) = x := by
    unfold tauStar; field_simp; ring
  rw [e] at this
  unfold source at this
  rwa [if_pos hl] at this

theorem pre_rescalable (h : Accepted a) (ho : PreOK a s') (hr : Rescalable a) : Rescalable (preScaled a s') := by
  rcases hr with hl | ⟨h1, h2, h3⟩
  · left
    rcases hl with h1 | h1 | h1 | h1 | h1
    · exact Or.inl h1
    · exact Or.inr (Or.inl h1)
    · exact Or.inr (Or.inr (Or.inl h1))
    · refine Or.inr (Or.inr (Or.inr (Or.inl ?_)))
      have := ho.source 0 h.layers 0
      have e : tauStar a 0 0 = 0 := by simp [tauStar, bdryStar, bdry]
      rw [e] at this
      rw [this]; exact h1
    · refine Or.inr (Or.inr (Or.inr (Or.inr ?_)))
      have hn : a.tauArr.n - 1 < a.tauArr.n := by have := h.layers; omega
      have := ho.source _ hn (bottom a)
      have e : tauStar a (a.tauArr.n - 1) (bottom a) = bdryStar a (a.tauArr.n - 1 + 1) := by
        rw [← tauStar_bdry_succ, show a.tauArr.n - 1 + 1 = a.tauArr.n by omega, bdry_bottom h]
      rw [e] at this
      change 0 < source _ (a.tauArr.n - 1) (bdryStar a (a.tauArr.n - 1 + 1))
      rw [this]; exact h1
  · exact Or.inr ⟨pre_noSource h ho h1, h2, h3⟩

/-- The scaled depth of a depth. -/
noncomputable def tauMap (a : Args) (t : ℝ) : ℝ := tauStar a (layOf a t) t

theorem tauMap_eq (h : Accepted a) {l : ℕ} (hl : l < a.tauArr.n) {t : ℝ} (ht : InLayer a l t) : tauMap a t = tauStar a l t := by
  have h0 : 0 ≤ t := by
    have := bdry_le h (Nat.zero_le l) hl.le
    rw [bdry_zero] at this
    exact this.trans ht.1
  have h1 : t ≤ bottom a := by
    have := bdry_le h (show l + 1 ≤ a.tauArr.n by omega) le_rfl
    rw [bdry_bottom h] at this
    exact ht.2.trans this
  have := layOf_spec h h0 h1
  exact tauStar_layers h this.1 hl this.2 ht

theorem tauStar_inLayer (h : Accepted a) {l : ℕ} (hl : l < a.tauArr.n) {t : ℝ} (ht : InLayer a l t) :
    bdryStar a l ≤ tauStar a l t ∧ tauStar a l t ≤ bdryStar a (l + 1) := by
  have hs := Args.scale_pos h hl
  rw [bdryStar_succ]
  unfold tauStar
  constructor
  · have := mul_nonneg hs.le (sub_nonneg.2 ht.1); linarith
  · have := mul_le_mul_of_nonneg_left (sub_le_sub_right ht.2 (bdry a.tauArr.get l)) hs.le; linarith

theorem tauMap_strictMono (h : Accepted a) {t t' : ℝ} (h0 : 0 ≤ t) (htt : t < t') (h1 : t' ≤ bottom a) : tauMap a t < tauMap a t' := by
  have hl := layOf_spec h h0 (htt.le.trans h1)
  have hl' := layOf_spec h (h0.trans htt.le) h1
  set l := layOf a t with e
  set l' := layOf a t' with e'
  unfold tauMap
  rw [← e, ← e']
  rcases Nat.lt_trichotomy l l' with hlt | heq | hgt
  · have hmono : ∀ j, l + 1 ≤ j → j ≤ a.tauArr.n → bdryStar a (l + 1) ≤ bdryStar a j := by
      intro j hj
      induction j, hj using Nat.le_induction with
      | base => intro _; exact le_rfl
      | succ j _ ih => intro hn; exact (ih (by omega)).trans (bdryStar_lt h (by omega)).le
    have a1 := tauStar_inLayer h hl.1 hl.2
    have a2 := tauStar_inLayer h hl'.1 hl'.2
    have a3 := hmono l' (by omega) hl'.1.le
    rcases lt_or_eq_of_le hl.2.2 with hx | hx
    · have : tauStar a l t < bdryStar a (l + 1) := by
        rw [bdryStar_succ]; unfold tauStar
        have := mul_lt_mul_of_pos_left (sub_lt_sub_right hx (bdry a.tauArr.get l)) (Args.scale_pos h hl.1)
        linarith
      linarith
    · -- `t` is the lower boundary of layer `l`
      rcases Nat.lt_or_ge (l + 1) l' with h2 | h2
      · have b1 := bdryStar_lt h (show l + 1 < a.tauArr.n by omega)
        have b2 : ∀ j, l + 2 ≤ j → j ≤ a.tauArr.n → bdryStar a (l + 2) ≤ bdryStar a j := by
          intro j hj
          induction j, hj using Nat.le_induction with
          | base => intro _; exact le_rfl
          | succ j _ ih => intro hn; exact (ih (by omega)).trans (bdryStar_lt h (by omega)).le
        have b3 := b2 l' (by omega) hl'.1.le
        linarith
      · have h3 : l' = l + 1 := by omega
        have : bdry a.tauArr.get l' < t' := by rw [h3, ← hx]; exact htt
        have : bdryStar a l' < tauStar a l' t' := by
          unfold tauStar
          have := mul_pos (Args.scale_pos h hl'.1) (sub_pos.2 this)
          linarith
        linarith
  · rw [← heq]
    unfold tauStar
    have := mul_lt_mul_of_pos_left (sub_lt_sub_right htt (bdry a.tauArr.get l)) (Args.scale_pos h hl.1)
    linarith
  · have b1 := bdry_le h (show l' + 1 ≤ l by omega) hl.1.le
    have := hl.2.1; have := hl'.2.2
    linarith

theorem tauMap_cont (h : Accepted a) : ContinuousOn (tauMap a) (Set.Icc 0 (bottom a)) := by
  intro t ht
  -- a Lipschitz estimate from the layers: the map is monotone and its increments are at most those of the depth
  rw [Metric.continuousWithinAt_iff]
  intro ε hε
  have hinc : ∀ x y, 0 ≤ x → x ≤ y → y ≤ bottom a → tauMap a y - tauMap a x ≤ y - x := by
    intro x y hx hxy hy
    have hl := layOf_spec h hx (hxy.trans hy)
    have hl' := layOf_spec h (hx.trans hxy) hy
    have key : ∀ l < a.tauArr.n, scale a l ≤ 1 := by
      intro l hl
      unfold scale
      have := mul_nonneg (h.omega l hl).1 (Args.peak_range h l).1
      linarith
    have hb : ∀ j k, j ≤ k → k ≤ a.tauArr.n → bdryStar a k - bdryStar a j ≤ bdry a.tauArr.get k - bdry a.tauArr.get j := by
      intro j k hjk
      induction k, hjk using Nat.le_induction with
      | base => intro _; simp
      | succ k _ ih =>
        intro hk
        rw [bdryStar_succ]
        have := ih (by omega)
        have := mul_le_mul_of_nonneg_right (key k (by omega)) (sub_nonneg.2 (bdry_lt h (show k < a.tauArr.n by omega)).le)
        linarith
    unfold tauMap
    set l := layOf a x
    set l' := layOf a y
    rcases Nat.lt_or_ge l' l with hgt | hle
    · have b1 := bdry_le h (show l' + 1 ≤ l by omega) hl.1.le
      have e : x = y := by
        have := hl.2.1; have := hl'.2.2
        linarith
      have : tauStar a l' y = tauStar a l x := by
        rw [← e]; exact tauStar_layers h hl'.1 hl.1 (by rw [e]; exact hl'.2) hl.2
      rw [this, e]; simp
    · rcases Nat.lt_or_ge l l' with hlt | hge
      · have b := hb (l + 1) l' (by omega) hl'.1.le
        unfold tauStar
        rw [bdryStar_succ] at b
        have c1 := mul_le_mul_of_nonneg_right (key l hl.1) (sub_nonneg.2 hl.2.2)
        have c2 := mul_le_mul_of_nonneg_right (key l' hl'.1) (sub_nonneg.2 hl'.2.1)
        nlinarith
      · have : l' = l := by omega
        rw [this]
        unfold tauStar
        have c1 := mul_le_mul_of_nonneg_right (key l hl.1) (sub_nonneg.2 hxy)
        nlinarith
  have hmono : ∀ x y, 0 ≤ x → x ≤ y → y ≤ bottom a → tauMap a x ≤ tauMap a y := by
    intro x y hx hxy hy
    rcases lt_or_eq_of_le hxy with hlt | heq
    · exact (tauMap_strictMono h hx hlt hy).le
    · rw [heq]
  refine ⟨ε, hε, fun {x} hx hd => ?_⟩
  rw [Real.dist_eq] at hd ⊢
  rcases le_total x t with hle | hle
  · have h1 := hinc x t hx.1 hle ht.2
    have h2 := hmono x t hx.1 hle ht.2
    rw [abs_of_nonpos (by linarith)] at hd ⊢
    linarith
  · have h1 := hinc t x ht.1 hle hx.2
    have h2 := hmono t x ht.1 hle hx.2
    rw [abs_of_nonneg (by linarith)] at hd ⊢
    linarith

theorem pre_bottom (h : Accepted a) : bottom (preScaled a s') = bdryStar a a.tauArr.n := by
  have := h.layers
  change bdryStar a (a.tauArr.n - 1 + 1) = _
  rw [show a.tauArr.n - 1 + 1 = a.tauArr.n by omega]

theorem tauMap_bottom (h : Accepted a) : tauMap a (bottom a) = bdryStar a a.tauArr.n := by
  have hn : a.tauArr.n - 1 < a.tauArr.n := by have := h.layers; omega
  have e : a.tauArr.n - 1 + 1 = a.tauArr.n := by omega
  have hb := bdry_bottom h
  rw [tauMap_eq h hn ⟨?_, ?_⟩, ← hb]
  · have := tauStar_bdry_succ a (a.tauArr.n - 1)
    rwa [e] at this
  · rw [← hb]; exact bdry_le h (by omega) le_rfl
  · rw [e, hb]

theorem tauMap_zero (h : Accepted a) : tauMap a 0 = 0 := by
  rw [tauMap_eq h h.layers ⟨by rw [bdry_zero], ?_⟩]
  · simp [tauStar, bdryStar, bdry]
  · have := (bdry_lt h h.layers).le
    rwa [bdry_zero] at this

/-- A solution for the scaled optical properties, read at the scaled depth, is a solution for the original ones. -/
theorem pre_isSolution (h : Accepted a) (hpk : ∀ l < a.tauArr.n, peak a l < 1) (ho : PreOK a s') {mu w : Vec} {rho : ℝ → ℝ → ℝ} {m : ℕ}
    {V : ℝ → ℕ → ℝ} (hV : IsSolution (preScaled a s') mu w rho m V) : IsSolution a mu w rho m (fun t => V (tauMap a t)) where
  cont := by
    intro i hi
    have hmaps : Set.MapsTo (tauMap a) (Set.Icc 0 (bottom a)) (Set.Icc 0 (bottom (preScaled a s'))) := by
      intro t ht
      rw [pre_bottom h, ← tauMap_bottom h, ← tauMap_zero h]
      constructor
      · rcases lt_or_eq_of_le ht.1 with h1 | h1
        · exact (tauMap_strictMono h le_rfl h1 ht.2).le
        · rw [← h1]
      · rcases lt_or_eq_of_le ht.2 with h1 | h1
        · exact (tauMap_strictMono h ht.1 h1 le_rfl).le
        · rw [h1]
    exact (hV.cont i hi).comp (tauMap_cont h) hmaps
  ode := by
    intro l hl t ht0 ht1 i hi
    have hs := Args.scale_pos h hl
    have hm : ∀ x, bdry a.tauArr.get l < x → x < bdry a.tauArr.get (l + 1) → tauMap a x = tauStar a l x :=
      fun x h1 h2 => tauMap_eq h hl ⟨h1.le, h2.le⟩
    have hin : bdryStar a l < tauStar a l t ∧ tauStar a l t < bdryStar a (l + 1) := by
      rw [bdryStar_succ]
      unfold tauStar
      constructor
      · have := mul_pos hs (sub_pos.2 ht0); linarith
      · have := mul_lt_mul_of_pos_left (sub_lt_sub_right ht1 (bdry a.tauArr.get l)) hs; linarith
    obtain ⟨d, hd, he⟩ := hV.ode l hl (tauStar a l t) (by rw [pre_bdry]; exact hin.1) (by rw [pre_bdry]; exact hin.2) i hi
    refine ⟨d * scale a l, ?_, ?_⟩
    · have h1 : HasDerivAt (tauStar a l) (scale a l) t := by
        unfold tauStar
        have := (((hasDerivAt_id t).sub_const (bdry a.tauArr.get l)).const_mul (scale a l)).const_add (bdryStar a l)
        simpa using this
      have h2 := HasDerivAt.comp t hd h1
      refine h2.congr_of_eventuallyEq ?_
      filter_upwards [Ioo_mem_nhds ht0 ht1] with x hx
      change V (tauMap a x) i = V (tauStar a l x) i
      rw [hm x hx.1 hx.2]
    · change stream (nHalf a) mu i * (d * scale a l) = rteUser a mu w m l t (V (tauMap a t)) i
      rw [hm t ht0 ht1, ← mul_assoc]
      change stream (nHalf a) mu i * d = _ at he
      rw [he]
      unfold rteUser
      rw [pre_scale, pre_kernel (hpk l hl), pre_beamSource (hpk l hl), pre_tauStar, ho.source l hl]
      have e : (1 - (preScaled a s').omega.get l) * scale a l = 1 - a.omega.get l := by
        change (1 - omegaStar a l) * scale a l = _
        unfold omegaStar
        have : scale a l = 1 - a.omega.get l * peak a l := rfl
        field_simp
        rw [this]; ring
      split_ifs
      · rw [sub_mul, one_mul, mul_comm _ (scale a l), mul_assoc, mul_comm (source a l t), ← mul_assoc, e]; rfl
      · rw [sub_zero, sub_zero, one_mul, mul_comm]; rfl
  top := by
    intro i hi
    change V (tauMap a 0) (nHalf a + i) = _
    rw [tauMap_zero h]; exact hV.top i hi
  bot := by
    intro i hi
    change V (tauMap a (bottom a)) i = _
    have := hV.bot i hi
    rw [pre_bottom h] at this
    rw [tauMap_bottom h, this]
    unfold reflected
    rw [pre_bdryStar]
    rfl

end
end Pydisort

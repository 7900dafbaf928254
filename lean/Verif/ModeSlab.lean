import Verif.SlabLemmas
import Verif.Props.Exact
import Verif.Props.Azimuth

/-!
# The atmosphere as a slab, mode by mode
-/

namespace Pydisort
open Finset Spec MeasureTheory Topology

section
variable {a : Args}

theorem layOf_inside (h : Accepted a) {l : ℕ} (hl : l < a.tauArr.n) {t : ℝ} (h0 : bdry a.tauArr.get l < t) (h1 : t < bdry a.tauArr.get (l + 1)) :
    layOf a t = l := by
  have hb0 : 0 ≤ bdry a.tauArr.get l := by
    have := bdry_le h (Nat.zero_le l) hl.le
    rwa [bdry_zero] at this
  have hb1 : bdry a.tauArr.get (l + 1) ≤ bottom a := by
    have := bdry_le h (show l + 1 ≤ a.tauArr.n by omega) le_rfl
    rwa [bdry_bottom h] at this
  obtain ⟨k1, k2, k3⟩ := layOf_spec h (t := t) (by linarith) (by linarith)
  by_contra hne
  rcases Nat.lt_or_gt_of_ne hne with hlt | hgt
  · have := bdry_le h (show layOf a t + 1 ≤ l by omega) hl.le
    linarith
  · have := bdry_le h (show l + 1 ≤ layOf a t by omega) k1.le
    linarith

/-- The layer boundaries. -/
def breaks (a : Args) : Set ℝ := (fun l => bdry a.tauArr.get l) '' Set.Iic a.tauArr.n

theorem inside_of_away (h : Accepted a) {t : ℝ} (ht : t ∈ Set.Ioo 0 (bottom a) \ breaks a) :
    layOf a t < a.tauArr.n ∧ bdry a.tauArr.get (layOf a t) < t ∧ t < bdry a.tauArr.get (layOf a t + 1) := by
  obtain ⟨k1, k2, k3⟩ := layOf_spec h ht.1.1.le ht.1.2.le
  refine ⟨k1, lt_of_le_of_ne k2 fun e => ht.2 ⟨layOf a t, k1.le, e⟩, lt_of_le_of_ne k3 fun e => ht.2 ⟨layOf a t + 1, k1, e.symm⟩⟩

theorem away_of_inside (h : Accepted a) {l : ℕ} (hl : l < a.tauArr.n) {t : ℝ} (h0 : bdry a.tauArr.get l < t) (h1 : t < bdry a.tauArr.get (l + 1)) :
    t ∈ Set.Ioo 0 (bottom a) \ breaks a := by
  have hb0 : 0 ≤ bdry a.tauArr.get l := by
    have := bdry_le h (Nat.zero_le l) hl.le
    rwa [bdry_zero] at this
  have hb1 : bdry a.tauArr.get (l + 1) ≤ bottom a := by
    have := bdry_le h (show l + 1 ≤ a.tauArr.n by omega) le_rfl
    rwa [bdry_bottom h] at this
  refine ⟨⟨by linarith, by linarith⟩, ?_⟩
  rintro ⟨k, hk, rfl⟩
  have hk' : k ≤ a.tauArr.n := hk
  rcases Nat.lt_or_ge l k with hlt | hge
  · have := bdry_le h (show l + 1 ≤ k by omega) hk'
    dsimp only at h1
    linarith
  · have := bdry_le h hge hl.le
    dsimp only at h0
    linarith

theorem layOf_eventually (h : Accepted a) {t : ℝ} (ht : t ∈ Set.Ioo 0 (bottom a) \ breaks a) : ∀ᶠ s in 𝓝 t, layOf a s = layOf a t := by
  obtain ⟨hl, h0, h1⟩ := inside_of_away h ht
  filter_upwards [Ioo_mem_nhds h0 h1] with s hs
  exact layOf_inside h hl hs.1 hs.2

theorem tauStar_continuousOn (h : Accepted a) : ContinuousOn (fun t => tauStar a (layOf a t) t) (Set.Icc 0 (bottom a)) := by
  have hc : ∀ l, Continuous fun t => tauStar a l t := fun l => by unfold tauStar; fun_prop
  have main : ∀ k ≤ a.tauArr.n, ContinuousOn (fun t => tauStar a (layOf a t) t) (Set.Icc 0 (bdry a.tauArr.get k)) := by
    intro k
    induction k with
    | zero =>
      intro _
      rw [bdry_zero, Set.Icc_self]
      exact continuousOn_singleton _ _
    | succ k ih =>
      intro hk
      have hk0 : 0 ≤ bdry a.tauArr.get k := by
        have := bdry_le h (Nat.zero_le k) (show k ≤ a.tauArr.n by omega)
        rwa [bdry_zero] at this
      have h2 : ContinuousOn (fun t => tauStar a (layOf a t) t) (Set.Icc (bdry a.tauArr.get k) (bdry a.tauArr.get (k + 1))) := by
        refine (hc k).continuousOn.congr fun t ht => ?_
        have hb1 : bdry a.tauArr.get (k + 1) ≤ bottom a := by
          have := bdry_le h hk le_rfl
          rwa [bdry_bottom h] at this
        obtain ⟨k1, k2⟩ := layOf_spec h (hk0.trans ht.1) (ht.2.trans hb1)
        exact tauStar_layers h k1 (by omega) k2 ht
      rw [← Set.Icc_union_Icc_eq_Icc hk0 (bdry_lt h (show k < a.tauArr.n by omega)).le]
      exact (ih (by omega)).union_of_isClosed h2 isClosed_Icc isClosed_Icc
  have := main a.tauArr.n le_rfl
  rwa [bdry_bottom h] at this

theorem albedoStar_range (hacc : Accepted a) {l : ℕ} (hl : l < a.tauArr.n) (hp : peak a l < 1) : 0 ≤ omegaStar a l ∧ omegaStar a l < 1 := by
  have hs := Args.scale_pos hacc hl
  have ho := hacc.omega l hl
  unfold omegaStar
  refine ⟨div_nonneg (mul_nonneg (by linarith) ho.1) hs.le, ?_⟩
  rw [div_lt_one hs]
  unfold scale
  linarith [ho.2]

/-- Scattering does not create light. -/
theorem scatD_mass (hacc : Accepted a) {l : ℕ} (hp : peak a l < 1) (y : ℝ) :
    ∫ z in (-1 : ℝ)..1, scatD (omegaStar a l) (nLeg a) (legStar a l) 0 y z = omegaStar a l := by
  have h1 : ∫ z in (-1 : ℝ)..1, scatD (omegaStar a l) (nLeg a) (legStar a l) 0 y z = pint (scatPoly a l y) := by
    unfold pint
    simp only [scatPoly_eval]
  have hsum : ∀ (s : Finset ℕ) (f : ℕ → Polynomial ℝ), pint (∑ k ∈ s, f k) = ∑ k ∈ s, pint (f k) := by
    intro s f
    induction s using Finset.induction_on with
    | empty => simp [pint]
    | insert k s hk ih => rw [sum_insert hk, sum_insert hk, pint_add, ih]
  have hP : ∀ k, pint (legendreP k) = if k = 0 then 2 else 0 := by
    intro k
    split_ifs with h0
    · subst h0
      have := pint_legendreP_sq 0
      rw [legendreP_zero, mul_one] at this
      rw [legendreP_zero, this]; norm_num
    · have := pint_legendreP_lower (l := k) (q := 1) (by simpa using Nat.pos_of_ne_zero h0)
      rwa [mul_one] at this
  have hn : 0 < nLeg a := by
    have := hacc.nLeg.1
    unfold nLeg
    omega
  rw [h1, scatPoly, hsum, sum_eq_single 0]
  · rw [pint_C_mul, hP, if_pos rfl, legendreP_zero]
    have : legStar a l 0 = 1 := by
      unfold legStar leg
      rw [if_pos rfl]
      exact div_self (by linarith)
    rw [this]
    simp
  · intro k _ hk
    rw [pint_C_mul, hP, if_neg hk, mul_zero]
  · intro h'
    exact absurd (mem_range.2 hn) h'

/-- The equation of mode `m` in the atmosphere as the equation of a slab. -/
noncomputable def slabOf (a : Args) (rho : ℝ → ℝ → ℝ) (m : ℕ) (up down : ℝ → ℝ) (ω : ℝ) : Slab where
  b := bottom a
  P := breaks a
  c := fun t => scale a (layOf a t)
  T := fun t => tauStar a (layOf a t) t
  D := fun t => scatD (omegaStar a (layOf a t)) (nLeg a) (legStar a (layOf a t)) m
  src := fun t y => scale a (layOf a t) * (beamX (omegaStar a (layOf a t)) (nLeg a) (legStar a (layOf a t)) a.I0 a.mu0 m y
      * Real.exp (-tauStar a (layOf a t) t / a.mu0)) + if m = 0 then (1 - a.omega.get (layOf a t)) * source a (layOf a t) t else 0
  rho := fun x y => if m < a.bdrf.length then (1 + if m = 0 then 1 else 0) / 2 * rho x y else 0
  up := fun y => up y + if m < a.bdrf.length then a.mu0 * a.I0 / Real.pi * rho y a.mu0 * Real.exp (-bdryStar a a.tauArr.n / a.mu0) else 0
  down := down
  ω := ω

theorem continuous_assocLegendre (m l : ℕ) : Continuous fun x => assocLegendre m l x := by
  unfold assocLegendre
  have h1 : Continuous fun x : ℝ => (Polynomial.derivative^[m] (legendreP l)).eval x := (Polynomial.derivative^[m] (legendreP l)).continuous
  fun_prop

theorem continuous_scatD_mode (om : ℝ) (n : ℕ) (g : ℕ → ℝ) (m : ℕ) : Continuous fun p : ℝ × ℝ => scatD om n g m p.1 p.2 := by
  unfold scatD phaseMoment
  refine continuous_const.mul (continuous_finsetSum _ fun l _ => ?_)
  exact (continuous_const.mul ((continuous_assocLegendre m l).comp continuous_fst)).mul ((continuous_assocLegendre m l).comp continuous_snd)

theorem continuous_beamX (om : ℝ) (n : ℕ) (g : ℕ → ℝ) (I0 mu0 : ℝ) (m : ℕ) : Continuous fun y => beamX om n g I0 mu0 m y := by
  unfold beamX phaseMoment
  refine continuous_const.mul (continuous_finsetSum _ fun l _ => ?_)
  exact (continuous_const.mul (continuous_assocLegendre m l)).mul continuous_const

theorem continuous_source (a : Args) (l : ℕ) : Continuous fun t => source a l t := by
  unfold source
  split_ifs <;> fun_prop

/-- `f` at the layer of the depth is continuous, if it is continuous for every layer. -/
theorem continuousOn_layered (h : Accepted a) {β : Type*} [TopologicalSpace β] {f : ℕ → ℝ × β → ℝ} {B : Set β} (hf : ∀ l < a.tauArr.n, ContinuousOn (f l) (Set.univ ×ˢ B)) :
    ContinuousOn (fun p : ℝ × β => f (layOf a p.1) p) ((Set.Ioo 0 (bottom a) \ breaks a) ×ˢ B) := by
  intro p hp
  have h1 := (hf (layOf a p.1) (inside_of_away h hp.1).1 p ⟨trivial, hp.2⟩).mono (s := (Set.Ioo 0 (bottom a) \ breaks a) ×ˢ B) fun q hq => ⟨trivial, hq.2⟩
  refine h1.congr_of_eventuallyEq ?_ rfl
  have h2 := (continuous_fst.continuousAt (x := p)).eventually (layOf_eventually h hp.1)
  filter_upwards [nhdsWithin_le_nhds h2] with q hq
  rw [hq]

theorem exists_layer_bound (f : ℕ → ℝ) (n : ℕ) : ∃ K, 0 ≤ K ∧ ∀ l < n, f l ≤ K := by
  refine ⟨∑ l ∈ range n, |f l|, sum_nonneg fun _ _ => abs_nonneg _, fun l hl => (le_abs_self _).trans ?_⟩
  exact single_le_sum (f := fun l => |f l|) (fun _ _ => abs_nonneg _) (mem_range.2 hl)

theorem slabOf_valid (hacc : Accepted a) (hpk : ∀ l < a.tauArr.n, peak a l < 1) {m : ℕ}
    (hmass : ∀ l < a.tauArr.n, ∀ y ∈ Set.Icc (-1 : ℝ) 1, ∫ z in (-1 : ℝ)..1, |scatD (omegaStar a l) (nLeg a) (legStar a l) m y z| ≤ omegaStar a l)
    {rho : ℝ → ℝ → ℝ} (hrc : m < a.bdrf.length → ContinuousOn (fun p : ℝ × ℝ => rho p.1 p.2) (Set.Icc 0 1 ×ˢ Set.Icc 0 1))
    (hra : m < a.bdrf.length → ∃ κ > 0, ∀ x ∈ Set.Icc (0 : ℝ) 1, (1 + if m = 0 then 1 else 0) * (∫ y in (0 : ℝ)..1, y * |rho x y|) ≤ 1 - κ)
    {up down : ℝ → ℝ} (hu : ContinuousOn up (Set.Ioc 0 1)) (hu' : ∃ M, ∀ y ∈ Set.Ioc (0 : ℝ) 1, |up y| ≤ M) (hd : ContinuousOn down (Set.Ioc 0 1))
    (hd' : ∃ M, ∀ y ∈ Set.Ioc (0 : ℝ) 1, |down y| ≤ M) : ∃ ω, (slabOf a rho m up down ω).Valid := by
  have hb := bottom_pos hacc
  obtain ⟨l₀, hl₀, hmax⟩ := exists_max_image (range a.tauArr.n) (omegaStar a) ⟨0, mem_range.2 hacc.layers⟩
  have hl₀' := mem_range.1 hl₀
  have hr := albedoStar_range hacc hl₀' (hpk _ hl₀')
  have hin : ∀ s, layOf a s < a.tauArr.n := by
    intro s
    by_cases h : ∃ l < a.tauArr.n, InLayer a l s
    · unfold layOf
      rw [dif_pos h]
      exact h.choose_spec.1
    · unfold layOf
      rw [dif_neg h]
      exact hacc.layers
  refine ⟨omegaStar a l₀, ?_⟩
  have hS : (slabOf a rho m up down (omegaStar a l₀)).S = Set.Ioo 0 (bottom a) \ breaks a := rfl
  have hbeam : ∃ B, ∀ y ∈ Set.Ioc (0 : ℝ) 1,
      |if m < a.bdrf.length then a.mu0 * a.I0 / Real.pi * rho y a.mu0 * Real.exp (-bdryStar a a.tauArr.n / a.mu0) else 0| ≤ B := by
    by_cases hm : m < a.bdrf.length
    swap
    · exact ⟨0, fun y _ => by rw [if_neg hm, abs_zero]⟩
    obtain ⟨K, hK⟩ := (isCompact_Icc.prod isCompact_Icc).exists_bound_of_continuousOn (hrc hm)
    refine ⟨|a.mu0 * a.I0 / Real.pi| * K * Real.exp (-bdryStar a a.tauArr.n / a.mu0), fun y hy => ?_⟩
    rw [if_pos hm]
    · rcases hacc.beam.eq_or_lt with h0 | h0
      · rw [← h0]; simp
      · have hb := (hacc.beamDir h0).1
        rw [abs_mul, abs_mul, abs_of_pos (Real.exp_pos _)]
        exact mul_le_mul_of_nonneg_right (mul_le_mul_of_nonneg_left (hK (y, a.mu0) ⟨Set.Ioc_subset_Icc_self hy, hb.1.le, hb.2⟩) (abs_nonneg _)) (Real.exp_pos _).le
  constructor
  · refine ⟨hb, ?_, fun s => (Args.scale_pos hacc (hin s)).le, ?_, ?_, tauStar_continuousOn hacc, ?_⟩
    · exact (Set.finite_Iic _).image _
    · obtain ⟨K, -, hK⟩ := exists_layer_bound (scale a) a.tauArr.n
      exact ⟨K, fun s => hK _ (hin s)⟩
    · intro s hs
      refine ContinuousAt.continuousWithinAt ?_
      refine (continuousAt_const (y := scale a (layOf a s))).congr ?_
      filter_upwards [layOf_eventually hacc hs] with x hx
      simp only [slabOf, hx]
    · intro s hs
      have h1 : HasDerivAt (fun t => tauStar a (layOf a s) t) (scale a (layOf a s)) s := by
        unfold tauStar
        simpa using (((hasDerivAt_id s).sub_const _).const_mul (scale a (layOf a s))).const_add (bdryStar a (layOf a s))
      refine h1.congr_of_eventuallyEq ?_
      filter_upwards [layOf_eventually hacc hs] with x hx
      simp only [slabOf, hx]
  · rw [hS]
    exact continuousOn_layered (f := fun l (p : ℝ × ℝ × ℝ) => scatD (omegaStar a l) (nLeg a) (legStar a l) m p.2.1 p.2.2) hacc
      fun l _ => ((continuous_scatD_mode _ _ _ _).comp continuous_snd).continuousOn
  · have : ∀ l, ∃ K, ∀ p ∈ Set.Icc (-1 : ℝ) 1 ×ˢ Set.Icc (-1 : ℝ) 1, ‖scatD (omegaStar a l) (nLeg a) (legStar a l) m p.1 p.2‖ ≤ K := fun l =>
      (isCompact_Icc.prod isCompact_Icc).exists_bound_of_continuousOn (continuous_scatD_mode _ _ _ _).continuousOn
    choose K hK using this
    obtain ⟨K', -, hK'⟩ := exists_layer_bound K a.tauArr.n
    exact ⟨K', fun s _ y hy z hz => (hK (layOf a s) (y, z) ⟨hy, hz⟩).trans (hK' _ (hin s))⟩
  · intro s _ y hy
    exact (hmass _ (hin s) y hy).trans (hmax _ (mem_range.2 (hin s)))
  · exact hr.1
  · exact hr.2
  · rw [hS]
    refine continuousOn_layered (f := fun l (p : ℝ × ℝ) => scale a l * (beamX (omegaStar a l) (nLeg a) (legStar a l) a.I0 a.mu0 m p.2
      * Real.exp (-tauStar a l p.1 / a.mu0)) + if m = 0 then (1 - a.omega.get l) * source a l p.1 else 0) hacc fun l _ => Continuous.continuousOn ?_
    have h1 := (continuous_beamX (omegaStar a l) (nLeg a) (legStar a l) a.I0 a.mu0 m).comp (continuous_snd (X := ℝ) (Y := ℝ))
    have h2 := (continuous_source a l).comp (continuous_fst (X := ℝ) (Y := ℝ))
    have h3 : Continuous fun p : ℝ × ℝ => Real.exp (-tauStar a l p.1 / a.mu0) := by unfold tauStar; fun_prop
    refine (continuous_const.mul (h1.mul h3)).add ?_
    split_ifs
    · exact continuous_const.mul h2
    · exact continuous_const
  · have : ∀ l, ∃ K, ∀ p ∈ Set.Icc 0 (bottom a) ×ˢ Set.Icc (-1 : ℝ) 1, ‖scale a l * (beamX (omegaStar a l) (nLeg a) (legStar a l) a.I0 a.mu0 m p.2
      * Real.exp (-tauStar a l p.1 / a.mu0)) + if m = 0 then (1 - a.omega.get l) * source a l p.1 else 0‖ ≤ K := fun l => by
      refine (isCompact_Icc.prod isCompact_Icc).exists_bound_of_continuousOn (Continuous.continuousOn ?_)
      have h1 := (continuous_beamX (omegaStar a l) (nLeg a) (legStar a l) a.I0 a.mu0 m).comp (continuous_snd (X := ℝ) (Y := ℝ))
      have h2 := (continuous_source a l).comp (continuous_fst (X := ℝ) (Y := ℝ))
      have h3 : Continuous fun p : ℝ × ℝ => Real.exp (-tauStar a l p.1 / a.mu0) := by unfold tauStar; fun_prop
      refine (continuous_const.mul (h1.mul h3)).add ?_
      split_ifs
      · exact continuous_const.mul h2
      · exact continuous_const
    choose K hK using this
    obtain ⟨Q, hQ0, hQ⟩ := exists_layer_bound (fun l => K l / scale a l) a.tauArr.n
    refine ⟨Q, hQ0, fun s hs y hy => (hK (layOf a s) (s, y) ⟨Set.Ioo_subset_Icc_self hs.1, hy⟩).trans ?_⟩
    exact (div_le_iff₀ (Args.scale_pos hacc (hin s))).1 (hQ _ (hin s))
  · by_cases h : m < a.bdrf.length
    · simp only [slabOf, h, if_true]
      exact continuousOn_const.mul (hrc h)
    · simp only [slabOf, h, if_false]
      exact continuousOn_const
  · by_cases h : m < a.bdrf.length
    · obtain ⟨κ, hκ, hk⟩ := hra h
      refine ⟨κ, hκ, fun x hx => le_trans (le_of_eq ?_) (hk x hx)⟩
      have h0 : (0 : ℝ) ≤ (1 + if m = 0 then 1 else 0) / 2 := by split_ifs <;> norm_num
      have h1 : ∀ y, y * |(1 + if m = 0 then (1 : ℝ) else 0) / 2 * rho x y| = (1 + if m = 0 then (1 : ℝ) else 0) / 2 * (y * |rho x y|) := fun y => by
        rw [abs_mul, abs_of_nonneg h0]; ring
      simp only [slabOf, h, if_true, h1, intervalIntegral.integral_const_mul]
      ring
    · exact ⟨1, one_pos, fun x _ => by simp [slabOf, h]⟩
  · refine hu.add ?_
    split_ifs with hm
    · rcases hacc.beam.eq_or_lt with h0 | h0
      · simp only [← h0, mul_zero, zero_div, zero_mul]
        exact continuousOn_const
      · have hb := (hacc.beamDir h0).1
        exact (continuousOn_const.mul ((hrc hm).comp (f := fun y => (y, a.mu0)) (by fun_prop) fun y hy => ⟨Set.Ioc_subset_Icc_self hy, hb.1.le, hb.2⟩)).mul
          continuousOn_const
    · exact continuousOn_const
  · obtain ⟨M, hM⟩ := hu'
    obtain ⟨B, hB⟩ := hbeam
    exact ⟨M + B, fun y hy => (abs_add_le _ _).trans (add_le_add (hM y hy) (hB y hy))⟩
  · exact hd
  · exact hd'

/-- `v t μ` solves the equation of Fourier mode `m` for all directions. -/
structure ExactMode (a : Args) (rho : ℝ → ℝ → ℝ) (m : ℕ) (up down : ℝ → ℝ) (v : ℝ → ℝ → ℝ) : Prop where
  bounded : ∃ M, ∀ t ∈ Set.Icc 0 (bottom a), ∀ y ∈ Set.Icc (-1 : ℝ) 1, y ≠ 0 → |v t y| ≤ M
  cont : ContinuousOn (fun p : ℝ × ℝ => v p.1 p.2) (Set.Icc 0 (bottom a) ×ˢ (Set.Icc (-1) 1 \ {0}))
  ode : ∀ l < a.tauArr.n, ∀ t, bdry a.tauArr.get l < t → t < bdry a.tauArr.get (l + 1) → ∀ y ∈ Set.Icc (-1 : ℝ) 1, y ≠ 0 →
    ∃ d, HasDerivAt (fun x => v x y) d t ∧ y * d = scale a l * (v t y - (∫ z in (-1 : ℝ)..1, scatD (omegaStar a l) (nLeg a) (legStar a l) m y z * v t z)
        - beamX (omegaStar a l) (nLeg a) (legStar a l) a.I0 a.mu0 m y * Real.exp (-tauStar a l t / a.mu0))
      - if m = 0 then (1 - a.omega.get l) * source a l t else 0
  top : ∀ y ∈ Set.Ioc (0 : ℝ) 1, v 0 (-y) = down y
  bot : ∀ y ∈ Set.Ioc (0 : ℝ) 1, v (bottom a) y = up y
    + if m < a.bdrf.length then (1 + if m = 0 then 1 else 0) * (∫ z in (0 : ℝ)..1, z * rho y z * v (bottom a) (-z))
        + a.mu0 * a.I0 / Real.pi * rho y a.mu0 * Real.exp (-bdryStar a a.tauArr.n / a.mu0) else 0

theorem exactMode_zero {rho : ℝ → ℝ → ℝ} {up down : ℝ → ℝ} {v : ℝ → ℝ → ℝ} : ExactMode a rho 0 up down v ↔ ExactSolution a rho up down v := by
  constructor
  · intro h
    exact ⟨h.bounded, h.cont, by simpa [rteAll, scatterExact] using h.ode, h.top, by simpa [reflectExact, one_add_one_eq_two] using h.bot⟩
  · intro h
    exact ⟨h.bounded, h.cont, by simpa [rteAll, scatterExact] using h.ode, h.top, by simpa [reflectExact, one_add_one_eq_two] using h.bot⟩

/-- Solutions of the slab are exact solutions, and conversely. -/
theorem exactMode_iff (hacc : Accepted a) {rho : ℝ → ℝ → ℝ} {m : ℕ} {up down : ℝ → ℝ} {v : ℝ → ℝ → ℝ} {ω : ℝ} :
    ExactMode a rho m up down v ↔ (slabOf a rho m up down ω).Solves v := by
  have hbot : ∀ y, up y + (if m < a.bdrf.length then (1 + if m = 0 then 1 else 0) * (∫ z in (0 : ℝ)..1, z * rho y z * v (bottom a) (-z))
        + a.mu0 * a.I0 / Real.pi * rho y a.mu0 * Real.exp (-bdryStar a a.tauArr.n / a.mu0) else 0)
      = (slabOf a rho m up down ω).up y + reflectExact (slabOf a rho m up down ω).rho (v (bottom a)) y := by
    intro y
    simp only [slabOf, reflectExact]
    by_cases h : m < a.bdrf.length
    · simp only [if_pos h]
      have : ∀ z, z * ((1 + if m = 0 then (1 : ℝ) else 0) / 2 * rho y z) * v (bottom a) (-z)
          = (1 + if m = 0 then (1 : ℝ) else 0) / 2 * (z * rho y z * v (bottom a) (-z)) := fun z => by ring
      simp only [this, intervalIntegral.integral_const_mul]
      ring
    · simp [if_neg h]
  constructor
  · intro h
    refine ⟨?_, ?_, h.top, fun m hm => (h.bot m hm).trans (hbot m)⟩
    · obtain ⟨M, hM⟩ := h.bounded
      exact ⟨M, fun t ht y hy => hM t ht y hy.1 hy.2, h.cont⟩
    · intro t ht y hy
      obtain ⟨hl, h0, h1⟩ := inside_of_away hacc ht
      obtain ⟨d, hd, he⟩ := h.ode _ hl t h0 h1 y hy.1 hy.2
      refine ⟨d, hd, he.trans ?_⟩
      simp only [slabOf]
      ring
  · intro h
    obtain ⟨M, hN⟩ := h.nice
    refine ⟨⟨M, fun t ht y hy hy0 => hN.bdd t ht y ⟨hy, hy0⟩⟩, hN.cont, ?_, h.top, fun m hm => (h.bot m hm).trans (hbot m).symm⟩
    intro l hl t h0 h1 y hy hy0
    obtain ⟨d, hd, he⟩ := h.ode t (away_of_inside hacc hl h0 h1) y ⟨hy, hy0⟩
    refine ⟨d, hd, he.trans ?_⟩
    simp only [slabOf, layOf_inside hacc hl h0 h1]
    ring

/-- The equation of one mode has one solution. -/
theorem exactMode_exists (hacc : Accepted a) (hpk : ∀ l < a.tauArr.n, peak a l < 1) {m : ℕ}
    (hmass : ∀ l < a.tauArr.n, ∀ y ∈ Set.Icc (-1 : ℝ) 1, ∫ z in (-1 : ℝ)..1, |scatD (omegaStar a l) (nLeg a) (legStar a l) m y z| ≤ omegaStar a l)
    {rho : ℝ → ℝ → ℝ} (hrc : m < a.bdrf.length → ContinuousOn (fun p : ℝ × ℝ => rho p.1 p.2) (Set.Icc 0 1 ×ˢ Set.Icc 0 1))
    (hra : m < a.bdrf.length → ∃ κ > 0, ∀ x ∈ Set.Icc (0 : ℝ) 1, (1 + if m = 0 then 1 else 0) * (∫ y in (0 : ℝ)..1, y * |rho x y|) ≤ 1 - κ)
    {up down : ℝ → ℝ} (hu : ContinuousOn up (Set.Ioc 0 1)) (hu' : ∃ M, ∀ y ∈ Set.Ioc (0 : ℝ) 1, |up y| ≤ M) (hd : ContinuousOn down (Set.Ioc 0 1))
    (hd' : ∃ M, ∀ y ∈ Set.Ioc (0 : ℝ) 1, |down y| ≤ M) :
    (∃ v, ExactMode a rho m up down v)
      ∧ ∀ v v', ExactMode a rho m up down v → ExactMode a rho m up down v' → ∀ t ∈ Set.Icc 0 (bottom a), ∀ y ∈ Set.Icc (-1 : ℝ) 1, y ≠ 0 → v t y = v' t y := by
  obtain ⟨ω, hσ⟩ := slabOf_valid hacc hpk hmass hrc hra hu hu' hd hd'
  obtain ⟨v, hv⟩ := slab_exists hσ
  exact ⟨⟨v, (exactMode_iff hacc).2 hv⟩, fun v v' h h' t ht y hy hy0 =>
    slab_unique hσ ((exactMode_iff hacc).1 h) ((exactMode_iff hacc).1 h') ht ⟨hy, hy0⟩⟩

end

end Pydisort

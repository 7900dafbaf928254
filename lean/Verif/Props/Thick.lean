import Mathlib.Analysis.Calculus.UniformLimitsDeriv
import Verif.DeepLemmas

/-!
# C126: thick atmospheres

Specification used: `Spec.deepened`, `Spec.IsDeepSolution`, `Spec.deepAbs`, `Spec.TameBelow`, `Spec.EmitsBelow`, `Spec.NonnegScattering`.
-/

namespace Pydisort
open Finset Spec Filter
open scoped Topology

variable {E : Ext} {a : Args}

theorem deepAbs_atTop (hacc : Accepted a) : Tendsto (deepAbs a) atTop atTop := by
  have ho : 0 < 1 - a.omega.get (a.tauArr.n - 1) := by
    have := hacc.layers
    linarith [(hacc.omega (a.tauArr.n - 1) (by omega)).2]
  have h1 : Tendsto (fun t => (1 - a.omega.get (a.tauArr.n - 1)) * (t - lowestTop a) + deepAbs a (lowestTop a)) atTop atTop :=
    tendsto_atTop_add_const_right _ _ ((tendsto_atTop_add_const_right _ (-lowestTop a) tendsto_id).const_mul_atTop ho)
  refine tendsto_atTop_mono' _ ?_ h1
  filter_upwards [eventually_ge_atTop (lowestTop a)] with t ht
  have := deepAbs_gap hacc ht ht
  rw [max_self] at this
  linarith

theorem screen_tendsto (hacc : Accepted a) (c x : ℝ) {ι : Type*} {l : Filter ι} {T : ι → ℝ} (hT : Tendsto T l atTop) :
    Tendsto (fun k => c * Real.exp (-(deepAbs a (T k) - x))) l (𝓝 0) := by
  have h1 : Tendsto (fun k => deepAbs a (T k) - x) l atTop := tendsto_atTop_add_const_right _ _ ((deepAbs_atTop hacc).comp hT)
  have h2 := (Real.tendsto_exp_neg_atTop_nhds_zero.comp h1).const_mul c
  rwa [mul_zero] at h2

theorem rteUser_near (hacc : Accepted a) (mu w : Vec) {l : ℕ} (hl : l < a.tauArr.n) {i : ℕ} (hi : i < 2 * nHalf a) :
    ∃ M, 0 ≤ M ∧ ∀ t u u' ε, (∀ j < 2 * nHalf a, |u j - u' j| ≤ ε) → |rteUser a mu w 0 l t u i - rteUser a mu w 0 l t u' i| ≤ M * ε := by
  set k : ℕ → ℝ := fun j => streamW (nHalf a) w j * kernel a 0 l (stream (nHalf a) mu i) (stream (nHalf a) mu j) with hk
  have hs := Args.scale_pos hacc (show l < a.NLayers from hl)
  refine ⟨scale a l * (1 + ∑ j ∈ range (2 * nHalf a), |k j|), mul_nonneg hs.le (add_nonneg zero_le_one (sum_nonneg fun _ _ => abs_nonneg _)), fun t u u' ε h => ?_⟩
  rw [rteUser_zero, rteUser_zero]
  have e : ∀ b : ℝ, scale a l * (u i - ∑ j ∈ range (2 * nHalf a), k j * u j) - b - (scale a l * (u' i - ∑ j ∈ range (2 * nHalf a), k j * u' j) - b)
      = scale a l * ((u i - u' i) - ∑ j ∈ range (2 * nHalf a), k j * (u j - u' j)) := fun b => by
    simp only [mul_sub, sum_sub_distrib]; ring
  rw [e, abs_mul, abs_of_pos hs, mul_assoc]
  refine mul_le_mul_of_nonneg_left ?_ hs.le
  rw [add_mul, one_mul, sum_mul]
  refine (abs_sub _ _).trans (add_le_add (h i hi) ((abs_sum_le_sum_abs _ _).trans (sum_le_sum fun j hj => ?_)))
  rw [abs_mul]
  exact mul_le_mul_of_nonneg_left (h j (mem_range.1 hj)) (abs_nonneg _)

theorem stream_ne_zero (hg : GaussContract E (nHalf a)) {i : ℕ} (hi : i < 2 * nHalf a) : stream (nHalf a) (node E a) i ≠ 0 := by
  unfold stream
  split_ifs with h
  · exact (node_pos hg h).1.ne'
  · exact neg_ne_zero.2 (node_pos hg (i := i - nHalf a) (by omega)).1.ne'

/-- Some initial content of uninitialised memory. -/
def noJunk : Junk := ⟨⟨0, fun _ _ _ => 0, fun _ _ => 0, fun _ _ _ => 0, fun _ _ => 0, fun _ _ _ => 0, [], []⟩, ⟨fun _ => 0, fun _ _ => 0, fun _ => 0, fun _ _ => 0⟩, fun _ _ => 0⟩

/-- The atmosphere that ends at depth `T` above a glowing surface has a solution. -/
theorem exists_deepened (hw : WellPosed E a) {T : ℝ} (hT : lowestTop a < T) :
    ∃ V, IsSolution (deepened a T (.scalar 1) []) (node E a) (weight E a) (fun _ _ => 0) 0 V := by
  have hw' : WellPosed E (deepened a T (.scalar 1) []) := deepened_wellPosed hw hT trivial trivial
  have hr : Rescalable (deepened a T (.scalar 1) []) := Or.inl (Or.inr (Or.inl one_pos))
  obtain ⟨R, h⟩ := pydisort_isOk hw' noJunk
  obtain ⟨U, hU, _⟩ := C02_modes_solve_transfer_equation h hw'.sound hr
  exact ⟨U 0, modes_isSolution h hw'.sound hr hw'.bottomBC hw'.topBC (rho := fun _ _ _ => 0)
    (fun m _ M hM => by rw [show (deepened a T (.scalar 1) []).bdrf = [] from rfl] at hM; simp at hM) hU (nFourier_pos h hw'.sound)⟩

theorem exists_deep (hw : WellPosed E a) (hsc : NonnegScattering a (node E a)) (ht : TameBelow a) : ∃ V, IsDeepSolution a (node E a) (weight E a) V := by
  have hacc := hw.accepted
  obtain ⟨C₀, hC₀⟩ := exists_outweighs (E := E) hacc ht
  set C := max C₀ 1 with hCdef
  have hC : Outweighs E a C := hC₀.mono hacc (le_max_left _ _)
  have hC1 : 1 ≤ C := le_max_right _ _
  set T : ℕ → ℝ := fun k => lowestTop a + 1 + k with hTdef
  have hT : ∀ k, lowestTop a < T k := fun k => by
    have : (0 : ℝ) ≤ k := Nat.cast_nonneg k
    simp only [hTdef]; linarith
  have hTlim : Tendsto T atTop atTop := tendsto_atTop_add_const_left _ _ tendsto_natCast_atTop_atTop
  have hTmono : ∀ k m : ℕ, k ≤ m → T k ≤ T m := fun k m h => by
    have : (k : ℝ) ≤ m := Nat.cast_le.2 h
    simp only [hTdef]; linarith
  choose W hW using fun k => exists_deepened hw (hT k)
  have hS : ∀ k, SolvesTo a (node E a) (weight E a) (T k) (W k) := fun k => IsSolution.solvesTo hacc (hT k) (hW k)
  have hWC : ∀ k t, 0 ≤ t → t ≤ T k → ∀ i < 2 * nHalf a, |W k t i| ≤ C := by
    intro k
    refine deepened_abs_le (bp := .scalar 1) (bd := []) hacc (hT k) trivial hw.gauss hw.peak hsc ⟨fun _ _ _ _ => le_rfl, fun _ _ => le_rfl, fun i _ => ?_⟩ hC (fun i _ => ?_) (hW k)
    · unfold reflectance
      rw [if_neg (by change ¬ 0 < ([] : List BDRFMode).length; simp)]
      exact zero_le_one
    · unfold reflectance
      rw [if_neg (by change ¬ 0 < ([] : List BDRFMode).length; simp), if_neg (by change ¬ 0 < ([] : List BDRFMode).length; simp), sub_zero, one_mul, add_zero]
      change |if 0 = 0 then (1 : ℝ) else 0| ≤ C
      rw [if_pos rfl, abs_one]; exact hC1
  have hnear : ∀ k m : ℕ, k ≤ m → ∀ t, 0 ≤ t → t ≤ T k → ∀ i < 2 * nHalf a, |W k t i - W m t i| ≤ (C + C) * Real.exp (-(deepAbs a (T k) - deepAbs a t)) := by
    intro k m hkm
    have h0 : 0 ≤ T k := (lowestTop_nonneg hacc).trans (hT k).le
    refine solvesTo_near hacc hw.gauss hw.peak hsc hw.topBC (hT k) (by linarith) (hS k) ((hS m).mono (hTmono k m hkm)) fun i hi => ?_
    exact (abs_sub _ _).trans (add_le_add (hWC k _ h0 le_rfl i (by omega)) (hWC m _ h0 (hTmono k m hkm) i (by omega)))
  have hlate : ∀ X : ℝ, ∃ k₀ : ℕ, ∀ k, k₀ ≤ k → X ≤ T k := fun X => by
    obtain ⟨k₀, hk₀⟩ := (hTlim.eventually (eventually_ge_atTop X)).exists_forall_of_atTop
    exact ⟨k₀, hk₀⟩
  have hlim : ∀ t, 0 ≤ t → ∀ i < 2 * nHalf a, ∃ v, Tendsto (fun k => W k t i) atTop (𝓝 v) := by
    intro t h0 i hi
    obtain ⟨k₀, hk₀⟩ := hlate t
    have hc : CauchySeq fun k => W (k + k₀) t i := by
      refine cauchySeq_of_le_tendsto_0' (fun k => (C + C) * Real.exp (-(deepAbs a (T (k + k₀)) - deepAbs a t))) (fun k m hkm => ?_) ?_
      · rw [Real.dist_eq]
        exact hnear _ _ (by omega) t h0 (hk₀ _ (by omega)) i hi
      · exact screen_tendsto hacc _ _ (hTlim.comp (tendsto_add_atTop_nat k₀))
    obtain ⟨v, hv⟩ := cauchySeq_tendsto_of_complete hc
    exact ⟨v, (tendsto_add_atTop_iff_nat k₀).1 hv⟩
  set V : ℝ → ℕ → ℝ := fun t i => limUnder atTop fun k => W k t i with hVdef
  have hV : ∀ t, 0 ≤ t → ∀ i < 2 * nHalf a, Tendsto (fun k => W k t i) atTop (𝓝 (V t i)) := fun t h0 i hi => tendsto_nhds_limUnder (hlim t h0 i hi)
  have hVnear : ∀ k t, 0 ≤ t → t ≤ T k → ∀ i < 2 * nHalf a, |W k t i - V t i| ≤ (C + C) * Real.exp (-(deepAbs a (T k) - deepAbs a t)) := by
    intro k t h0 h1 i hi
    refine le_of_tendsto ((tendsto_const_nhds.sub (hV t h0 i hi)).abs) ?_
    filter_upwards [eventually_ge_atTop k] with m hm
    exact hnear k m hm t h0 h1 i hi
  -- uniformly on bounded depths
  have hunif : ∀ X ε : ℝ, 0 < ε → ∀ᶠ k in atTop, X ≤ T k ∧ ∀ t, 0 ≤ t → t ≤ X → ∀ i < 2 * nHalf a, |W k t i - V t i| < ε := by
    intro X ε hε
    filter_upwards [hTlim.eventually (eventually_ge_atTop X), (screen_tendsto hacc (C + C) (deepAbs a X) hTlim).eventually (gt_mem_nhds hε)] with k hk1 hk2
    refine ⟨hk1, fun t h0 h1 i hi => (hVnear k t h0 (h1.trans hk1) i hi).trans_lt (lt_of_le_of_lt ?_ hk2)⟩
    exact mul_le_mul_of_nonneg_left (Real.exp_le_exp.2 (by linarith [deepAbs_mono hacc h1])) (by linarith)
  refine ⟨V, ?_, ?_, ?_, C, ?_⟩
  · intro i hi
    have hX : ∀ X : ℝ, ContinuousOn (fun t => V t i) (Set.Icc 0 X) := by
      intro X
      have hu : TendstoUniformlyOn (fun k t => W k t i) (fun t => V t i) atTop (Set.Icc 0 X) := by
        rw [Metric.tendstoUniformlyOn_iff]
        intro ε hε
        filter_upwards [hunif X ε hε] with k hk t ht
        rw [Real.dist_eq, abs_sub_comm]
        exact hk.2 t ht.1 ht.2 i hi
      refine hu.continuousOn (Eventually.frequently ?_)
      filter_upwards [hTlim.eventually (eventually_ge_atTop X)] with k hk
      exact ((hS k).cont i hi).mono (Set.Icc_subset_Icc_right hk)
    intro t ht
    refine ((hX (t + 1)) t ⟨ht, by linarith⟩).mono_of_mem_nhdsWithin ?_
    rw [mem_nhdsWithin]
    exact ⟨Set.Iio (t + 1), isOpen_Iio, by simp, fun x hx => ⟨hx.2, hx.1.le⟩⟩
  · intro l hl t htl i hi
    have hb0 : 0 ≤ bdry a.tauArr.get l := by
      rw [← bdry_zero a.tauArr.get]; exact bdry_le hacc (Nat.zero_le _) hl.le
    have hσ := stream_ne_zero (E := E) (a := a) hw.gauss hi
    obtain ⟨M, hM0, hM⟩ := rteUser_near (a := a) hacc (node E a) (weight E a) hl hi
    set X := t + 1 with hXdef
    set s : Set ℝ := {x | InsideDeep a l x ∧ x < X} with hs
    have hso : IsOpen s := by
      rcases Nat.lt_or_ge (l + 1) a.tauArr.n with h | h
      · have : s = Set.Ioo (bdry a.tauArr.get l) (bdry a.tauArr.get (l + 1)) ∩ Set.Iio X := by
          ext x
          exact ⟨fun hx => ⟨⟨hx.1.1, hx.1.2 h⟩, hx.2⟩, fun hx => ⟨⟨hx.1.1, fun _ => hx.1.2⟩, hx.2⟩⟩
        rw [this]; exact isOpen_Ioo.inter isOpen_Iio
      · have : s = Set.Ioi (bdry a.tauArr.get l) ∩ Set.Iio X := by
          ext x
          exact ⟨fun hx => ⟨hx.1.1, hx.2⟩, fun hx => ⟨⟨hx.1, fun h' => absurd h' (by omega)⟩, hx.2⟩⟩
        rw [this]; exact isOpen_Ioi.inter isOpen_Iio
    have key := hasDerivAt_of_tendstoUniformlyOn (l := atTop) (f := fun k x => W k x i) (g := fun x => V x i) (s := s) (x := t)
      (f' := fun k x => rteUser a (node E a) (weight E a) 0 l x (W k x) i / stream (nHalf a) (node E a) i)
      (g' := fun x => rteUser a (node E a) (weight E a) 0 l x (V x) i / stream (nHalf a) (node E a) i) hso ?_ ?_ ?_ ⟨htl, by linarith⟩
    · exact ⟨_, key, by field_simp⟩
    · rw [Metric.tendstoUniformlyOn_iff]
      intro ε hε
      have hσ' : 0 < |stream (nHalf a) (node E a) i| := abs_pos.2 hσ
      have hε' : 0 < ε * |stream (nHalf a) (node E a) i| / (M + 1) := by positivity
      filter_upwards [hunif X _ hε'] with k hk x hx
      rw [Real.dist_eq, abs_sub_comm, ← sub_div, abs_div, div_lt_iff₀ hσ']
      refine (hM x (W k x) (V x) _ fun j hj => (hk.2 x (hb0.trans hx.1.1.le) hx.2.le j hj).le).trans_lt ?_
      rw [mul_div_assoc', div_lt_iff₀ (by linarith)]
      have := mul_pos hε hσ'
      nlinarith
    · filter_upwards [hTlim.eventually (eventually_ge_atTop X)] with k hk x hx
      obtain ⟨d, hd, he⟩ := (hS k).ode l hl x hx.1 (hx.2.trans_le hk) i hi
      refine hd.congr_deriv ?_
      rw [← he]; field_simp
    · intro x hx
      exact hV x (hb0.trans hx.1.1.le) i hi
  · intro i hi
    refine tendsto_nhds_unique (hV 0 le_rfl (nHalf a + i) (by omega)) ?_
    refine tendsto_const_nhds.congr fun k => ((hS k).top i hi).symm
  · intro t h0 i hi
    refine le_of_tendsto (hV t h0 i hi).abs ?_
    filter_upwards [hTlim.eventually (eventually_ge_atTop t)] with k hk
    exact hWC k t h0 hk i hi

/-- **C126, the atmosphere without bottom.** If the internal source of the lowest layer stays bounded, the transfer equation of the atmosphere whose lowest layer goes down
for ever has exactly one bounded solution; no condition at a surface is needed. -/
theorem C126_deep_solution (hw : WellPosed E a) (hsc : NonnegScattering a (node E a)) (ht : TameBelow a) :
    (∃ V, IsDeepSolution a (node E a) (weight E a) V) ∧
    ∀ V W, IsDeepSolution a (node E a) (weight E a) V → IsDeepSolution a (node E a) (weight E a) W → ∀ t, 0 ≤ t → ∀ i < 2 * nHalf a, V t i = W t i := by
  refine ⟨exists_deep hw hsc ht, fun V W hV hW t h0 i hi => ?_⟩
  have hacc := hw.accepted
  obtain ⟨C, hC⟩ := hV.bounded
  obtain ⟨C', hC'⟩ := hW.bounded
  have hCC : 0 ≤ C + C' := add_nonneg ((abs_nonneg _).trans (hC t h0 i hi)) ((abs_nonneg _).trans (hC' t h0 i hi))
  have hle : |V t i - W t i| ≤ 0 := by
    refine ge_of_tendsto (screen_tendsto hacc (C + C') (deepAbs a t) tendsto_id) ?_
    filter_upwards [eventually_gt_atTop (lowestTop a), eventually_ge_atTop t] with T h1 h2
    have hT0 : 0 ≤ T := h0.trans h2
    exact solvesTo_near hacc hw.gauss hw.peak hsc hw.topBC h1 hCC (IsDeepSolution.solvesTo hV T) (IsDeepSolution.solvesTo hW T)
      (fun j hj => (abs_sub _ _).trans (add_le_add (hC T hT0 j (by omega)) (hC' T hT0 j (by omega)))) t h0 h2 i hi
  exact sub_eq_zero.1 (abs_nonpos_iff.1 hle)

/-- **C126, the error of ending the lowest layer at a finite depth.** End the lowest layer at depth `T` above any surface. The azimuthally averaged intensities returned at
depth `t` differ from those of the atmosphere without bottom by at most the light coming up at depth `T`, reduced by the absorption between `t` and `T`; the upward and the
total downward flux differ by at most `π` times this. -/
theorem C126_deep_error {bp : BCv} {bd : List BDRFMode} {T : ℝ} (hacc : Accepted a) (hT : lowestTop a < T) (hw : WellPosed E (deepened a T bp bd))
    (hr : Rescalable (deepened a T bp bd)) (hsc : NonnegScattering a (node E a)) {J : Junk} {R : Solved} (h : pydisort E J (deepened a T bp bd) = .ok R)
    {F : Fields} (hF : Evaluates (deepened a T bp bd) R F) {V : ℝ → ℕ → ℝ} (hV : IsDeepSolution a (node E a) (weight E a) V) {C D : ℝ}
    (hC : ∀ i < nHalf a, |V T i| ≤ C) (hD : ∀ i < nHalf a, |F.u0 T i| ≤ D) :
    ∀ t, 0 ≤ t → t ≤ T →
      (∀ i < 2 * nHalf a, |F.u0 t i - V t i| ≤ (D + C) * Real.exp (-(deepAbs a T - deepAbs a t))) ∧
      |F.up t - hemiFlux a (node E a) (weight E a) (fun i => V t i)| ≤ Real.pi * ((D + C) * Real.exp (-(deepAbs a T - deepAbs a t))) ∧
      ∀ l < a.tauArr.n, bdry a.tauArr.get l ≤ t → (l + 1 < a.tauArr.n → t ≤ bdry a.tauArr.get (l + 1)) →
        |(F.diffuse t + F.direct t) - (hemiFlux a (node E a) (weight E a) (fun i => V t (nHalf a + i)) + a.I0 * a.mu0 * Real.exp (-tauStar a l t / a.mu0))|
          ≤ Real.pi * ((D + C) * Real.exp (-(deepAbs a T - deepAbs a t))) := by
  have hn0 : 0 < nHalf a := streams_pos hacc
  have hT0 : 0 ≤ T := (lowestTop_nonneg hacc).trans hT.le
  have hbot : bottom (deepened a T bp bd) = T := deepened_bottom hacc
  obtain ⟨U, hU, _⟩ := C02_modes_solve_transfer_equation h hw.sound hr
  obtain ⟨rho, hrho⟩ := surface_exists hw.surface
  have hsol := modes_isSolution h hw.sound hr hw.bottomBC hw.topBC hrho hU (nFourier_pos h hw.sound)
  obtain ⟨c1, -, -, -⟩ := evaluates_unique hF (evaluates h hr hU) hT0 hbot.ge
  have hD0 : 0 ≤ D := (abs_nonneg _).trans (hD 0 hn0)
  have hC0 : 0 ≤ C := (abs_nonneg _).trans (hC 0 hn0)
  intro t h0 h1
  have hle := solvesTo_near (E := E) hacc hw.gauss hw.peak hsc hw.topBC hT (add_nonneg hD0 hC0) (IsSolution.solvesTo hacc hT hsol) (IsDeepSolution.solvesTo hV T)
    (fun i hi => (abs_sub _ _).trans (add_le_add (by
      have h2 := hD i hi
      rw [c1 i (show i < 2 * nHalf a by omega)] at h2
      exact h2) (hC i hi))) t h0 h1
  have h1' : t ≤ bottom (deepened a T bp bd) := by rw [hbot]; exact h1
  obtain ⟨e1, e2, e3, e4⟩ := evaluates_unique hF (evaluates h hr hU) h0 h1'
  refine ⟨fun i hi => by rw [e1 i hi]; exact hle i hi, ?_, fun l hl h2 h3 => ?_⟩
  · rw [e2]
    exact hemiFlux_near (a := a) hw.gauss hn0 fun i hi => hle i (by omega)
  · rw [e3, e4]
    have l1 := layOf_spec hw.accepted h0 h1'
    have l2 : InLayer (deepened a T bp bd) l t := by
      refine ⟨by rw [deepened_bdry hl]; exact h2, ?_⟩
      rcases Nat.lt_or_ge (l + 1) a.tauArr.n with h4 | h4
      · rw [deepened_bdry h4]; exact h3 h4
      · rw [show l + 1 = a.tauArr.n by omega, deepened_bdry_last hacc]; exact h1
    have e : tauStar (deepened a T bp bd) (layOf (deepened a T bp bd) t) t = tauStar a l t := by
      rw [← deepened_tauStar (T := T) (bp := bp) (bd := bd) hl t]
      exact tauStar_layers hw.accepted l1.1 hl l1.2 l2
    have := hemiFlux_near (a := a) (E := E) (v := fun i => U 0 t (nHalf a + i)) (v' := fun i => V t (nHalf a + i)) hw.gauss hn0
      fun i hi => hle (nHalf a + i) (by omega)
    refine le_trans (le_of_eq ?_) this
    change |hemiFlux a (node E a) (weight E a) (fun i => U 0 t (nHalf a + i))
        + (a.I0 * a.mu0 * Real.exp (-tauStar (deepened a T bp bd) (layOf (deepened a T bp bd) t) t / a.mu0) - a.I0 * a.mu0 * Real.exp (-t / a.mu0))
        + a.I0 * a.mu0 * Real.exp (-t / a.mu0) - _| = _
    rw [e]
    congr 1
    ring

/-- **C126, thicker and thicker atmospheres.** Let the lowest layer end at depths `T k` that grow beyond all bounds, above surfaces that may be different each time but reflect
at most what they receive and emit at most what a black body of intensity `B` would. Then the intensities returned at any depth approach those of the atmosphere without
bottom, and so do the upward and the total downward flux: the surfaces become irrelevant. -/
theorem C126_deep_limit {bp : ℕ → BCv} {bd : ℕ → List BDRFMode} {T : ℕ → ℝ} (hacc : Accepted a) (ht : TameBelow a) (hT : ∀ k, lowestTop a < T k)
    (hlim : Tendsto T atTop atTop) (hw : ∀ k, WellPosed E (deepened a (T k) (bp k) (bd k))) (hr : ∀ k, Rescalable (deepened a (T k) (bp k) (bd k)))
    (hsc : NonnegScattering a (node E a)) {rho : ℕ → ℕ → ℝ → ℝ → ℝ} (hrho : ∀ k, SurfaceIs (deepened a (T k) (bp k) (bd k)) (rho k))
    (hsf : ∀ k, FairSurface (deepened a (T k) (bp k) (bd k)) (node E a) (weight E a) (rho k 0)) {B : ℝ} (hB : 0 ≤ B)
    (hem : ∀ k, EmitsBelow (deepened a (T k) (bp k) (bd k)) (node E a) (weight E a) (rho k 0) B) {J : ℕ → Junk} {R : ℕ → Solved}
    (h : ∀ k, pydisort E (J k) (deepened a (T k) (bp k) (bd k)) = .ok (R k)) {F : ℕ → Fields} (hF : ∀ k, Evaluates (deepened a (T k) (bp k) (bd k)) (R k) (F k))
    {V : ℝ → ℕ → ℝ} (hV : IsDeepSolution a (node E a) (weight E a) V) :
    ∀ t, 0 ≤ t →
      (∀ i < 2 * nHalf a, Tendsto (fun k => (F k).u0 t i) atTop (𝓝 (V t i))) ∧
      Tendsto (fun k => (F k).up t) atTop (𝓝 (hemiFlux a (node E a) (weight E a) (fun i => V t i))) ∧
      ∀ l < a.tauArr.n, bdry a.tauArr.get l ≤ t → (l + 1 < a.tauArr.n → t ≤ bdry a.tauArr.get (l + 1)) →
        Tendsto (fun k => (F k).diffuse t + (F k).direct t) atTop
          (𝓝 (hemiFlux a (node E a) (weight E a) (fun i => V t (nHalf a + i)) + a.I0 * a.mu0 * Real.exp (-tauStar a l t / a.mu0))) := by
  obtain ⟨C₀, hC₀⟩ := exists_outweighs (E := E) hacc ht
  set D := max C₀ B with hDdef
  have hD : Outweighs E a D := hC₀.mono hacc (le_max_left _ _)
  obtain ⟨C, hC⟩ := hV.bounded
  have hup : ∀ k, ∀ i < nHalf a, |(F k).u0 (T k) i| ≤ D := by
    intro k i hi
    have hT0 : 0 ≤ T k := (lowestTop_nonneg hacc).trans (hT k).le
    obtain ⟨U, hU, _⟩ := C02_modes_solve_transfer_equation (h k) (hw k).sound (hr k)
    have hsol := modes_isSolution (h k) (hw k).sound (hr k) (hw k).bottomBC (hw k).topBC (hrho k) hU (nFourier_pos (h k) (hw k).sound)
    obtain ⟨c1, -, -, -⟩ := evaluates_unique (hF k) (evaluates (h k) (hr k) hU) hT0 (deepened_bottom hacc).ge
    rw [c1 i (show i < 2 * nHalf a by omega)]
    refine deepened_abs_le hacc (hT k) (hw k).accepted.bottom (hw k).gauss (hw k).peak hsc (hsf k) hD (fun i hi => ?_) hsol _ hT0 le_rfl i (by omega)
    exact (hem k i hi).trans (mul_le_mul_of_nonneg_left (le_max_right _ _) (by
      have : reflectance (deepened a (T k) (bp k) (bd k)) (node E a) (weight E a) (rho k 0) (node E a i) ≤ 1 := (hsf k).bounded i hi
      linarith))
  intro t h0
  have herr : ∀ᶠ k in atTop, _ := (hlim.eventually (eventually_ge_atTop t)).mono fun k hk =>
    C126_deep_error (C := C) (D := D) hacc (hT k) (hw k) (hr k) hsc (h k) (hF k) hV
      (fun i hi => hC (T k) (h0.trans hk) i (by omega)) (hup k) t h0 hk
  have hz := screen_tendsto hacc (D + C) (deepAbs a t) hlim
  have hz' : Tendsto (fun k => Real.pi * ((D + C) * Real.exp (-(deepAbs a (T k) - deepAbs a t)))) atTop (𝓝 0) := by simpa using hz.const_mul Real.pi
  refine ⟨fun i hi => ?_, ?_, fun l hl h2 h3 => ?_⟩
  · rw [tendsto_iff_dist_tendsto_zero]
    refine squeeze_zero' (Eventually.of_forall fun _ => dist_nonneg) ?_ hz
    filter_upwards [herr] with k hk
    exact hk.1 i hi
  · rw [tendsto_iff_dist_tendsto_zero]
    refine squeeze_zero' (Eventually.of_forall fun _ => dist_nonneg) ?_ hz'
    filter_upwards [herr] with k hk
    exact hk.2.1
  · rw [tendsto_iff_dist_tendsto_zero]
    refine squeeze_zero' (Eventually.of_forall fun _ => dist_nonneg) ?_ hz'
    filter_upwards [herr] with k hk
    exact hk.2.2 l hl h2 h3

/-! ### The hypotheses are met -/

/-- `demoMild` with a constant internal source. -/
noncomputable def demoSteady (n : ℕ) (x : ℝ) : Args := { demoMild n x with s := ⟨2, 1, fun _ _ => 1⟩ }

/-- The hypotheses of C126 are met, for every number of streams: `demoSteady`, with a beam, internal sources, light from above and below and a reflecting surface whose emission
changes with the depth at which the lowest layer ends. -/
example {n : ℕ} (hn : 0 < n) (J : Junk) : ∃ (x : ℝ) (R : ℕ → Solved) (F : ℕ → Fields) (V : ℝ → ℕ → ℝ), ∀ a, a = demoSteady n x → WellPosed refExt a ∧ TameBelow a
    ∧ NonnegScattering a (node refExt a) ∧ IsDeepSolution a (node refExt a) (weight refExt a) V ∧ ∀ T : ℕ → ℝ, (T = fun k : ℕ => lowestTop a + 1 + (k : ℝ)) →
      Tendsto T atTop atTop ∧ ∀ k, lowestTop a < T k ∧ ∀ b, b = deepened a (T k) (.scalar (1 / ((k : ℝ) + 1))) [.scalar (1 / 3)] →
        WellPosed refExt b ∧ Rescalable b ∧ SurfaceIs b (fun _ _ _ => 1 / 3) ∧ FairSurface b (node refExt a) (weight refExt a) (fun _ _ => 1 / 3)
        ∧ EmitsBelow b (node refExt a) (weight refExt a) (fun _ _ => 1 / 3) 2 ∧ pydisort refExt J b = .ok (R k) ∧ Evaluates b (R k) (F k) := by
  obtain ⟨x, h0, h1, hw₀⟩ := demoMild_wellPosed hn
  have hw : WellPosed refExt (demoSteady n x) :=
    { hw₀ with
      accepted := { hw₀.accepted with sourceRows := Or.inr rfl }
      sourceShape := Or.inr rfl
      degree := Or.inr (Nat.le_of_ble_eq_true rfl) }
  have ht : TameBelow (demoSteady n x) := ⟨1, fun t _ => by
    unfold source
    rw [if_pos (by change 2 - 1 < 2; omega)]
    change |∑ k ∈ range 1, (1 : ℝ) * t ^ k| ≤ 1
    simp⟩
  have hsc : NonnegScattering (demoSteady n x) (node refExt (demoSteady n x)) := demoMild_scattering hn x
  obtain ⟨V, hV⟩ := (C126_deep_solution hw hsc ht).1
  set T : ℕ → ℝ := fun k => lowestTop (demoSteady n x) + 1 + k with hT
  have hT0 : ∀ k, lowestTop (demoSteady n x) < T k := fun k => by
    have : (0 : ℝ) ≤ k := Nat.cast_nonneg k
    simp only [hT]; linarith
  have hwk : ∀ k : ℕ, WellPosed refExt (deepened (demoSteady n x) (T k) (.scalar (1 / ((k : ℝ) + 1))) [.scalar (1 / 3)]) := fun k =>
    { hw with accepted := deepened_accepted hw.accepted (hT0 k) trivial, bottomBC := trivial }
  have hrk : ∀ k : ℕ, Rescalable (deepened (demoSteady n x) (T k) (.scalar (1 / ((k : ℝ) + 1))) [.scalar (1 / 3)]) := fun k => Or.inl (Or.inl one_pos)
  choose R hR using fun k => pydisort_isOk (hwk k) J
  choose F hF using fun k => evaluates_exists (hR k) (hwk k).sound (hrk k)
  refine ⟨x, R, F, V, ?_⟩
  rintro a rfl
  refine ⟨hw, ht, hsc, hV, ?_⟩
  rintro T' rfl
  refine ⟨tendsto_atTop_add_const_left _ _ tendsto_natCast_atTop_atTop, fun k => ⟨hT0 k, ?_⟩⟩
  rintro b rfl
  have hsf := demoMild_surface (n := n) (x := x) hn
  refine ⟨hwk k, hrk k, fun m _ => demo_rho (n := n) x m, ⟨hsf.nonneg, hsf.beam, hsf.bounded⟩, fun i hi => ?_, hR k, hF k⟩
  have hh : nHalf (demoMild n x) = n := demo_nHalf x
  have hg : GaussContract refExt (nHalf (demoMild n x)) := by rw [hh]; exact refExt_gauss hn
  have hrefl : reflectance (deepened (demoSteady n x) (T k) (.scalar (1 / ((k : ℝ) + 1))) [.scalar (1 / 3)]) (node refExt (demoSteady n x))
      (weight refExt (demoSteady n x)) (fun _ _ => 1 / 3) (node refExt (demoSteady n x) i) = 1 / 3 := by
    unfold reflectance
    rw [if_pos (by change 0 < 1; exact one_pos)]
    change 2 * ∑ j ∈ range (nHalf (demoMild n x)), weight refExt (demoMild n x) j * node refExt (demoMild n x) j * (1 / 3) = 1 / 3
    rw [← sum_mul, sum_weight_node hg (by rw [hh]; exact hn)]
    norm_num
  rw [hrefl, if_pos (by change 0 < 1; exact one_pos)]
  change |if 0 = 0 then 1 / ((k : ℝ) + 1) else 0| + x * 1 / Real.pi * (1 / 3) ≤ (1 - 1 / 3) * 2
  rw [if_pos rfl]
  have hk : (0 : ℝ) < (k : ℝ) + 1 := by positivity
  have e1 : |1 / ((k : ℝ) + 1)| ≤ 1 := by
    rw [abs_of_pos (by positivity), div_le_one hk]
    linarith [(Nat.cast_nonneg k : (0 : ℝ) ≤ k)]
  have e2 : x * 1 / Real.pi ≤ 1 := by
    rw [mul_one, div_le_one Real.pi_pos]
    linarith [Real.two_le_pi]
  linarith

end Pydisort

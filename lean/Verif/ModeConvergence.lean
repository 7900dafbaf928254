import Verif.ModeSlab

/-!
# Convergence with the number of streams, mode by mode
-/

namespace Pydisort
open Finset Spec MeasureTheory

variable {E : Ext} {a : Args} {rho : ℝ → ℝ → ℝ} {m : ℕ} {up down : ℝ → ℝ} {v : ℝ → ℝ → ℝ}

theorem noNeglect_of (hpk : ∀ l < a.tauArr.n, peak a l < 1) (hacc : Accepted a) (hn : NothingNeglected a) : NoNeglect a := by
  intro l hl
  by_contra h
  push Not at h
  have hL : 0 < nLeg a := by have := hacc.nLeg.1; unfold nLeg; omega
  have := weak_zero hn hl (m := 0) h.2 0 (mem_Ico.2 ⟨le_rfl, hL⟩)
  have h1 : legStar a l 0 = 1 := by
    unfold legStar leg
    rw [if_pos rfl]
    exact div_self (by have := hpk l hl; linarith)
  rw [h1, mul_one] at this
  exact h.1 this

theorem sq_le_of_mem {x : ℝ} (hx : x ∈ Set.Icc (-1 : ℝ) 1) : x ^ 2 ≤ 1 := by nlinarith [hx.1, hx.2]

/-- No mode scatters more than the mean. -/
theorem scatD_abs_le (hacc : Accepted a) (hpk : ∀ l < a.tauArr.n, peak a l < 1) (hp : NonnegPhase a) (m : ℕ) {l : ℕ} (hl : l < a.tauArr.n) {x y : ℝ}
    (hx : x ∈ Set.Icc (-1 : ℝ) 1) (hy : y ∈ Set.Icc (-1 : ℝ) 1) :
    |scatD (omegaStar a l) (nLeg a) (legStar a l) m x y| ≤ scatD (omegaStar a l) (nLeg a) (legStar a l) 0 x y := by
  have h0 := omegaStar_nonneg hacc hl (hpk l hl)
  unfold scatD
  rw [abs_mul, abs_of_nonneg (by linarith)]
  exact mul_le_mul_of_nonneg_left (phaseMoment_abs_le (hp l hl) (sq_le_of_mem hx) (sq_le_of_mem hy) m) (by linarith)

theorem scatD_abs_mass (hacc : Accepted a) (hpk : ∀ l < a.tauArr.n, peak a l < 1) (hp : NonnegPhase a) (m : ℕ) :
    ∀ l < a.tauArr.n, ∀ y ∈ Set.Icc (-1 : ℝ) 1, ∫ z in (-1 : ℝ)..1, |scatD (omegaStar a l) (nLeg a) (legStar a l) m y z| ≤ omegaStar a l := by
  intro l hl y hy
  refine le_trans ?_ (scatD_mass hacc (hpk l hl) y).le
  have hc : ∀ m, Continuous fun z => scatD (omegaStar a l) (nLeg a) (legStar a l) m y z := fun m =>
    (continuous_scatD_mode (omegaStar a l) (nLeg a) (legStar a l) m).comp (f := fun z => (y, z)) (by fun_prop)
  exact intervalIntegral.integral_mono_on (by norm_num) ((hc m).abs.intervalIntegrable _ _) ((hc 0).intervalIntegrable _ _)
    fun z hz => scatD_abs_le hacc hpk hp m hl hy hz

theorem scatD_abs_sum (hacc : Accepted a) (hpk : ∀ l < a.tauArr.n, peak a l < 1) (hn : NothingNeglected a) (hp : NonnegPhase a)
    (hg : GaussContract E (nHalf a)) (m : ℕ) {l : ℕ} (hl : l < a.tauArr.n) {i : ℕ} (hi : i < 2 * nHalf a) :
    ∑ j ∈ range (2 * nHalf a), streamW (nHalf a) (weight E a) j
      * |scatD (omegaStar a l) (nLeg a) (legStar a l) m (stream (nHalf a) (node E a) i) (stream (nHalf a) (node E a) j)| ≤ omegaStar a l := by
  have h1 := row_sum_kernel hacc hg (hpk l hl) (stream (nHalf a) (node E a) i)
  rw [effAlbedo_eq_omegaStar (noNeglect_of hpk hacc hn) hl] at h1
  refine le_trans ?_ h1.le
  refine sum_le_sum fun j hj => mul_le_mul_of_nonneg_left ?_ (streamW_pos hg (mem_range.1 hj)).le
  rw [kernel_eq_scatD hn hl]
  exact scatD_abs_le hacc hpk hp m hl (stream_mem hg hi).1 (stream_mem hg (mem_range.1 hj)).1

/-- Stability: a field that solves the equation of mode `m` up to a defect differs from the computed one by at most the defect. -/
theorem stability (hacc : Accepted a) (hg : GaussContract E (nHalf a)) {κ : ℝ} (hκ : 0 < κ)
    (hR : m < a.bdrf.length → ∀ i < nHalf a, (1 + if m = 0 then 1 else 0) * (∑ j ∈ range (nHalf a), weight E a j * node E a j * |rho (node E a i) (node E a j)|) ≤ 1 - κ)
    {q : ℕ → ℝ} (hq1 : ∀ l < a.tauArr.n, q l < 1)
    (hq : ∀ l < a.tauArr.n, ∀ i < 2 * nHalf a, ∑ j ∈ range (2 * nHalf a), streamW (nHalf a) (weight E a) j
      * |kernel a m l (stream (nHalf a) (node E a) i) (stream (nHalf a) (node E a) j)| ≤ q l)
    (hvc : ∀ i < 2 * nHalf a, ContinuousOn (fun t => v t (stream (nHalf a) (node E a) i)) (Set.Icc 0 (bottom a)))
    {Q : ℕ → ℝ → ℕ → ℝ} (hode : ∀ l < a.tauArr.n, ∀ t, bdry a.tauArr.get l < t → t < bdry a.tauArr.get (l + 1) → ∀ i < 2 * nHalf a,
      ∃ d, HasDerivAt (fun x => v x (stream (nHalf a) (node E a) i)) d t ∧ stream (nHalf a) (node E a) i * d
        = scale a l * (v t (stream (nHalf a) (node E a) i) - Q l t i) - if m = 0 then (1 - a.omega.get l) * source a l t else 0)
    (htop : ∀ i < nHalf a, v 0 (-node E a i) = bcVal a.bneg m i) {S : ℕ → ℝ}
    (hbot : ∀ i < nHalf a, v (bottom a) (node E a i) = bcVal a.bpos m i + if m < a.bdrf.length then S i else 0)
    {ε : ℝ} (he : 0 < ε)
    (hd : ∀ l < a.tauArr.n, ∀ t, InLayer a l t → ∀ i < 2 * nHalf a,
      |∑ j ∈ range (2 * nHalf a), streamW (nHalf a) (weight E a) j * kernel a m l (stream (nHalf a) (node E a) i) (stream (nHalf a) (node E a) j)
          * v t (stream (nHalf a) (node E a) j) + beamSource a m l (stream (nHalf a) (node E a) i) * Real.exp (-tauStar a l t / a.mu0) - Q l t i| ≤ ε * (1 - q l))
    (hd' : m < a.bdrf.length → ∀ i < nHalf a, |reflected a (node E a) (weight E a) rho m (node E a i) (fun j => v (bottom a) (-node E a j)) - S i| ≤ ε * κ)
    {U : ℝ → ℕ → ℝ} (hU : IsSolution a (node E a) (weight E a) rho m U) :
    ∀ t, 0 ≤ t → t ≤ bottom a → ∀ i < 2 * nHalf a, |U t i - v t (stream (nHalf a) (node E a) i)| ≤ ε := by
  have hbb := bdry_bottom hacc
  have hst : ∀ j, stream (nHalf a) (node E a) (nHalf a + j) = -node E a j := by
    intro j; unfold stream; rw [if_neg (by omega), Nat.add_sub_cancel_left]
  set D := fun l => kernel a m l with hD
  have hsum0 : ∀ {n : ℕ} {k e : ℕ → ℝ} {S c s : ℝ}, |s| = 1 → 0 ≤ c → (∀ j < n, |e j| ≤ c) → ∑ j ∈ range n, |k j| ≤ S → -(S * c) ≤ s * ∑ j ∈ range n, k j * e j := by
    intro n k e S c s hs hc h1 h2
    have h3 : |s * ∑ j ∈ range n, k j * e j| ≤ S * c := by
      rw [abs_mul, hs, one_mul]
      refine (abs_sum_le_sum_abs _ _).trans ?_
      refine le_trans ?_ (mul_le_mul_of_nonneg_right h2 hc)
      rw [sum_mul]
      refine sum_le_sum fun j hj => ?_
      rw [abs_mul]
      exact mul_le_mul_of_nonneg_left (h1 j (mem_range.1 hj)) (abs_nonneg _)
    exact (abs_le.1 h3).1
  have hK1 : ∀ s ∈ ({-1, 1} : Set ℝ), |s| = 1 := by
    intro s hs
    rcases hs with rfl | rfl <;> simp
  have key := min_principle_azimuth (N := nHalf a) (L := a.tauArr.n) (b := bdry a.tauArr.get) (bdry_zero _) (fun l hl => bdry_lt hacc hl)
    (K := {-1, 1}) (Set.toFinite _).isCompact (V := fun t s i => ε + s * (U t i - v t (stream (nHalf a) (node E a) i))) ?_
    (σ := stream (nHalf a) (node E a))
    (fun i hi => by unfold stream; rw [if_pos hi]; exact (node_pos hg hi).1)
    (fun i h1 h2 => by
      unfold stream; rw [if_neg (by omega)]
      have := (node_pos hg (i := i - nHalf a) (by omega)).1; linarith)
    (c := scale a) (κ := q) (fun l hl => Args.scale_pos hacc hl) hq1
    (G := fun l i s t => q l * ε + s * ∑ j ∈ range (2 * nHalf a), streamW (nHalf a) (weight E a) j
      * D l (stream (nHalf a) (node E a) i) (stream (nHalf a) (node E a) j) * (U t j - v t (stream (nHalf a) (node E a) j)))
    ?_ ?_ ?_ ?_ ?_
  · intro t h0 h1 i hi
    have p := key t h0 (by rwa [hbb]) 1 (by simp) i hi
    have q := key t h0 (by rwa [hbb]) (-1) (by simp) i hi
    exact abs_le.2 ⟨by linarith, by linarith⟩
  · intro i hi
    rw [hbb]
    refine continuousOn_const.add (continuousOn_snd.mul ?_)
    exact ((hU.cont i hi).sub (hvc i hi)).comp continuousOn_fst fun p hp => hp.1
  · intro l hl i hi s _
    rw [hbb]
    refine continuousOn_const.add (continuousOn_const.mul (continuousOn_finset_sum _ fun j hj => continuousOn_const.mul ?_))
    exact (hU.cont j (mem_range.1 hj)).sub (hvc j (mem_range.1 hj))
  · intro l hl t _ i hi s hs M hM hlow
    have hlow' : ∀ j < 2 * nHalf a, |U t j - v t (stream (nHalf a) (node E a) j)| ≤ ε - M := by
      intro j hj
      have p := hlow j hj 1 (by simp)
      have q := hlow j hj (-1) (by simp)
      exact abs_le.2 ⟨by linarith, by linarith⟩
    have h1 := hsum0 (n := 2 * nHalf a) (k := fun j => streamW (nHalf a) (weight E a) j * D l (stream (nHalf a) (node E a) i) (stream (nHalf a) (node E a) j))
      (S := q l) (hK1 s hs) (show 0 ≤ ε - M by linarith) hlow' (by
        refine le_trans (le_of_eq (sum_congr rfl fun j hj => ?_)) (hq l hl i hi)
        rw [abs_mul, abs_of_pos (streamW_pos hg (mem_range.1 hj))])
    beta_reduce at h1 ⊢
    linarith
  · intro l hl t h0 h1 i hi s hs
    obtain ⟨d₁, k₁, e₁⟩ := hU.ode l hl t h0 h1 i hi
    obtain ⟨d₂, k₂, e₂⟩ := hode l hl t h0 h1 i hi
    refine ⟨s * (d₁ - d₂), ((k₁.sub k₂).const_mul s).const_add _, ?_⟩
    have hdd := hd l hl t ⟨h0.le, h1.le⟩ i hi
    unfold rteUser rteRHS at e₁
    beta_reduce
    have hexp : ∑ j ∈ range (2 * nHalf a), streamW (nHalf a) (weight E a) j * D l (stream (nHalf a) (node E a) i) (stream (nHalf a) (node E a) j)
          * (U t j - v t (stream (nHalf a) (node E a) j))
        = ∑ j ∈ range (2 * nHalf a), streamW (nHalf a) (weight E a) j * D l (stream (nHalf a) (node E a) i) (stream (nHalf a) (node E a) j) * U t j
          - ∑ j ∈ range (2 * nHalf a), streamW (nHalf a) (weight E a) j * D l (stream (nHalf a) (node E a) i) (stream (nHalf a) (node E a) j)
            * v t (stream (nHalf a) (node E a) j) := by
      rw [← sum_sub_distrib]
      exact sum_congr rfl fun j _ => by ring
    rw [hexp, show stream (nHalf a) (node E a) i * (s * (d₁ - d₂))
      = s * (stream (nHalf a) (node E a) i * d₁ - stream (nHalf a) (node E a) i * d₂) by ring, e₁, e₂]
    have h1 := neg_mul_le_of_abs (hK1 s hs) hdd
    have h2 := mul_le_mul_of_nonneg_left h1 (Args.scale_pos hacc hl).le
    linarith
  · intro i hi s hs
    beta_reduce
    rw [hst, hU.top i hi, htop i hi]
    linarith
  · intro i hi s hs M hM hlow
    rw [hbb] at hlow ⊢
    beta_reduce at hlow ⊢
    have hst' : stream (nHalf a) (node E a) i = node E a i := by unfold stream; rw [if_pos hi]
    rw [hst', hU.bot i hi, hbot i hi]
    by_cases hm : m < a.bdrf.length
    · have hlow' : ∀ j < nHalf a, |U (bottom a) (nHalf a + j) - v (bottom a) (-node E a j)| ≤ ε - M := by
        intro j hj
        have p := hlow j hj 1 (by simp)
        have q := hlow j hj (-1) (by simp)
        rw [hst] at p q
        exact abs_le.2 ⟨by linarith, by linarith⟩
      have y1 := hR hm i hi
      have y2 := hd' hm i hi
      simp only [if_pos hm]
      unfold reflected at y2 ⊢
      set f : ℝ := 1 + if m = 0 then 1 else 0 with hf
      have hf0 : 0 ≤ f := by rw [hf]; split_ifs <;> norm_num
      have h1 := hsum0 (n := nHalf a) (k := fun j => f * (weight E a j * node E a j * rho (node E a i) (node E a j))) (S := 1 - κ)
        (hK1 s hs) (show 0 ≤ ε - M by linarith) hlow' (by
          refine le_trans (le_of_eq ?_) y1
          rw [mul_sum]
          refine sum_congr rfl fun j hj => ?_
          have hj' := mem_range.1 hj
          rw [abs_mul, abs_mul, abs_of_nonneg hf0, abs_of_pos (mul_pos (weight_pos hg hj') (node_pos hg hj').1)])
      have h2 : ∑ j ∈ range (nHalf a), f * (weight E a j * node E a j * rho (node E a i) (node E a j)) * (U (bottom a) (nHalf a + j) - v (bottom a) (-node E a j))
          = f * ∑ j ∈ range (nHalf a), weight E a j * node E a j * rho (node E a i) (node E a j) * U (bottom a) (nHalf a + j)
            - f * ∑ j ∈ range (nHalf a), weight E a j * node E a j * rho (node E a i) (node E a j) * v (bottom a) (-node E a j) := by
        rw [mul_sum, mul_sum, ← sum_sub_distrib]
        exact sum_congr rfl fun j _ => by ring
      rw [h2] at h1
      have h3 := neg_mul_le_of_abs (hK1 s hs) y2
      have h4 : κ * M ≤ 0 := mul_nonpos_of_nonneg_of_nonpos hκ.le hM
      linarith
    · simp only [if_neg hm]
      linarith

/-- Stability for the exact solution of a mode. -/
theorem mode_bound (hacc : Accepted a) (hg : GaussContract E (nHalf a)) (hpk : ∀ l < a.tauArr.n, peak a l < 1) (hn : NothingNeglected a)
    (hp : NonnegPhase a) {κ : ℝ} (hκ : 0 < κ)
    (hR : m < a.bdrf.length → ∀ i < nHalf a, (1 + if m = 0 then 1 else 0) * (∑ j ∈ range (nHalf a), weight E a j * node E a j * |rho (node E a i) (node E a j)|) ≤ 1 - κ)
    (hv : ExactMode a rho m up down v) (hbp : ∀ i < nHalf a, bcVal a.bpos m i = up (node E a i)) (hbn : ∀ i < nHalf a, bcVal a.bneg m i = down (node E a i))
    {ε : ℝ} (he : 0 < ε)
    (hd : ∀ l < a.tauArr.n, ∀ t, InLayer a l t → ∀ i < 2 * nHalf a,
      |∑ j ∈ range (2 * nHalf a), streamW (nHalf a) (weight E a) j * scatD (omegaStar a l) (nLeg a) (legStar a l) m (stream (nHalf a) (node E a) i)
          (stream (nHalf a) (node E a) j) * v t (stream (nHalf a) (node E a) j)
        - ∫ z in (-1 : ℝ)..1, scatD (omegaStar a l) (nLeg a) (legStar a l) m (stream (nHalf a) (node E a) i) z * v t z| ≤ ε * (1 - omegaStar a l))
    (hd' : m < a.bdrf.length → ∀ i < nHalf a,
      |(1 + if m = 0 then 1 else 0) * (∑ j ∈ range (nHalf a), weight E a j * node E a j * rho (node E a i) (node E a j) * v (bottom a) (-node E a j))
        - (1 + if m = 0 then 1 else 0) * ∫ z in (0 : ℝ)..1, z * rho (node E a i) z * v (bottom a) (-z)| ≤ ε * κ)
    {U : ℝ → ℕ → ℝ} (hU : IsSolution a (node E a) (weight E a) rho m U) :
    ∀ t, 0 ≤ t → t ≤ bottom a → ∀ i < 2 * nHalf a, |U t i - v t (stream (nHalf a) (node E a) i)| ≤ ε := by
  refine stability hacc hg hκ hR (q := omegaStar a) (fun l hl => (albedoStar_range hacc hl (hpk l hl)).2) (fun l hl i hi => ?_)
    (fun i hi => hv.cont.comp (f := fun t => (t, stream (nHalf a) (node E a) i)) (by fun_prop) fun t ht => ⟨ht, stream_mem hg hi⟩)
    (Q := fun l t i => (∫ z in (-1 : ℝ)..1, scatD (omegaStar a l) (nLeg a) (legStar a l) m (stream (nHalf a) (node E a) i) z * v t z)
      + beamX (omegaStar a l) (nLeg a) (legStar a l) a.I0 a.mu0 m (stream (nHalf a) (node E a) i) * Real.exp (-tauStar a l t / a.mu0))
    (fun l hl t h0 h1 i hi => ?_) (fun i hi => ?_)
    (S := fun i => (1 + if m = 0 then 1 else 0) * (∫ z in (0 : ℝ)..1, z * rho (node E a i) z * v (bottom a) (-z))
        + a.mu0 * a.I0 / Real.pi * rho (node E a i) a.mu0 * Real.exp (-bdryStar a a.tauArr.n / a.mu0)) (fun i hi => ?_) he (fun l hl t ht i hi => ?_)
    (fun hm i hi => ?_) hU
  · simp only [kernel_eq_scatD hn hl]
    exact scatD_abs_sum hacc hpk hn hp hg m hl hi
  · obtain ⟨m1, m2⟩ := stream_mem (a := a) hg hi
    obtain ⟨d, k, e⟩ := hv.ode l hl t h0 h1 _ m1 m2
    exact ⟨d, k, by rw [e]; ring⟩
  · have np := node_pos (a := a) hg hi
    rw [hv.top _ ⟨np.1, np.2.le⟩, hbn i hi]
  · have np := node_pos (a := a) hg hi
    rw [hv.bot _ ⟨np.1, np.2.le⟩, hbp i hi]
  · rw [beamSource_eq_beamX hn hl]
    simp only [kernel_eq_scatD hn hl]
    rw [add_sub_add_right_eq_sub]
    exact hd l hl t ht i hi
  · unfold reflected
    rw [add_sub_add_right_eq_sub]
    exact hd' hm i hi

/-! ### The quadrature -/

section
variable (hv : ExactMode a rho m up down v)
include hv

/-- The scattering integral, uniformly in depth and direction. -/
theorem mode_scatter_small (l : ℕ) {η : ℝ} (hη : 0 < η) : ∃ d : ℕ, ∀ n mu w, Rule d n mu w → ∀ t ∈ Set.Icc 0 (bottom a), ∀ y ∈ Set.Icc (-1 : ℝ) 1,
    |∑ j ∈ range (2 * n), streamW n w j * scatD (omegaStar a l) (nLeg a) (legStar a l) m y (stream n mu j) * v t (stream n mu j)
      - ∫ z in (-1 : ℝ)..1, scatD (omegaStar a l) (nLeg a) (legStar a l) m y z * v t z| ≤ η := by
  obtain ⟨M, hM⟩ := hv.bounded
  set D := scatD (omegaStar a l) (nLeg a) (legStar a l) m with hD
  have hDc : Continuous fun p : ℝ × ℝ => D p.1 p.2 := continuous_scatD_mode _ _ _ _
  obtain ⟨K, hK⟩ := (isCompact_Icc.prod isCompact_Icc : IsCompact (Set.Icc (-1 : ℝ) 1 ×ˢ Set.Icc (-1 : ℝ) 1)).exists_bound_of_continuousOn hDc.continuousOn
  have hf : ∀ s : ℝ, |s| = 1 → ContinuousOn (fun p : (Set.Icc 0 (bottom a) × Set.Icc (-1 : ℝ) 1) × ℝ => D p.1.2 (s * p.2) * v p.1.1 (s * p.2))
      (Set.univ ×ˢ Set.Ioc 0 1) := by
    intro s hs
    refine (Continuous.continuousOn ?_).mul (hv.cont.comp (f := fun p : (Set.Icc 0 (bottom a) × Set.Icc (-1 : ℝ) 1) × ℝ => ((p.1.1 : ℝ), s * p.2))
      (by fun_prop) fun p hp => ⟨p.1.1.2, ?_, ?_⟩)
    · exact hDc.comp (f := fun p : (Set.Icc 0 (bottom a) × Set.Icc (-1 : ℝ) 1) × ℝ => ((p.1.2 : ℝ), s * p.2)) (by fun_prop)
    · have := abs_le.1 (show |s * p.2| ≤ 1 by rw [abs_mul, hs, one_mul, abs_of_pos hp.2.1]; exact hp.2.2)
      exact this
    · have hs0 : s ≠ 0 := by rintro rfl; simp at hs
      exact mul_ne_zero hs0 hp.2.1.ne'
  have hb : ∀ s : ℝ, |s| = 1 → ∀ x : Set.Icc 0 (bottom a) × Set.Icc (-1 : ℝ) 1, ∀ z ∈ Set.Ioc (0 : ℝ) 1, |D x.2 (s * z) * v x.1 (s * z)| ≤ K * M := by
    intro s hs x z hz
    have h1 := abs_le.1 (show |s * z| ≤ 1 by rw [abs_mul, hs, one_mul, abs_of_pos hz.1]; exact hz.2)
    have hs0 : s ≠ 0 := by rintro rfl; simp at hs
    have k1 := hK (x.2, s * z) ⟨x.2.2, h1⟩
    have k2 := hM x.1 x.1.2 (s * z) h1 (mul_ne_zero hs0 hz.1.ne')
    rw [abs_mul]
    exact mul_le_mul k1 k2 (abs_nonneg _) ((norm_nonneg _).trans k1)
  have f1 := hf 1 abs_one
  have f2 := hf (-1) (by simp)
  have b1 := hb 1 abs_one
  have b2 := hb (-1) (by simp)
  simp only [one_mul, neg_mul] at f1 f2 b1 b2
  obtain ⟨d, hd⟩ := quad_uniform (f1.add f2) (M := K * M + K * M) (g := fun (x : Set.Icc 0 (bottom a) × Set.Icc (-1 : ℝ) 1) z => D x.2 z * v x.1 z + D x.2 (-z) * v x.1 (-z))
    (fun x z hz => (abs_add_le _ _).trans (add_le_add (b1 x z hz) (b2 x z hz))) hη
  refine ⟨d, fun n mu w hq t ht y hy => ?_⟩
  have := hd n mu w hq (⟨t, ht⟩, ⟨y, hy⟩)
  rw [integral_halves]
  · have e := sum_streams n mu w (fun z => D y z * v t z)
    simp only [mul_assoc] at e ⊢
    rw [e]
    exact this
  · refine intervalIntegrable_neg (intervalIntegrable_of_bounded (M := K * M) ?_ fun z hz => b2 (⟨t, ht⟩, ⟨y, hy⟩) z hz)
    exact f2.comp (f := fun z : ℝ => (((⟨t, ht⟩, ⟨y, hy⟩) : Set.Icc 0 (bottom a) × Set.Icc (-1 : ℝ) 1), z)) (by fun_prop) fun z hz => ⟨trivial, hz⟩
  · refine intervalIntegrable_of_bounded (M := K * M) ?_ fun z hz => b1 (⟨t, ht⟩, ⟨y, hy⟩) z hz
    exact f1.comp (f := fun z : ℝ => (((⟨t, ht⟩, ⟨y, hy⟩) : Set.Icc 0 (bottom a) × Set.Icc (-1 : ℝ) 1), z)) (by fun_prop) fun z hz => ⟨trivial, hz⟩

/-- The light reflected by the surface, uniformly in direction. -/
theorem mode_reflect_small (h0 : 0 ≤ bottom a) (hr : ContinuousOn (fun p : ℝ × ℝ => rho p.1 p.2) (Set.Icc 0 1 ×ˢ Set.Icc 0 1)) {η : ℝ} (hη : 0 < η) :
    ∃ d : ℕ, ∀ n mu w, Rule d n mu w → ∀ y ∈ Set.Icc (0 : ℝ) 1,
    |∑ j ∈ range n, w j * mu j * rho y (mu j) * v (bottom a) (-mu j) - ∫ z in (0 : ℝ)..1, z * rho y z * v (bottom a) (-z)| ≤ η := by
  obtain ⟨M, hM⟩ := hv.bounded
  obtain ⟨K, hK⟩ := (isCompact_Icc.prod isCompact_Icc : IsCompact (Set.Icc (0 : ℝ) 1 ×ˢ Set.Icc (0 : ℝ) 1)).exists_bound_of_continuousOn hr
  have hbm : bottom a ∈ Set.Icc 0 (bottom a) := ⟨h0, le_rfl⟩
  have hneg : ∀ z ∈ Set.Ioc (0 : ℝ) 1, -z ∈ Set.Icc (-1 : ℝ) 1 ∧ -z ≠ 0 := fun z hz =>
    ⟨⟨by linarith [hz.2], by linarith [hz.1]⟩, neg_ne_zero.2 hz.1.ne'⟩
  have hc : ContinuousOn (fun p : Set.Icc (0 : ℝ) 1 × ℝ => p.2 * rho p.1 p.2 * v (bottom a) (-p.2)) (Set.univ ×ˢ Set.Ioc 0 1) := by
    refine (ContinuousOn.mul (by fun_prop) ?_).mul ?_
    · exact hr.comp (f := fun p : Set.Icc (0 : ℝ) 1 × ℝ => ((p.1 : ℝ), p.2)) (by fun_prop) fun p hp => ⟨p.1.2, hp.2.1.le, hp.2.2⟩
    · exact hv.cont.comp (f := fun p : Set.Icc (0 : ℝ) 1 × ℝ => (bottom a, -p.2)) (by fun_prop) fun p hp => ⟨hbm, hneg _ hp.2⟩
  obtain ⟨d, hd⟩ := quad_uniform hc (M := K * M) (g := fun (x : Set.Icc (0 : ℝ) 1) z => z * rho x z * v (bottom a) (-z)) (fun x z hz => by
    have k1 := hK (x, z) ⟨x.2, hz.1.le, hz.2⟩
    have k2 := hM _ hbm _ (hneg z hz).1 (hneg z hz).2
    rw [abs_mul, abs_mul, abs_of_pos hz.1]
    refine mul_le_mul ((mul_le_of_le_one_left (abs_nonneg _) hz.2).trans k1) k2 (abs_nonneg _) ((norm_nonneg _).trans k1)) hη
  refine ⟨d, fun n mu w hq y hy => ?_⟩
  have := hd n mu w hq ⟨y, hy⟩
  simp only [mul_assoc] at this ⊢
  exact this

end

/-- What the discretised surface reflects. -/
theorem mode_reflectance_small (hr : ContinuousOn (fun p : ℝ × ℝ => rho p.1 p.2) (Set.Icc 0 1 ×ˢ Set.Icc 0 1)) {η : ℝ} (hη : 0 < η) :
    ∃ d : ℕ, ∀ n mu w, Rule d n mu w → ∀ y ∈ Set.Icc (0 : ℝ) 1,
    |(∑ j ∈ range n, w j * mu j * |rho y (mu j)|) - (∫ z in (0 : ℝ)..1, z * |rho y z|)| ≤ η := by
  obtain ⟨d, hd⟩ := quad_family (X := Set.Icc (0 : ℝ) 1) (g := fun x z => z * |rho x z|) (ContinuousOn.mul (by fun_prop)
    (hr.comp (f := fun p : Set.Icc (0 : ℝ) 1 × ℝ => ((p.1 : ℝ), p.2)) (by fun_prop) fun p hp => ⟨p.1.2, hp.2⟩).abs) hη
  refine ⟨d, fun n mu w hq y hy => ?_⟩
  have := hd n mu w hq ⟨y, hy⟩
  simp only [mul_assoc] at this ⊢
  exact this

end Pydisort

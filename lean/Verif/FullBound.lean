import Verif.FullLemmas

/-!
# The error of truncation, delta-M scaling and quadrature together
-/

namespace Pydisort
open Finset Spec MeasureTheory

variable {E : Ext} {a b : Args} {g : ℕ → ℕ → ℝ} {rho : ℝ → ℝ → ℝ} {up down : ℝ → ℝ} {v : ℝ → ℝ → ℝ}

theorem streamW_sum (hg : GaussContract E (nHalf b)) (hn : 0 < nHalf b) : ∑ j ∈ range (2 * nHalf b), streamW (nHalf b) (weight E b) j = 2 := by
  have h1 := sum_streams (nHalf b) (node E b) (weight E b) (fun _ => 1)
  simp only [mul_one] at h1
  have h2 := (rule_of_gauss hg (d := 0) (by omega)).sum_weight
  rw [h1, ← sum_mul, h2]
  norm_num

/-- The scattering and the beam source of the code against those of the true equation. -/
theorem full_defect (hacc : Accepted b) (hg : GaussContract E (nHalf b)) (hpk : ∀ l < b.tauArr.n, 0 ≤ peak b l ∧ peak b l < 1) (hn : NoNeglect b)
    (hT : Truncates a g b) (hgs : ∀ l < a.tauArr.n, PhaseSeries (g l)) {s : ℝ}
    (hs : ∀ l < a.tauArr.n, tailSum (g l) (nLeg b) + peak b l * (nLeg b : ℝ) ^ 2 ≤ s) (hs2 : s ≤ 1 / 2) (hsp : ∀ l < a.tauArr.n, peak b l ≤ s)
    {M G η : ℝ} (hM0 : 0 ≤ M) (hM : ∀ t ∈ Set.Icc 0 (bottom a), ∀ y ∈ Set.Icc (-1 : ℝ) 1, y ≠ 0 → |v t y| ≤ M)
    (hG : ∀ l < a.tauArr.n, ∀ x ∈ Set.Icc (-1 : ℝ) 1, ∀ y ∈ Set.Icc (-1 : ℝ) 1, |meanPhase (g l) x y| ≤ G)
    (hq : ∀ l < a.tauArr.n, ∀ t ∈ Set.Icc 0 (bottom a), ∀ y ∈ Set.Icc (-1 : ℝ) 1,
      |∑ j ∈ range (2 * nHalf b), streamW (nHalf b) (weight E b) j * meanPhase (g l) y (stream (nHalf b) (node E b) j) * v t (stream (nHalf b) (node E b) j)
        - ∫ z in (-1 : ℝ)..1, meanPhase (g l) y z * v t z| ≤ η)
    {K : ℝ} (hK : a.I0 / (2 * Real.pi) * (1 / 2 + G / 2 * (bottom a / a.mu0)) ≤ K)
    {l : ℕ} (hl : l < a.tauArr.n) {t : ℝ} (ht : InLayer a l t) {i : ℕ} (hi : i < 2 * nHalf b) :
    |∑ j ∈ range (2 * nHalf b), streamW (nHalf b) (weight E b) j * kernel b 0 l (stream (nHalf b) (node E b) i) (stream (nHalf b) (node E b) j)
          * v t (stream (nHalf b) (node E b) j) + beamSource b 0 l (stream (nHalf b) (node E b) i) * Real.exp (-tauStar b l t / b.mu0)
      - (a.omega.get l / 2 * (∫ z in (-1 : ℝ)..1, meanPhase (g l) (stream (nHalf b) (node E b) i) z * v t z)
          + a.omega.get l * a.I0 / (4 * Real.pi) * meanPhase (g l) (stream (nHalf b) (node E b) i) (-a.mu0) * Real.exp (-t / a.mu0)
          - a.omega.get l * peak b l * v t (stream (nHalf b) (node E b) i)) / scale b l| ≤ 2 * (s * (2 * M + K) + η / 2) := by
  have hl' : l < b.tauArr.n := by rwa [hT.tau]
  obtain ⟨hy, hy0⟩ := stream_mem (a := b) hg hi
  set y := stream (nHalf b) (node E b) i with hyd
  have hnp : 0 < nHalf b := streams_pos hacc
  have hsc := Args.scale_pos hacc hl'
  have ho := hacc.omega l hl'
  have hp := hpk l hl'
  have hps := hsp l hl
  have hsb : scale b l = 1 - a.omega.get l * peak b l := by unfold scale; rw [hT.omega]
  rw [hT.omega] at ho
  have hop : a.omega.get l * peak b l ≤ s := (mul_le_of_le_one_left hp.1 ho.2.le).trans hps
  have hop0 : 0 ≤ a.omega.get l * peak b l := mul_nonneg ho.1 hp.1
  have hsc2 : 1 / 2 ≤ scale b l := by rw [hsb]; linarith
  have hs0 : 0 ≤ s := hp.1.trans hps
  have hbb : bottom b = bottom a := by unfold bottom; rw [hT.tau]
  have htb : InLayer b l t := by unfold InLayer; rw [hT.tau]; exact ht
  have htI : t ∈ Set.Icc 0 (bottom a) := by
    have b1 := bdry_le hacc (Nat.zero_le l) hl'.le
    have b2 := bdry_le hacc (show l + 1 ≤ b.tauArr.n from hl') le_rfl
    rw [bdry_zero] at b1
    rw [bdry_bottom hacc, hbb] at b2
    exact ⟨b1.trans htb.1, htb.2.trans b2⟩
  -- the kernel
  have hker : ∀ z ∈ Set.Icc (-1 : ℝ) 1, |scale b l * kernel b 0 l y z - a.omega.get l / 2 * meanPhase (g l) y z| ≤ s / 2 := fun z hz =>
    kernel_near hT hacc hn hl (hgs l hl) hp.1 hp.2 (hs l hl) hy hz
  have A1 : |∑ j ∈ range (2 * nHalf b), streamW (nHalf b) (weight E b) j * (scale b l * kernel b 0 l y (stream (nHalf b) (node E b) j)
      - a.omega.get l / 2 * meanPhase (g l) y (stream (nHalf b) (node E b) j)) * v t (stream (nHalf b) (node E b) j)| ≤ s * M := by
    refine (abs_sum_le_sum_abs _ _).trans ((sum_le_sum (g := fun j => streamW (nHalf b) (weight E b) j * (s / 2 * M)) fun j hj => ?_).trans (le_of_eq ?_))
    · obtain ⟨m1, m2⟩ := stream_mem (a := b) hg (mem_range.1 hj)
      rw [abs_mul, abs_mul, abs_of_pos (streamW_pos hg (mem_range.1 hj)), mul_assoc]
      exact mul_le_mul_of_nonneg_left (mul_le_mul (hker _ m1) (hM t htI _ m1 m2) (abs_nonneg _) (by linarith)) (streamW_pos hg (mem_range.1 hj)).le
    · rw [← sum_mul, streamW_sum hg hnp]; ring
  have A2 : |a.omega.get l / 2 * (∑ j ∈ range (2 * nHalf b), streamW (nHalf b) (weight E b) j * meanPhase (g l) y (stream (nHalf b) (node E b) j)
      * v t (stream (nHalf b) (node E b) j) - ∫ z in (-1 : ℝ)..1, meanPhase (g l) y z * v t z)| ≤ η / 2 := by
    have h1 := hq l hl t htI y hy
    rw [abs_mul, abs_of_nonneg (by linarith [ho.1])]
    have h2 : a.omega.get l / 2 ≤ 1 / 2 := by linarith [ho.2]
    calc _ ≤ 1 / 2 * η := mul_le_mul h2 h1 (abs_nonneg _) (by norm_num)
      _ = _ := by ring
  have A3 : |scale b l * (beamSource b 0 l y * Real.exp (-tauStar b l t / b.mu0))
      - a.omega.get l * a.I0 / (4 * Real.pi) * meanPhase (g l) y (-a.mu0) * Real.exp (-t / a.mu0)| ≤ s * K := by
    rw [scaled_beam hn hl', hT.beam, hT.angle]
    rcases (hacc.beam).eq_or_lt with h0 | h0
    · rw [hT.beam] at h0
      rw [← h0] at hK ⊢
      simp only [zero_div, zero_mul, mul_zero, sub_zero, abs_zero] at hK ⊢
      positivity
    · have hmu := (hacc.beamDir h0).1
      rw [hT.angle] at hmu
      rw [hT.beam] at h0
      have hm0 : -a.mu0 ∈ Set.Icc (-1 : ℝ) 1 := ⟨by linarith, by linarith⟩
      have n1 := tauStar_near hacc (fun k hk => ⟨(hpk k hk).1, hsp k (by rwa [hT.tau] at hk)⟩) hl' htb
      have ht0 : 0 ≤ tauStar b l t := by nlinarith [htI.1]
      obtain ⟨e1, e2, e3⟩ := exp_near (x := tauStar b l t) (y := t) (c := s * bottom a) (m := a.mu0) ht0 n1.1 (by nlinarith [htI.2]) hmu.1
      have k1 := hker _ hm0
      have k2 := hG l hl y hy _ hm0
      have hG0 : 0 ≤ G := (abs_nonneg _).trans k2
      have k3 : |a.omega.get l / 2 * meanPhase (g l) y (-a.mu0)| ≤ G / 2 := by
        rw [abs_mul, abs_of_nonneg (by linarith [ho.1])]
        calc _ ≤ 1 / 2 * G := mul_le_mul (by linarith [ho.2]) k2 (abs_nonneg _) (by norm_num)
          _ = _ := by ring
      set X := scale b l * kernel b 0 l y (-a.mu0) with hX
      set P := a.omega.get l / 2 * meanPhase (g l) y (-a.mu0) with hP
      set e := Real.exp (-tauStar b l t / a.mu0)
      set e' := Real.exp (-t / a.mu0)
      have hpi := Real.pi_pos
      have e4 : scale b l * (a.I0 / (2 * Real.pi) * kernel b 0 l y (-a.mu0) * e) - a.omega.get l * a.I0 / (4 * Real.pi) * meanPhase (g l) y (-a.mu0) * e'
          = a.I0 / (2 * Real.pi) * ((X - P) * e + P * (e - e')) := by
        rw [hX, hP]; field_simp; ring
      rw [e4, abs_mul, abs_of_pos (show 0 < a.I0 / (2 * Real.pi) by positivity)]
      have he0 : 0 < e := Real.exp_pos _
      have h5 : |(X - P) * e + P * (e - e')| ≤ s / 2 * 1 + G / 2 * (s * bottom a / a.mu0) := by
        refine (abs_add_le _ _).trans (add_le_add ?_ ?_)
        · rw [abs_mul, abs_of_pos he0]
          exact mul_le_mul k1 e3 he0.le (by linarith)
        · rw [abs_mul, abs_of_nonneg e1]
          exact mul_le_mul k3 e2 e1 (by linarith)
      calc _ ≤ a.I0 / (2 * Real.pi) * (s / 2 * 1 + G / 2 * (s * bottom a / a.mu0)) := mul_le_mul_of_nonneg_left h5 (by positivity)
        _ = s * (a.I0 / (2 * Real.pi) * (1 / 2 + G / 2 * (bottom a / a.mu0))) := by ring
        _ ≤ s * K := mul_le_mul_of_nonneg_left hK hs0
  have A4 : |a.omega.get l * peak b l * v t y| ≤ s * M := by
    rw [abs_mul, abs_of_nonneg hop0]
    exact mul_le_mul hop (hM t htI y hy hy0) (abs_nonneg _) hs0
  -- together
  have eS : scale b l * ∑ j ∈ range (2 * nHalf b), streamW (nHalf b) (weight E b) j * kernel b 0 l y (stream (nHalf b) (node E b) j) * v t (stream (nHalf b) (node E b) j)
      = ∑ j ∈ range (2 * nHalf b), streamW (nHalf b) (weight E b) j * (scale b l * kernel b 0 l y (stream (nHalf b) (node E b) j)
          - a.omega.get l / 2 * meanPhase (g l) y (stream (nHalf b) (node E b) j)) * v t (stream (nHalf b) (node E b) j)
        + a.omega.get l / 2 * ∑ j ∈ range (2 * nHalf b), streamW (nHalf b) (weight E b) j * meanPhase (g l) y (stream (nHalf b) (node E b) j)
          * v t (stream (nHalf b) (node E b) j) := by
    rw [mul_sum, mul_sum, ← sum_add_distrib]
    exact sum_congr rfl fun j _ => by ring
  set S := ∑ j ∈ range (2 * nHalf b), streamW (nHalf b) (weight E b) j * kernel b 0 l y (stream (nHalf b) (node E b) j) * v t (stream (nHalf b) (node E b) j)
  set S1 := ∑ j ∈ range (2 * nHalf b), streamW (nHalf b) (weight E b) j * (scale b l * kernel b 0 l y (stream (nHalf b) (node E b) j)
      - a.omega.get l / 2 * meanPhase (g l) y (stream (nHalf b) (node E b) j)) * v t (stream (nHalf b) (node E b) j)
  set S2 := ∑ j ∈ range (2 * nHalf b), streamW (nHalf b) (weight E b) j * meanPhase (g l) y (stream (nHalf b) (node E b) j) * v t (stream (nHalf b) (node E b) j)
  set I := ∫ z in (-1 : ℝ)..1, meanPhase (g l) y z * v t z
  set B := beamSource b 0 l y * Real.exp (-tauStar b l t / b.mu0)
  set B' := a.omega.get l * a.I0 / (4 * Real.pi) * meanPhase (g l) y (-a.mu0) * Real.exp (-t / a.mu0)
  set W := a.omega.get l * peak b l * v t y
  have tot : |scale b l * (S + B - (a.omega.get l / 2 * I + B' - W) / scale b l)| ≤ s * (2 * M + K) + η / 2 := by
    have e : scale b l * (S + B - (a.omega.get l / 2 * I + B' - W) / scale b l)
        = S1 + a.omega.get l / 2 * (S2 - I) + (scale b l * B - B') + W := by
      have : scale b l * ((a.omega.get l / 2 * I + B' - W) / scale b l) = a.omega.get l / 2 * I + B' - W := mul_div_cancel₀ _ hsc.ne'
      linear_combination eS - this
    rw [e]
    have h1 := abs_add_le (S1 + a.omega.get l / 2 * (S2 - I) + (scale b l * B - B')) W
    have h2 := abs_add_le (S1 + a.omega.get l / 2 * (S2 - I)) (scale b l * B - B')
    have h3 := abs_add_le S1 (a.omega.get l / 2 * (S2 - I))
    linarith
  rw [abs_mul, abs_of_pos hsc] at tot
  have := abs_nonneg (S + B - (a.omega.get l / 2 * I + B' - W) / scale b l)
  nlinarith

theorem full_row (hacc : Accepted b) (hg : GaussContract E (nHalf b)) (hpk : ∀ l < b.tauArr.n, 0 ≤ peak b l ∧ peak b l < 1) (hn : NoNeglect b)
    (hT : Truncates a g b) (hgs : ∀ l < a.tauArr.n, PhaseSeries (g l)) (hpos : NonnegMean a g) {s : ℝ}
    (hs : ∀ l < a.tauArr.n, tailSum (g l) (nLeg b) + peak b l * (nLeg b : ℝ) ^ 2 ≤ s) (hs4 : ∀ l < a.tauArr.n, 4 * s ≤ 1 - a.omega.get l)
    {l : ℕ} (hl : l < b.tauArr.n) {i : ℕ} (hi : i < 2 * nHalf b) :
    ∑ j ∈ range (2 * nHalf b), streamW (nHalf b) (weight E b) j * |kernel b 0 l (stream (nHalf b) (node E b) i) (stream (nHalf b) (node E b) j)|
      ≤ 1 - (1 - a.omega.get l) / 2 := by
  have hl' : l < a.tauArr.n := by rwa [hT.tau] at hl
  obtain ⟨hy, -⟩ := stream_mem (a := b) hg hi
  set y := stream (nHalf b) (node E b) i
  have hsc := Args.scale_pos hacc hl
  have hp := hpk l hl
  have hrow := row_sum_kernel hacc hg hp.2 y
  rw [effAlbedo_eq_omegaStar hn hl] at hrow
  have ho := hacc.omega l hl
  have h1 : ∀ j ∈ range (2 * nHalf b), streamW (nHalf b) (weight E b) j * |kernel b 0 l y (stream (nHalf b) (node E b) j)|
      ≤ streamW (nHalf b) (weight E b) j * kernel b 0 l y (stream (nHalf b) (node E b) j) + streamW (nHalf b) (weight E b) j * (s / scale b l) := by
    intro j hj
    rw [← mul_add]
    refine mul_le_mul_of_nonneg_left ?_ (streamW_pos hg (mem_range.1 hj)).le
    have hz := (stream_mem (a := b) hg (mem_range.1 hj)).1
    have k1 := (abs_le.1 (kernel_near hT hacc hn hl' (hgs l hl') hp.1 hp.2 (hs l hl') hy hz)).1
    have k2 := hpos l hl' y hy _ hz
    rw [hT.omega] at ho
    have k3 : 0 ≤ a.omega.get l / 2 * meanPhase (g l) y (stream (nHalf b) (node E b) j) := mul_nonneg (by linarith [ho.1]) k2
    have k4 : -(s / scale b l) / 2 ≤ kernel b 0 l y (stream (nHalf b) (node E b) j) := by
      rw [neg_div, div_div, neg_le_iff_add_nonneg, ← mul_le_mul_iff_right₀ hsc, mul_zero, mul_add, show scale b l * (s / (scale b l * 2)) = s / 2 by field_simp]
      linarith
    refine abs_le.2 ⟨by linarith, ?_⟩
    have : 0 ≤ s / scale b l := div_nonneg (le_trans (add_nonneg (tailSum_nonneg _ _) (mul_nonneg hp.1 (by positivity))) (hs l hl')) hsc.le
    linarith
  refine (sum_le_sum h1).trans ?_
  rw [sum_add_distrib, hrow, ← sum_mul, streamW_sum hg (streams_pos hacc)]
  have h4 := hs4 l hl'
  have hsb : scale b l = 1 - a.omega.get l * peak b l := by unfold scale; rw [hT.omega]
  rw [hT.omega] at ho
  have hop0 : 0 ≤ a.omega.get l * peak b l := mul_nonneg ho.1 hp.1
  rw [← mul_le_mul_iff_right₀ hsc]
  have e : scale b l * (omegaStar b l + 2 * (s / scale b l)) = (1 - peak b l) * a.omega.get l + 2 * s := by
    unfold omegaStar; rw [hT.omega]; field_simp
  rw [e, hsb]
  nlinarith [ho.2]

/-- Everything that the code approximates, at once. -/
theorem full_bound (hacc : Accepted b) (hg : GaussContract E (nHalf b)) (hpk : ∀ l < b.tauArr.n, 0 ≤ peak b l ∧ peak b l < 1) (hn : NoNeglect b)
    (hT : Truncates a g b) (hgs : ∀ l < a.tauArr.n, PhaseSeries (g l)) (hpos : NonnegMean a g) (hv : FullSolution a g rho up down v)
    (hsm : Sampled b (node E b) up down) {s : ℝ}
    (hs : ∀ l < a.tauArr.n, tailSum (g l) (nLeg b) + peak b l * (nLeg b : ℝ) ^ 2 ≤ s) (hs4 : ∀ l < a.tauArr.n, 4 * s ≤ 1 - a.omega.get l) (hs2 : s ≤ 1 / 2)
    (hsp : ∀ l < a.tauArr.n, peak b l ≤ s)
    {M G η : ℝ} (hM0 : 0 ≤ M) (hM : ∀ t ∈ Set.Icc 0 (bottom a), ∀ y ∈ Set.Icc (-1 : ℝ) 1, y ≠ 0 → |v t y| ≤ M)
    (hG : ∀ l < a.tauArr.n, ∀ x ∈ Set.Icc (-1 : ℝ) 1, ∀ y ∈ Set.Icc (-1 : ℝ) 1, |meanPhase (g l) x y| ≤ G)
    (hq : ∀ l < a.tauArr.n, ∀ t ∈ Set.Icc 0 (bottom a), ∀ y ∈ Set.Icc (-1 : ℝ) 1,
      |∑ j ∈ range (2 * nHalf b), streamW (nHalf b) (weight E b) j * meanPhase (g l) y (stream (nHalf b) (node E b) j) * v t (stream (nHalf b) (node E b) j)
        - ∫ z in (-1 : ℝ)..1, meanPhase (g l) y z * v t z| ≤ η)
    {K : ℝ} (hK : a.I0 / (2 * Real.pi) * (1 / 2 + G / 2 * (bottom a / a.mu0)) ≤ K)
    {κ : ℝ} (hκ : 0 < κ) (hR : ∀ i < nHalf b, 2 * (∑ j ∈ range (nHalf b), weight E b j * node E b j * |rho (node E b i) (node E b j)|) ≤ 1 - κ)
    {η' : ℝ} (hq' : ∀ y ∈ Set.Icc (0 : ℝ) 1, |2 * ∑ j ∈ range (nHalf b), weight E b j * node E b j * rho y (node E b j) * v (bottom a) (-node E b j)
      - reflectExact rho (v (bottom a)) y| ≤ η') {K' : ℝ} (hK' : ∀ x ∈ Set.Icc (0 : ℝ) 1, ∀ y ∈ Set.Icc (0 : ℝ) 1, |rho x y| ≤ K') {ε : ℝ} (hε : 0 < ε)
    (he : ∀ l < a.tauArr.n, 2 * (s * (2 * M + K) + η / 2) ≤ ε * ((1 - a.omega.get l) / 2)) (he' : η' + a.I0 / Real.pi * K' * (s * bottom a) ≤ ε * κ)
    {U : ℝ → ℕ → ℝ} (hU : IsSolution b (node E b) (weight E b) rho 0 U) :
    ∀ t, 0 ≤ t → t ≤ bottom a → ∀ i < 2 * nHalf b, |U t i - v t (stream (nHalf b) (node E b) i)| ≤ ε := by
  have hbb : bottom b = bottom a := by unfold bottom; rw [hT.tau]
  rw [← hbb]
  have hw : ∀ l < b.tauArr.n, 0 < 1 - a.omega.get l := fun l hl => by
    have := (hacc.omega l hl).2; rw [hT.omega] at this; linarith
  refine stability hacc hg hκ (fun _ i hi => ?_) (q := fun l => 1 - (1 - a.omega.get l) / 2) (fun l hl => by have := hw l hl; linarith)
    (fun l hl i hi => full_row hacc hg hpk hn hT hgs hpos hs hs4 hl hi) (fun i hi => ?_)
    (Q := fun l t i => (a.omega.get l / 2 * (∫ z in (-1 : ℝ)..1, meanPhase (g l) (stream (nHalf b) (node E b) i) z * v t z)
          + a.omega.get l * a.I0 / (4 * Real.pi) * meanPhase (g l) (stream (nHalf b) (node E b) i) (-a.mu0) * Real.exp (-t / a.mu0)
          - a.omega.get l * peak b l * v t (stream (nHalf b) (node E b) i)) / scale b l)
    (fun l hl t h0 h1 i hi => ?_) (fun i hi => ?_)
    (S := fun i => reflectExact rho (v (bottom a)) (node E b i) + a.mu0 * a.I0 / Real.pi * rho (node E b i) a.mu0 * Real.exp (-bottom a / a.mu0))
    (fun i hi => ?_) hε (fun l hl t ht i hi => ?_) (fun _ i hi => ?_) hU
  · have := hR i hi
    rw [if_pos rfl, one_add_one_eq_two]
    exact this
  · obtain ⟨m1, m2⟩ := stream_mem (a := b) hg hi
    rw [hbb]
    exact hv.cont.comp (continuousOn_id.prodMk continuousOn_const) fun t ht => ⟨ht, m1, m2⟩
  · obtain ⟨m1, m2⟩ := stream_mem (a := b) hg hi
    rw [hT.tau] at hl h0 h1
    obtain ⟨d, k, e⟩ := hv.ode l hl t h0 h1 _ m1 m2
    refine ⟨d, k, ?_⟩
    have hl' : l < b.tauArr.n := by rwa [hT.tau]
    have hsc := Args.scale_pos hacc hl'
    have hsrc : source b l t = source a l t := by unfold source; rw [hT.source]
    rw [e, if_pos rfl, mul_sub, mul_div_cancel₀ _ hsc.ne', hsrc, hT.omega]
    unfold rteFull scale
    rw [hT.omega]
    ring
  · have np := node_pos (a := b) hg hi
    rw [hv.top _ ⟨np.1, np.2.le⟩, hsm.top i hi]
  · have np := node_pos (a := b) hg hi
    rw [hbb, hv.bot _ ⟨np.1, np.2.le⟩, hsm.bottom i hi]
    simp only [hT.surface]
  · rw [hT.tau] at hl
    have ht' : InLayer a l t := by unfold InLayer at ht ⊢; rwa [hT.tau] at ht
    refine (full_defect hacc hg hpk hn hT hgs hs hs2 hsp hM0 hM hG hq hK hl ht' hi).trans ((he l hl).trans (le_of_eq ?_))
    ring
  · have np := node_pos (a := b) hg hi
    have hy : node E b i ∈ Set.Icc (0 : ℝ) 1 := ⟨np.1.le, np.2.le⟩
    have h1 := hq' _ hy
    have h2 : |a.mu0 * a.I0 / Real.pi * rho (node E b i) a.mu0 * Real.exp (-bdryStar b b.tauArr.n / a.mu0)
        - a.mu0 * a.I0 / Real.pi * rho (node E b i) a.mu0 * Real.exp (-bottom a / a.mu0)| ≤ a.I0 / Real.pi * K' * (s * bottom a) := by
      rcases (hacc.beam).eq_or_lt with h0 | h0
      · rw [hT.beam] at h0
        rw [← h0]; simp
      · have hmu := (hacc.beamDir h0).1
        rw [hT.angle] at hmu
        rw [hT.beam] at h0
        have hpi := Real.pi_pos
        have hmu1 := hmu.1
        have n1 := bdryStar_near hacc (φ := s) (fun k hk => ⟨(hpk k hk).1, hsp k (by rwa [hT.tau] at hk)⟩) le_rfl
        rw [bdry_bottom hacc, hbb] at n1
        have hb0 : 0 < bottom a := by rw [← hbb]; exact bottom_pos hacc
        obtain ⟨e1, e2, e3⟩ := exp_near (x := bdryStar b b.tauArr.n) (y := bottom a) (c := s * bottom a) (m := a.mu0) (by nlinarith) n1.1 (by linarith) hmu.1
        rw [← mul_sub, abs_mul, abs_mul, abs_of_nonneg e1, abs_of_pos (show 0 < a.mu0 * a.I0 / Real.pi by positivity)]
        have k := hK' _ hy a.mu0 ⟨hmu.1.le, hmu.2⟩
        have k0 : 0 ≤ K' := (abs_nonneg _).trans k
        calc _ ≤ a.mu0 * a.I0 / Real.pi * K' * (s * bottom a / a.mu0) := by gcongr
          _ = _ := by field_simp
    unfold reflected
    rw [if_pos rfl, one_add_one_eq_two, hbb, hT.beam, hT.angle]
    rw [show ∀ A B C D : ℝ, A + B - (C + D) = (A - C) + (B - D) by intros; ring]
    exact (abs_add_le _ _).trans (by linarith)

end Pydisort

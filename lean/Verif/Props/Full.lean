import Verif.FullBound

/-!
# C115: with more and more Legendre coefficients and streams the results converge to the solution with the whole phase function

Specification used: `Spec.FullSolution`, `Spec.PhaseSeries`, `Spec.NonnegMean`, `Spec.Truncates`, `Spec.VisibleScattering`, `Spec.Sampled`, `Spec.AbsorbingSurface`.
-/

namespace Pydisort
open Finset Spec MeasureTheory

variable {a b : Args} {g : ℕ → ℕ → ℝ} {rho : ℝ → ℝ → ℝ} {up down : ℝ → ℝ} {v : ℝ → ℝ → ℝ}

theorem exists_pos_le (n : ℕ) {f : ℕ → ℝ} (hf : ∀ l < n, 0 < f l) : ∃ c > 0, ∀ l < n, c ≤ f l := by
  induction n with
  | zero => exact ⟨1, one_pos, fun l hl => absurd hl (Nat.not_lt_zero l)⟩
  | succ n ih =>
    obtain ⟨c, hc, h⟩ := ih fun l hl => hf l (by omega)
    refine ⟨min c (f n), lt_min hc (hf n (by omega)), fun l hl => ?_⟩
    rcases Nat.lt_succ_iff_lt_or_eq.1 hl with h1 | h1
    · exact (min_le_left _ _).trans (h l h1)
    · rw [h1]; exact min_le_right _ _

theorem exists_small {C e : ℝ} (hC : 0 ≤ C) (he : 0 < e) : ∃ s > 0, s * C ≤ e :=
  ⟨e / (C + 1), by positivity, by rw [div_mul_eq_mul_div, div_le_iff₀ (by positivity)]; nlinarith⟩

theorem noNeglect_of_visible (hacc : Accepted b) (hT : Truncates a g b) {s : ℝ} (hs : ∀ l < a.tauArr.n, a.omega.get l = 0 ∨ s < a.omega.get l - 2 / 10 ^ 8)
    (hpk : ∀ l < a.tauArr.n, 0 ≤ peak b l ∧ peak b l ≤ s ∧ peak b l < 1) : NoNeglect b := by
  intro l hl
  have hsc := Args.scale_pos hacc hl
  have ho := hacc.omega l hl
  have hnp : 0 < nLeg b := by
    have := hacc.nLeg.1
    unfold nLeg; omega
  have hl' : l < a.tauArr.n := by rwa [hT.tau] at hl
  have hp := hpk l hl'
  rcases hs l hl' with h | h
  · left
    unfold omegaStar
    rw [hT.omega, h]; simp
  · right
    refine ⟨0, le_rfl, hnp, ?_⟩
    have e : legStar b l 0 = 1 := by
      unfold legStar leg
      rw [if_pos rfl]
      exact div_self (by linarith [hp.2.2])
    rw [e]
    have h1 : 2 / 10 ^ 8 < omegaStar b l := by
      unfold omegaStar
      rw [lt_div_iff₀ hsc]
      unfold scale at hsc ⊢
      rw [hT.omega] at ho hsc ⊢
      nlinarith [mul_nonneg ho.1 hp.1]
    have h2 : (0 : ℝ) < omegaStar b l := lt_trans (by norm_num) h1
    rw [abs_of_pos (by positivity)]
    norm_num at h1 ⊢
    linarith

theorem direct_near (hacc : Accepted b) {φ : ℝ} (hφ : ∀ l < b.tauArr.n, 0 ≤ peak b l ∧ peak b l ≤ φ) (hφ1 : φ ≤ 1) {l : ℕ} (hl : l < b.tauArr.n) {t : ℝ}
    (ht : InLayer b l t) (ht0 : 0 ≤ t) (ht1 : t ≤ bottom b) :
    |b.I0 * b.mu0 * Real.exp (-tauStar b l t / b.mu0) - b.I0 * b.mu0 * Real.exp (-t / b.mu0)| ≤ φ * (b.I0 * bottom b) := by
  have hφ0 := (hφ l hl).1.trans (hφ l hl).2
  rcases hacc.beam.eq_or_lt with h0 | h0
  · rw [← h0]; simp
  · have hmu := (hacc.beamDir h0).1.1
    have n1 := tauStar_near hacc hφ hl ht
    obtain ⟨y1, y2, y3⟩ := exp_near (x := tauStar b l t) (y := t) (c := φ * bottom b) (m := b.mu0) (by nlinarith) n1.1 (by nlinarith) hmu
    rw [← mul_sub, abs_mul, abs_of_nonneg y1, abs_of_pos (by positivity)]
    calc _ ≤ b.I0 * b.mu0 * (φ * bottom b / b.mu0) := by gcongr
      _ = φ * (b.I0 * bottom b) := by field_simp

/-- **C115.** Let `v` solve the azimuthally averaged transfer equation with the whole phase functions, unscaled, above a surface that absorbs some of the light. For every accuracy `ε` there
are a number of Legendre coefficients and a bound `η` such that every call that keeps at least so many coefficients, and whose delta-M peaks are at most `η` over the square of their number
(they may be zero), returns azimuthally averaged intensities within `ε` of `v` at every depth and stream. The upward flux and the diffuse downward flux are within `ε` of the exact ones, and
the direct beam is exact. -/
theorem C115_full_phase_function (hacc : Accepted a) (hvis : VisibleScattering a) (hgs : ∀ l < a.tauArr.n, PhaseSeries (g l)) (hpos : NonnegMean a g)
    (hsf : AbsorbingSurface rho) (hv : FullSolution a g rho up down v) {ε : ℝ} (hε : 0 < ε) :
    ∃ N₀ : ℕ, ∃ η > 0, ∀ (E : Ext) (b : Args) (J : Junk) (R : Solved) (F : Fields) (rhos : ℕ → ℝ → ℝ → ℝ), Truncates a g b → N₀ ≤ nLeg b →
      (∀ l < a.tauArr.n, peak b l ≤ η / (nLeg b : ℝ) ^ 2) → Sampled b (node E b) up down → SurfaceIs b rhos → rhos 0 = rho → Azimuthless b.bpos → Azimuthless b.bneg →
      Rescalable b → Sound E b → pydisort E J b = .ok R → Evaluates b R F →
      ∀ t, 0 ≤ t → t ≤ bottom a → (∀ i < 2 * nHalf b, |F.u0 t i - v t (stream (nHalf b) (node E b) i)| ≤ ε)
        ∧ |F.up t - upFluxExact (v t)| ≤ ε ∧ |F.diffuse t - downFluxExact (v t)| ≤ ε ∧ F.direct t = a.I0 * a.mu0 * Real.exp (-t / a.mu0) := by
  have hpi := Real.two_le_pi
  have hbot : 0 < bottom a := bottom_pos hacc
  obtain ⟨ν, hν, hνl⟩ := exists_pos_le a.tauArr.n (f := fun l => 1 - a.omega.get l) fun l hl => by linarith [(hacc.omega l hl).2]
  obtain ⟨θ, hθ, hθl⟩ := exists_pos_le a.tauArr.n (f := fun l => if a.omega.get l = 0 then 1 else (a.omega.get l - 2 / 10 ^ 8) / 2) fun l hl => by
    split_ifs with h
    · exact one_pos
    · rcases hvis l hl with h1 | h1
      · exact absurd h1 h
      · linarith
  obtain ⟨κ, hκ, habs⟩ := hsf.absorbs
  obtain ⟨M₀, hM₀⟩ := hv.bounded
  obtain ⟨G, hG0, hGl⟩ := exists_layer_bound (fun l => ∑' k : ℕ, (2 * (k : ℝ) + 1) * |g l k|) a.tauArr.n
  obtain ⟨K', hK'⟩ := (isCompact_Icc.prod isCompact_Icc : IsCompact (Set.Icc (0 : ℝ) 1 ×ˢ Set.Icc (0 : ℝ) 1)).exists_bound_of_continuousOn hsf.cont
  have hK'0 : 0 ≤ K' := (norm_nonneg _).trans (hK' (0, 0) ⟨⟨le_rfl, zero_le_one⟩, ⟨le_rfl, zero_le_one⟩⟩)
  set M := max M₀ 0 with hM
  have hM0 : 0 ≤ M := le_max_right _ _
  set K := max (a.I0 / (2 * Real.pi) * (1 / 2 + G / 2 * (bottom a / a.mu0))) 0 with hK
  have hK0 : 0 ≤ K := le_max_right _ _
  set ε' := ε / (2 * Real.pi) with hε'
  have he0 : 0 < ε' := by positivity
  have he1 : Real.pi * ε' = ε / 2 := by rw [hε']; field_simp
  have he2 : ε' ≤ ε := by nlinarith [Real.pi_pos]
  have hI0 := hacc.beam
  obtain ⟨s₁, p₁, q₁⟩ := exists_small (C := 2 * M + K) (e := ε' * ν / 8) (by positivity) (by positivity)
  obtain ⟨s₂, p₂, q₂⟩ := exists_small (C := a.I0 / Real.pi * K' * bottom a) (e := ε' * (κ / 2) / 2) (by positivity) (by positivity)
  obtain ⟨s₃, p₃, q₃⟩ := exists_small (C := a.I0 * bottom a) (e := ε / 4) (by positivity) (by positivity)
  set s := min (min s₁ (min s₂ s₃)) (min (1 / 2) (min (ν / 4) θ)) with hs
  have s0 : 0 < s := by simp only [hs, lt_min_iff]; exact ⟨⟨p₁, p₂, p₃⟩, by norm_num, by positivity, hθ⟩
  have r₁ : s ≤ s₁ := (min_le_left _ _).trans (min_le_left _ _)
  have r₂ : s ≤ s₂ := (min_le_left _ _).trans ((min_le_right _ _).trans (min_le_left _ _))
  have r₃ : s ≤ s₃ := (min_le_left _ _).trans ((min_le_right _ _).trans (min_le_right _ _))
  have r₄ : s ≤ 1 / 2 := (min_le_right _ _).trans (min_le_left _ _)
  have r₅ : s ≤ ν / 4 := (min_le_right _ _).trans ((min_le_right _ _).trans (min_le_left _ _))
  have r₆ : s ≤ θ := (min_le_right _ _).trans ((min_le_right _ _).trans (min_le_right _ _))
  clear_value s
  have hsc : ∀ l < a.tauArr.n, ∃ d : ℕ, ∀ n mu w, Rule d n mu w → ∀ t ∈ Set.Icc 0 (bottom a), ∀ y ∈ Set.Icc (-1 : ℝ) 1,
      |∑ j ∈ range (2 * n), streamW n w j * meanPhase (g l) y (stream n mu j) * v t (stream n mu j) - ∫ z in (-1 : ℝ)..1, meanPhase (g l) y z * v t z|
        ≤ ε' * ν / 4 := fun l hl => scatter_small hv.tame (continuousOn_meanPhase (hgs l hl)) (by positivity)
  choose! d₁ h₁ using hsc
  obtain ⟨d₂, h₂⟩ := reflect_small hv.tame hbot.le hsf (η := ε' * (κ / 2) / 2) (by positivity)
  obtain ⟨d₃, h₃⟩ := reflectance_small hsf (η := κ / 2) (by positivity)
  obtain ⟨d₄, h₄⟩ := flux_small hv.tame (η := ε / 4) (by positivity)
  have htail : ∀ l, ∃ n : ℕ, ∀ L, n ≤ L → tailSum (g l) L ≤ s / 2 := fun l => by
    have := (tailSum_tendsto (g l)).eventually (Iio_mem_nhds (show (0 : ℝ) < s / 2 by positivity))
    obtain ⟨n, hn⟩ := Filter.eventually_atTop.1 this
    exact ⟨n, fun L hL => (hn L hL).le⟩
  choose n₁ hn₁ using htail
  refine ⟨max ((range a.tauArr.n).sup n₁) (2 * (max (max ((range a.tauArr.n).sup d₁) d₂) (max d₃ d₄) + 1)), s / 2, by positivity,
    fun E b J R F rhos hT hN hpk hsm hrho hr0 hbp hbn hres hS h hF t ht0 ht1 => ?_⟩
  have haccb := (pydisort_ok h).1
  have hg := hS.gauss
  have hbb : bottom b = bottom a := by unfold bottom; rw [hT.tau]
  have hLH : nLeg b ≤ 2 * nHalf b := by
    have k1 := haccb.nLeg.2
    have k2 := haccb.streams.1
    obtain ⟨k, k3⟩ := haccb.streams.2
    unfold nLeg nHalf
    omega
  have hL1 : 1 ≤ nLeg b := by
    have := haccb.nLeg.1
    unfold nLeg; omega
  have hL1' : (1 : ℝ) ≤ (nLeg b : ℝ) := by exact_mod_cast hL1
  have hL2 : (1 : ℝ) ≤ (nLeg b : ℝ) ^ 2 := one_le_pow₀ hL1'
  have hpeak : ∀ l < b.tauArr.n, 0 ≤ peak b l ∧ peak b l < 1 := fun l hl => ⟨by
    unfold peak
    split_ifs with hlf
    · exact (haccb.peak l hlf).1
    · exact le_rfl, hS.peak l hl⟩
  have hpL : ∀ l < a.tauArr.n, peak b l * (nLeg b : ℝ) ^ 2 ≤ s / 2 := fun l hl => by
    have := hpk l hl
    rwa [le_div_iff₀ (by positivity)] at this
  have hps : ∀ l < a.tauArr.n, peak b l ≤ s := fun l hl => by
    have k1 := hpL l hl
    have k2 := (hpeak l (by rwa [hT.tau])).1
    nlinarith
  have hδ : ∀ l < a.tauArr.n, tailSum (g l) (nLeg b) + peak b l * (nLeg b : ℝ) ^ 2 ≤ s := fun l hl => by
    have k1 := hn₁ l (nLeg b) ((le_sup (f := n₁) (mem_range.2 hl)).trans ((le_max_left _ _).trans hN))
    have k2 := hpL l hl
    linarith
  have hn : NoNeglect b := noNeglect_of_visible haccb hT (s := s) (fun l hl => by
    have := hθl l hl
    split_ifs at this with h0
    · exact .inl h0
    · right
      have : s ≤ (a.omega.get l - 2 / 10 ^ 8) / 2 := r₆.trans this
      linarith) fun l hl => ⟨(hpeak l (by rwa [hT.tau])).1, hps l hl, (hpeak l (by rwa [hT.tau])).2⟩
  have hN2 : max (max ((range a.tauArr.n).sup d₁) d₂) (max d₃ d₄) + 1 ≤ nHalf b := by
    have := (le_max_right _ _).trans hN
    omega
  have u₁ : ∀ l < a.tauArr.n, Rule (d₁ l) (nHalf b) (node E b) (weight E b) := fun l hl => rule_of_gauss hg (by
    have := le_sup (f := d₁) (mem_range.2 hl); omega)
  have u₂ : Rule d₂ (nHalf b) (node E b) (weight E b) := rule_of_gauss hg (by omega)
  have u₃ : Rule d₃ (nHalf b) (node E b) (weight E b) := rule_of_gauss hg (by omega)
  have u₄ : Rule d₄ (nHalf b) (node E b) (weight E b) := rule_of_gauss hg (by omega)
  have hnode : ∀ i < nHalf b, node E b i ∈ Set.Icc (0 : ℝ) 1 := fun i hi => ⟨(node_pos hg hi).1.le, (node_pos hg hi).2.le⟩
  obtain ⟨U, hU, _⟩ := C02_modes_solve_transfer_equation h hS hres
  have sU := modes_isSolution h hS hres hbp hbn hrho hU (nFourier_pos h hS)
  rw [hr0] at sU
  have key := full_bound haccb hg hpeak hn hT hgs hpos hv hsm hδ (fun l hl => by have := hνl l hl; linarith) r₄ hps hM0
    (fun t ht y hy hy0 => (hM₀ t ht y hy hy0).trans (le_max_left _ _))
    (fun l hl x hx y hy => (abs_meanPhase_le (hgs l hl) hx hy).trans (hGl l hl)) (fun l hl => h₁ l hl _ _ _ (u₁ l hl)) (K := K) (le_max_left _ _)
    (κ := κ / 2) (by positivity) (fun i hi => by
      have k1 := (abs_le.1 (h₃ _ _ _ u₃ _ (hnode i hi))).2
      have k2 := habs _ (hnode i hi)
      have k3 : ∑ j ∈ range (nHalf b), weight E b j * node E b j * |rho (node E b i) (node E b j)|
          = ∑ j ∈ range (nHalf b), weight E b j * node E b j * rho (node E b i) (node E b j) := sum_congr rfl fun j hj => by
        rw [abs_of_nonneg (hsf.nonneg _ (hnode i hi) _ (hnode j (mem_range.1 hj)))]
      rw [k3]
      linarith) (fun y hy => h₂ _ _ _ u₂ y hy) (K' := K') (fun x hx y hy => hK' (x, y) ⟨hx, hy⟩) he0
    (fun l hl => by
      have k1 : s * (2 * M + K) ≤ s₁ * (2 * M + K) := mul_le_mul_of_nonneg_right r₁ (by positivity)
      have k2 := mul_le_mul_of_nonneg_left (hνl l hl) he0.le
      linarith) (by
      have k1 : a.I0 / Real.pi * K' * (s * bottom a) ≤ s₂ * (a.I0 / Real.pi * K' * bottom a) := by
        rw [show a.I0 / Real.pi * K' * (s * bottom a) = s * (a.I0 / Real.pi * K' * bottom a) by ring]
        exact mul_le_mul_of_nonneg_right r₂ (by positivity)
      linarith) sU t ht0 ht1
  obtain ⟨c1, c2, c3⟩ := fields_near (v := v) h hg hres hU hF ht0 (by rwa [hbb]) key
  obtain ⟨-, -, e3, e4⟩ := evaluates_unique hF (evaluates h hres hU) ht0 (by rwa [hbb])
  obtain ⟨x1, x2⟩ := h₄ _ _ _ u₄ t ⟨ht0, ht1⟩
  have hdir : F.direct t = a.I0 * a.mu0 * Real.exp (-t / a.mu0) := by
    rw [e4]; simp only [fieldsOf]; rw [hT.beam, hT.angle]
  refine ⟨fun i hi => (c1 i hi).trans he2, ?_, ?_, hdir⟩
  · refine c2.trans ?_
    unfold hemiFlux
    linarith
  · obtain ⟨l1, l2⟩ := layOf_spec haccb ht0 (by rwa [hbb])
    have k1 := c3 _ l1 l2
    rw [hdir, hT.beam, hT.angle] at k1
    have k2 : |a.I0 * a.mu0 * Real.exp (-tauStar b (layOf b t) t / a.mu0) - a.I0 * a.mu0 * Real.exp (-t / a.mu0)| ≤ ε / 4 := by
      have y := direct_near haccb (φ := s) (fun k hk => ⟨(hpeak k hk).1, hps k (by rwa [hT.tau] at hk)⟩) (by linarith) l1 l2 ht0 (by rwa [hbb])
      rw [hT.beam, hT.angle, hbb] at y
      exact y.trans ((mul_le_mul_of_nonneg_right r₃ (by positivity)).trans q₃)
    have k3 : |hemiFlux b (node E b) (weight E b) (fun i => v t (-node E b i)) - downFluxExact (v t)| ≤ ε / 4 := by
      unfold hemiFlux; exact x2
    have k4 := abs_le.1 k1
    have k5 := abs_le.1 k2
    refine abs_le.2 ⟨by linarith, by linarith⟩

/-- **C115, with the usual peak.** If the Legendre coefficients decay faster than `k⁻²` then the forward peak may be chosen as in the literature, `f = g_{NLeg}`, or be left out. Then the
number of coefficients is the only thing that has to be large. -/
theorem C115_usual_peak (hacc : Accepted a) (hvis : VisibleScattering a) (hgs : ∀ l < a.tauArr.n, PhaseSeries (g l)) (hpos : NonnegMean a g)
    (hdec : ∀ l < a.tauArr.n, Filter.Tendsto (fun k : ℕ => (k : ℝ) ^ 2 * g l k) Filter.atTop (nhds 0))
    (hsf : AbsorbingSurface rho) (hv : FullSolution a g rho up down v) {ε : ℝ} (hε : 0 < ε) :
    ∃ N₀ : ℕ, ∀ (E : Ext) (b : Args) (J : Junk) (R : Solved) (F : Fields) (rhos : ℕ → ℝ → ℝ → ℝ), Truncates a g b → N₀ ≤ nLeg b →
      (∀ l < a.tauArr.n, peak b l = 0 ∨ peak b l = g l (nLeg b)) → Sampled b (node E b) up down → SurfaceIs b rhos → rhos 0 = rho → Azimuthless b.bpos → Azimuthless b.bneg →
      Rescalable b → Sound E b → pydisort E J b = .ok R → Evaluates b R F →
      ∀ t, 0 ≤ t → t ≤ bottom a → (∀ i < 2 * nHalf b, |F.u0 t i - v t (stream (nHalf b) (node E b) i)| ≤ ε)
        ∧ |F.up t - upFluxExact (v t)| ≤ ε ∧ |F.diffuse t - downFluxExact (v t)| ≤ ε ∧ F.direct t = a.I0 * a.mu0 * Real.exp (-t / a.mu0) := by
  obtain ⟨N₀, η, hη, key⟩ := C115_full_phase_function hacc hvis hgs hpos hsf hv hε
  have hev : ∀ l, ∃ n : ℕ, l < a.tauArr.n → ∀ k, n ≤ k → (k : ℝ) ^ 2 * g l k ≤ η := fun l => by
    by_cases hl : l < a.tauArr.n
    · obtain ⟨n, hn⟩ := Filter.eventually_atTop.1 ((hdec l hl).eventually (Iio_mem_nhds hη))
      exact ⟨n, fun _ k hk => (hn k hk).le⟩
    · exact ⟨0, fun h => absurd h hl⟩
  choose n hn using hev
  refine ⟨max (max N₀ 1) ((range a.tauArr.n).sup n), fun E b J R F rhos hT hN hpk => key E b J R F rhos hT (by omega) fun l hl => ?_⟩
  have h1 : (0 : ℝ) < (nLeg b : ℝ) ^ 2 := by
    have : 0 < nLeg b := by omega
    positivity
  rcases hpk l hl with h | h
  · rw [h]; positivity
  · rw [h, le_div_iff₀ h1, mul_comm]
    exact hn l hl _ ((le_sup (f := n) (mem_range.2 hl)).trans ((le_max_right _ _).trans hN))

end Pydisort

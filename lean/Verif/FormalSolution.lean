import Mathlib.MeasureTheory.Integral.DominatedConvergence
import Mathlib.MeasureTheory.Integral.DivergenceTheorem
import Mathlib.MeasureTheory.Integral.IntervalIntegral.FundThmCalculus
import Mathlib.Analysis.SpecialFunctions.ExpDeriv

/-!
# The formal solution of the transfer equation along one direction

`m f' = q - c f` on an interval, away from finitely many points (the layer boundaries), with `f` given at the beginning. `m ∈ (0, 1]` is a parameter.
-/

namespace Pydisort
open MeasureTheory Set Filter Topology

/-- Attenuation: `T` is continuous on `[0, b]` with derivative `c ≥ 0` away from the finitely many points `P`. -/
structure Column (b : ℝ) (P : Set ℝ) (c T : ℝ → ℝ) : Prop where
  pos : 0 < b
  fin : P.Finite
  nonneg : ∀ s, 0 ≤ c s
  bdd : ∃ C, ∀ s, c s ≤ C
  ccont : ContinuousOn c (Ioo 0 b \ P)
  Tcont : ContinuousOn T (Icc 0 b)
  deriv : ∀ s ∈ Ioo 0 b \ P, HasDerivAt T (c s) s

/-- Emission: bounded, and continuous away from `P`; set to zero on `P` and outside `(0, b)`. -/
structure Emission (b : ℝ) (P : Set ℝ) (q : ℝ → ℝ → ℝ) : Prop where
  zero : ∀ s ∉ Ioo 0 b \ P, ∀ m, q s m = 0
  cont : ContinuousOn (fun p : ℝ × ℝ => q p.1 p.2) ((Ioo 0 b \ P) ×ˢ Ioc 0 1)
  bdd : ∃ Q, ∀ s, ∀ m ∈ Ioc (0 : ℝ) 1, |q s m| ≤ Q

/-- The formal solution. -/
noncomputable def formal (T : ℝ → ℝ) (q : ℝ → ℝ → ℝ) (g : ℝ → ℝ) (t m : ℝ) : ℝ :=
  Real.exp (-T t / m) * (g m * Real.exp (T 0 / m) + ∫ s in (0 : ℝ)..t, Real.exp (T s / m) * q s m / m)

section
variable {b : ℝ} {P : Set ℝ} {c T : ℝ → ℝ} {q q' : ℝ → ℝ → ℝ} {g g' : ℝ → ℝ}

theorem isOpen_away (hP : P.Finite) (b : ℝ) : IsOpen (Ioo 0 b \ P) := isOpen_Ioo.sdiff hP.isClosed

theorem Column.bound (hC : Column b P c T) : ∃ K, ∀ s ∈ Icc 0 b, |T s| ≤ K := by
  obtain ⟨K, hK⟩ := isCompact_Icc.exists_bound_of_continuousOn hC.Tcont
  exact ⟨K, hK⟩

theorem integrand_cont (hC : Column b P c T) (hq : Emission b P q) {m : ℝ} (hm : m ∈ Ioc (0 : ℝ) 1) :
    ContinuousOn (fun s => Real.exp (T s / m) * q s m / m) (Ioo 0 b \ P) := by
  refine ((Real.continuous_exp.comp_continuousOn ((hC.Tcont.mono fun s hs => Ioo_subset_Icc_self hs.1).div_const m)).mul ?_).div_const m
  exact hq.cont.comp (f := fun s => (s, m)) (by fun_prop) fun s hs => ⟨hs, hm⟩

theorem indicator_meas {f : ℝ → ℝ} (hP : P.Finite) (hf : ContinuousOn f (Ioo 0 b \ P)) (h0 : ∀ s ∉ Ioo 0 b \ P, f s = 0) :
    AEStronglyMeasurable f volume := by
  have hS : MeasurableSet (Ioo 0 b \ P) := (isOpen_away hP b).measurableSet
  have : f = (Ioo 0 b \ P).indicator f := by
    funext s
    by_cases hs : s ∈ Ioo 0 b \ P
    · rw [indicator_of_mem hs]
    · rw [indicator_of_notMem hs, h0 s hs]
  rw [this, aestronglyMeasurable_indicator_iff hS]
  exact hf.aestronglyMeasurable hS

theorem integrand_meas (hC : Column b P c T) (hq : Emission b P q) {m : ℝ} (hm : m ∈ Ioc (0 : ℝ) 1) :
    AEStronglyMeasurable (fun s => Real.exp (T s / m) * q s m / m) volume :=
  indicator_meas hC.fin (integrand_cont hC hq hm) fun s hs => by rw [hq.zero s hs]; simp

theorem integrand_bound (hC : Column b P c T) (hq : Emission b P q) {m₀ : ℝ} (hm₀ : 0 < m₀) :
    ∃ K, ∀ m ∈ Ioc (0 : ℝ) 1, m₀ ≤ m → ∀ s, |Real.exp (T s / m) * q s m / m| ≤ K := by
  obtain ⟨τ, hτ⟩ := hC.bound
  obtain ⟨Q, hQ⟩ := hq.bdd
  have hτ0 : 0 ≤ τ := (abs_nonneg _).trans (hτ 0 ⟨le_rfl, hC.pos.le⟩)
  have hQ0 : 0 ≤ Q := (abs_nonneg _).trans (hQ 0 1 ⟨one_pos, le_rfl⟩)
  refine ⟨Real.exp (τ / m₀) * Q / m₀, fun m hm hmm s => ?_⟩
  by_cases hs : s ∈ Ioo 0 b \ P
  · have h1 : Real.exp (T s / m) ≤ Real.exp (τ / m₀) := by
      refine Real.exp_le_exp.2 ?_
      calc T s / m ≤ τ / m := div_le_div_of_nonneg_right ((le_abs_self _).trans (hτ s (Ioo_subset_Icc_self hs.1))) hm.1.le
        _ ≤ τ / m₀ := div_le_div_of_nonneg_left hτ0 hm₀ hmm
    rw [abs_div, abs_mul, abs_of_pos (Real.exp_pos _), abs_of_pos hm.1]
    exact div_le_div₀ (by positivity) (mul_le_mul h1 (hQ s m hm) (abs_nonneg _) (Real.exp_pos _).le) hm₀ hmm
  · rw [hq.zero s hs]
    simp only [mul_zero, zero_div, abs_zero]
    positivity

theorem integrand_integrable (hC : Column b P c T) (hq : Emission b P q) {m : ℝ} (hm : m ∈ Ioc (0 : ℝ) 1) (x y : ℝ) :
    IntervalIntegrable (fun s => Real.exp (T s / m) * q s m / m) volume x y := by
  obtain ⟨K, hK⟩ := integrand_bound hC hq hm.1
  rw [intervalIntegrable_iff]
  have : IsFiniteMeasure (volume.restrict (uIoc x y)) := ⟨by simp [uIoc]⟩
  exact Integrable.of_bound (integrand_meas hC hq hm).restrict K (ae_of_all _ fun s => hK m hm le_rfl s)

/-- Joint continuity in depth and direction. -/
theorem formal_cont (hC : Column b P c T) (hq : Emission b P q) (hg : ContinuousOn g (Ioc 0 1)) :
    ContinuousOn (fun p : ℝ × ℝ => formal T q g p.1 p.2) (Icc 0 b ×ˢ Ioc 0 1) := by
  have hint : ContinuousOn (fun p : ℝ × ℝ => ∫ s in (0 : ℝ)..p.1, Real.exp (T s / p.2) * q s p.2 / p.2) (Icc 0 b ×ˢ Ioc 0 1) := by
    have key : Continuous fun p : Ioc (0 : ℝ) 1 × Icc 0 b => ∫ s in (0 : ℝ)..p.2, Real.exp (T s / p.1) * q s p.1 / p.1 := by
      rw [continuous_iff_continuousAt]
      rintro ⟨⟨m₀, hm₀⟩, ⟨t₀, ht₀⟩⟩
      obtain ⟨K, hK⟩ := integrand_bound hC hq (half_pos hm₀.1)
      have := intervalIntegral.continuousAt_parametric_primitive_of_dominated (X := Ioc (0 : ℝ) 1) (μ := volume)
        (F := fun m s => Real.exp (T s / m) * q s m / m) (fun _ => K) (-1) (b + 1) (a₀ := 0) (b₀ := t₀) (x₀ := ⟨m₀, hm₀⟩)
        (fun m => (integrand_meas hC hq m.2).restrict) ?_ (by simp) (ae_of_all _ fun s => ?_) ⟨by norm_num, by linarith [hC.pos]⟩
        ⟨by linarith [ht₀.1], by linarith [ht₀.2]⟩ (by simp)
      · have hpr : ContinuousAt (fun p : Ioc (0 : ℝ) 1 × Icc 0 b => (p.1, (p.2 : ℝ))) (⟨m₀, hm₀⟩, ⟨t₀, ht₀⟩) := by fun_prop
        exact ContinuousAt.comp (f := fun p : Ioc (0 : ℝ) 1 × Icc 0 b => (p.1, (p.2 : ℝ))) (x := (⟨m₀, hm₀⟩, ⟨t₀, ht₀⟩)) this hpr
      · have : ∀ᶠ m : Ioc (0 : ℝ) 1 in 𝓝 ⟨m₀, hm₀⟩, m₀ / 2 < m := by
          refine continuous_subtype_val.continuousAt.eventually (lt_mem_nhds ?_)
          linarith [hm₀.1]
        filter_upwards [this] with m hm
        exact ae_of_all _ fun s => hK m m.2 hm.le s
      · by_cases hs : s ∈ Ioo 0 b \ P
        · have h1 : ContinuousAt (fun m : Ioc (0 : ℝ) 1 => q s m) ⟨m₀, hm₀⟩ := by
            have := hq.cont.comp_continuous (f := fun m : Ioc (0 : ℝ) 1 => (s, (m : ℝ))) (by fun_prop) fun m => ⟨hs, m.2⟩
            exact this.continuousAt
          have h2 : ContinuousAt (fun m : Ioc (0 : ℝ) 1 => (m : ℝ)) ⟨m₀, hm₀⟩ := by fun_prop
          have h3 : ((⟨m₀, hm₀⟩ : Ioc (0 : ℝ) 1) : ℝ) ≠ 0 := hm₀.1.ne'
          exact ((Real.continuous_exp.continuousAt.comp (continuousAt_const.div h2 h3)).mul h1).div h2 h3
        · simp only [hq.zero s hs]
          simp only [mul_zero, zero_div]
          exact continuousAt_const
    rw [continuousOn_iff_continuous_domRestrict]
    exact key.comp (f := fun p : ↥(Icc 0 b ×ˢ Ioc (0 : ℝ) 1) => (⟨p.1.2, p.2.2⟩, ⟨p.1.1, p.2.1⟩)) (by fun_prop)
  have h0 : ∀ p ∈ Icc 0 b ×ˢ Ioc (0 : ℝ) 1, p.2 ≠ 0 := fun p hp => hp.2.1.ne'
  have hT : ContinuousOn (fun p : ℝ × ℝ => T p.1) (Icc 0 b ×ˢ Ioc 0 1) := hC.Tcont.comp continuousOn_fst fun p hp => hp.1
  have hg' : ContinuousOn (fun p : ℝ × ℝ => g p.2) (Icc 0 b ×ˢ Ioc 0 1) := hg.comp continuousOn_snd fun p hp => hp.2
  unfold formal
  exact (Real.continuous_exp.comp_continuousOn (hT.neg.div continuousOn_snd h0)).mul
    ((hg'.mul (Real.continuous_exp.comp_continuousOn (continuousOn_const.div continuousOn_snd h0))).add hint)

/-- Emission of at most `k c` and illumination of at most `k` give at most `k`. -/
theorem formal_le (hC : Column b P c T) {m k : ℝ} (hm : m ∈ Ioc (0 : ℝ) 1) (hk : 0 ≤ k)
    (hqk : ∀ s, |q s m| ≤ k * c s) (hgk : |g m| ≤ k) {t : ℝ} (ht : t ∈ Icc 0 b) : |formal T q g t m| ≤ k := by
  obtain ⟨τ, hτ⟩ := hC.bound
  obtain ⟨C, hCb⟩ := hC.bdd
  have hS : MeasurableSet (Ioo 0 b \ P) := (isOpen_away hC.fin b).measurableSet
  have hi : ∫ s in (0 : ℝ)..t, Real.exp (T s / m) * c s / m = Real.exp (T t / m) - Real.exp (T 0 / m) ∧
      IntervalIntegrable (fun s => Real.exp (T s / m) * c s / m) volume 0 t := by
    have hii : IntervalIntegrable (fun s => Real.exp (T s / m) * c s / m) volume 0 t := by
      rw [intervalIntegrable_iff_integrableOn_Ioo_of_le ht.1]
      have hsub : Ioo 0 t ⊆ Ioo 0 b := Ioo_subset_Ioo_right ht.2
      have hcn : ContinuousOn (fun s => Real.exp (T s / m) * c s / m) (Ioo 0 b \ P) :=
        ((Real.continuous_exp.comp_continuousOn ((hC.Tcont.mono fun s hs => Ioo_subset_Icc_self hs.1).div_const m)).mul hC.ccont).div_const m
      refine Integrable.of_bound (C := Real.exp (τ / m) * C / m) ?_ ((ae_restrict_iff' measurableSet_Ioo).2 (ae_of_all _ fun s hs => ?_))
      · have hm1 := hcn.aestronglyMeasurable (μ := volume) hS
        have hae : (Ioo 0 b \ P : Set ℝ) =ᵐ[volume] Ioo 0 b := diff_null_ae_eq_self (hC.fin.measure_zero _)
        rw [Measure.restrict_congr_set hae] at hm1
        exact hm1.mono_measure (Measure.restrict_mono hsub le_rfl)
      · have hs' := Ioo_subset_Icc_self (hsub hs)
        rw [Real.norm_eq_abs, abs_div, abs_mul, abs_of_pos (Real.exp_pos _), abs_of_pos hm.1, abs_of_nonneg (hC.nonneg s)]
        refine div_le_div_of_nonneg_right (mul_le_mul (Real.exp_le_exp.2 ?_) (hCb s) (hC.nonneg s) (Real.exp_pos _).le) hm.1.le
        exact div_le_div_of_nonneg_right ((le_abs_self _).trans (hτ s hs')) hm.1.le
    refine ⟨?_, hii⟩
    refine integral_eq_of_hasDerivAt_off_countable_of_le (fun s => Real.exp (T s / m)) _ ht.1 hC.fin.countable ?_ ?_ hii
    · exact Real.continuous_exp.comp_continuousOn ((hC.Tcont.mono (Icc_subset_Icc_right ht.2)).div_const m)
    · intro s hs
      exact ((hC.deriv s ⟨⟨hs.1.1, hs.1.2.trans_le ht.2⟩, hs.2⟩).div_const m).exp.congr_deriv (by ring)
  have h1 : |∫ s in (0 : ℝ)..t, Real.exp (T s / m) * q s m / m| ≤ k * (Real.exp (T t / m) - Real.exp (T 0 / m)) := by
    rw [← hi.1, ← intervalIntegral.integral_const_mul]
    rw [← Real.norm_eq_abs]
    refine intervalIntegral.norm_integral_le_of_norm_le (f := fun s => Real.exp (T s / m) * q s m / m)
      (g := fun s => k * (Real.exp (T s / m) * c s / m)) ht.1 (ae_of_all _ fun s _ => ?_) (hi.2.const_mul k)
    rw [Real.norm_eq_abs, abs_div, abs_mul, abs_of_pos (Real.exp_pos _), abs_of_pos hm.1, ← mul_div_assoc]
    refine div_le_div_of_nonneg_right ?_ hm.1.le
    have := mul_le_mul_of_nonneg_left (hqk s) (Real.exp_pos (T s / m)).le
    linarith
  unfold formal
  rw [abs_mul, abs_of_pos (Real.exp_pos _)]
  have h2 : |g m * Real.exp (T 0 / m) + ∫ s in (0 : ℝ)..t, Real.exp (T s / m) * q s m / m| ≤ k * Real.exp (T t / m) := by
    refine (abs_add_le _ _).trans ?_
    rw [abs_mul, abs_of_pos (Real.exp_pos _)]
    have := mul_le_mul_of_nonneg_right hgk (Real.exp_pos (T 0 / m)).le
    linarith
  calc _ ≤ Real.exp (-T t / m) * (k * Real.exp (T t / m)) := mul_le_mul_of_nonneg_left h2 (Real.exp_pos _).le
    _ = k := by
      rw [mul_left_comm, ← Real.exp_add, neg_div, neg_add_cancel, Real.exp_zero, mul_one]

theorem formal_sub (hC : Column b P c T) (hq : Emission b P q) (hq' : Emission b P q') {m : ℝ} (hm : m ∈ Ioc (0 : ℝ) 1) (t : ℝ) :
    formal T q g t m - formal T q' g' t m = formal T (fun s m => q s m - q' s m) (fun m => g m - g' m) t m := by
  unfold formal
  have : ∀ s, Real.exp (T s / m) * (q s m - q' s m) / m = Real.exp (T s / m) * q s m / m - Real.exp (T s / m) * q' s m / m := fun s => by ring
  simp only [this]
  rw [intervalIntegral.integral_sub (integrand_integrable hC hq hm _ _) (integrand_integrable hC hq' hm _ _)]
  ring

theorem formal_zero (T : ℝ → ℝ) (q : ℝ → ℝ → ℝ) (g : ℝ → ℝ) (m : ℝ) : formal T q g 0 m = g m := by
  unfold formal
  rw [intervalIntegral.integral_same, add_zero, mul_left_comm, ← Real.exp_add, neg_div, neg_add_cancel, Real.exp_zero, mul_one]

/-- It solves the equation. -/
theorem formal_deriv (hC : Column b P c T) (hq : Emission b P q) {m : ℝ} (hm : m ∈ Ioc (0 : ℝ) 1) {t : ℝ} (ht : t ∈ Ioo 0 b \ P) :
    HasDerivAt (fun t => formal T q g t m) ((q t m - c t * formal T q g t m) / m) t := by
  have hcn := integrand_cont hC hq hm
  have ho := isOpen_away hC.fin b
  have d1 := intervalIntegral.integral_hasDerivAt_right (integrand_integrable hC hq hm 0 t) (hcn.stronglyMeasurableAtFilter ho t ht)
    (hcn.continuousAt (ho.mem_nhds ht))
  have d2 := ((hC.deriv t ht).neg.div_const m).exp
  have d3 := d2.mul (d1.const_add (g m * Real.exp (T 0 / m)))
  have hm0 := hm.1.ne'
  refine d3.congr_deriv ?_
  unfold formal
  have e : Real.exp (-T t / m) * Real.exp (T t / m) = 1 := by rw [← Real.exp_add, neg_div, neg_add_cancel, Real.exp_zero]
  simp only [Pi.neg_apply]
  linear_combination (q t m / m) * e

/-- It is the only solution. -/
theorem formal_unique (hC : Column b P c T) (hq : Emission b P q) {m : ℝ} (hm : m ∈ Ioc (0 : ℝ) 1) {f : ℝ → ℝ} (hf : ContinuousOn f (Icc 0 b))
    (h0 : f 0 = g m) (hd : ∀ t ∈ Ioo 0 b \ P, HasDerivAt f ((q t m - c t * f t) / m) t) {t : ℝ} (ht : t ∈ Icc 0 b) : f t = formal T q g t m := by
  have key : ∫ s in (0 : ℝ)..t, Real.exp (T s / m) * q s m / m = Real.exp (T t / m) * f t - Real.exp (T 0 / m) * f 0 := by
    refine integral_eq_of_hasDerivAt_off_countable_of_le (fun s => Real.exp (T s / m) * f s) _ ht.1 hC.fin.countable ?_ ?_
      (integrand_integrable hC hq hm 0 t)
    · exact (Real.continuous_exp.comp_continuousOn ((hC.Tcont.mono (Icc_subset_Icc_right ht.2)).div_const m)).mul (hf.mono (Icc_subset_Icc_right ht.2))
    · intro s hs
      have hs' : s ∈ Ioo 0 b \ P := ⟨⟨hs.1.1, hs.1.2.trans_le ht.2⟩, hs.2⟩
      refine ((((hC.deriv s hs').div_const m).exp).mul (hd s hs')).congr_deriv ?_
      field_simp
      ring
  unfold formal
  rw [key, h0]
  have e : Real.exp (-T t / m) * Real.exp (T t / m) = 1 := by rw [← Real.exp_add, neg_div, neg_add_cancel, Real.exp_zero]
  linear_combination (-f t) * e

end

end Pydisort

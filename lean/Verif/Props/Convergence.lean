import Verif.Props.Continuum
import Verif.QuadratureLemmas

/-!
# C109: with more and more streams the results converge to the solution of the transfer equation

Specification used: `Spec.ExactSolution`, `Spec.SameAtmosphere`, `Spec.Sampled`, `Spec.NonnegScatteringAll`, `Spec.AbsorbingSurface`.
-/

namespace Pydisort
open Finset Spec MeasureTheory

variable {E : Ext} {a b : Args} {rho : ℝ → ℝ → ℝ} {up down : ℝ → ℝ} {v : ℝ → ℝ → ℝ}

/-! ### The same atmosphere -/

section
variable (h : SameAtmosphere a b)
include h

theorem Spec.SameAtmosphere.bottom_eq : bottom b = bottom a := by unfold bottom; rw [h.tau]

theorem Spec.SameAtmosphere.peak_eq : Spec.peak b = Spec.peak a := by funext l; unfold Spec.peak; rw [h.peak]

theorem Spec.SameAtmosphere.scale_eq : scale b = scale a := by funext l; unfold scale; rw [h.peak_eq, h.omega]

theorem Spec.SameAtmosphere.omegaStar_eq : omegaStar b = omegaStar a := by funext l; unfold omegaStar; rw [h.peak_eq, h.omega, h.scale_eq]

theorem Spec.SameAtmosphere.legStar_eq : legStar b = legStar a := by
  funext l k; unfold legStar Spec.leg; rw [h.peak_eq, h.leg]

theorem Spec.SameAtmosphere.bdryStar_eq : bdryStar b = bdryStar a := by
  funext l; unfold bdryStar; rw [h.scale_eq, h.tau]

theorem Spec.SameAtmosphere.tauStar_eq : tauStar b = tauStar a := by
  funext l t; unfold tauStar; rw [h.scale_eq, h.tau, h.bdryStar_eq]

theorem Spec.SameAtmosphere.source_eq : Spec.source b = Spec.source a := by
  funext l t; unfold Spec.source; rw [h.source]

theorem Spec.SameAtmosphere.scatterExact_eq : scatterExact b = scatterExact a := by
  funext l v y; unfold scatterExact; rw [h.omegaStar_eq, h.nLeg, h.legStar_eq]

theorem Spec.SameAtmosphere.exact (hv : ExactSolution a rho up down v) : ExactSolution b rho up down v where
  bounded := by rw [h.bottom_eq]; exact hv.bounded
  cont := by rw [h.bottom_eq]; exact hv.cont
  ode := by
    unfold rteAll
    rw [h.scatterExact_eq, h.tau, h.omegaStar_eq, h.nLeg, h.legStar_eq, h.beam, h.angle, h.tauStar_eq, h.scale_eq, h.omega, h.source_eq]
    exact hv.ode
  top := hv.top
  bot := by rw [h.bottom_eq, h.surface, h.beam, h.angle, h.bdryStar_eq, h.tau]; exact hv.bot

theorem Spec.SameAtmosphere.noNeglect (hn : NoNeglect a) : NoNeglect b := by
  unfold NoNeglect
  rw [h.tau, h.omegaStar_eq, h.nLeg, h.legStar_eq]
  exact hn

theorem Spec.SameAtmosphere.inLayer {l : ℕ} {t : ℝ} : InLayer b l t ↔ InLayer a l t := by unfold InLayer; rw [h.tau]

end

/-! ### The quadrature -/

theorem rule_of_gauss (hg : GaussContract E (nHalf a)) {d : ℕ} (hd : d + 1 ≤ nHalf a) : Rule d (nHalf a) (node E a) (weight E a) where
  node := fun _ hi => node_pos hg hi
  weight := fun _ hi => weight_pos hg hi
  exact := fun p hp => half_exact hg p (by omega)

theorem continuous_scatD (om : ℝ) (n : ℕ) (g : ℕ → ℝ) : Continuous fun p : ℝ × ℝ => scatD om n g 0 p.1 p.2 := by
  unfold scatD phaseMoment assocLegendre
  simp only [Function.iterate_zero, id, pow_zero, one_mul]
  refine continuous_const.mul (continuous_finsetSum _ fun l _ => ?_)
  have h1 : Continuous fun p : ℝ × ℝ => (legendreP l).eval p.1 := (legendreP l).continuous.comp continuous_fst
  have h2 : Continuous fun p : ℝ × ℝ => (legendreP l).eval p.2 := (legendreP l).continuous.comp continuous_snd
  fun_prop

theorem sum_streams (N : ℕ) (mu w : Vec) (f : ℝ → ℝ) :
    ∑ j ∈ range (2 * N), streamW N w j * f (stream N mu j) = ∑ j ∈ range N, w j * (f (mu j) + f (-mu j)) := by
  rw [two_mul, sum_range_add, ← sum_add_distrib]
  refine sum_congr rfl fun j hj => ?_
  have := mem_range.1 hj
  unfold streamW stream
  rw [if_pos this, if_pos this, if_neg (by omega), if_neg (by omega), Nat.add_sub_cancel_left]
  ring

theorem integral_halves {f : ℝ → ℝ} (h1 : IntervalIntegrable f volume (-1) 0) (h2 : IntervalIntegrable f volume 0 1) :
    ∫ z in (-1 : ℝ)..1, f z = ∫ z in (0 : ℝ)..1, (f z + f (-z)) := by
  rw [← intervalIntegral.integral_add_adjacent_intervals h1 h2, intervalIntegral.integral_add h2, add_comm]
  · congr 1
    rw [intervalIntegral.integral_comp_neg]; simp
  · have := IntervalIntegrable.comp_sub_left h1 0
    simpa using this.symm

theorem intervalIntegrable_of_bounded {f : ℝ → ℝ} (hf : ContinuousOn f (Set.Ioc 0 1)) {M : ℝ} (hM : ∀ z ∈ Set.Ioc (0 : ℝ) 1, |f z| ≤ M) :
    IntervalIntegrable f volume 0 1 := by
  rw [intervalIntegrable_iff_integrableOn_Ioc_of_le zero_le_one]
  exact Integrable.of_bound (hf.aestronglyMeasurable measurableSet_Ioc) M ((ae_restrict_iff' measurableSet_Ioc).2 (ae_of_all _ fun z hz => hM z hz))

theorem intervalIntegrable_neg {f : ℝ → ℝ} (hf : IntervalIntegrable (fun z => f (-z)) volume 0 1) : IntervalIntegrable f volume (-1) 0 := by
  have := IntervalIntegrable.comp_sub_left hf 0
  simpa using this.symm

/-- Bounded and continuous, except for the horizontal direction. -/
structure TameField (B : ℝ) (v : ℝ → ℝ → ℝ) : Prop where
  bounded : ∃ M, ∀ t ∈ Set.Icc 0 B, ∀ y ∈ Set.Icc (-1 : ℝ) 1, y ≠ 0 → |v t y| ≤ M
  cont : ContinuousOn (fun p : ℝ × ℝ => v p.1 p.2) (Set.Icc 0 B ×ˢ (Set.Icc (-1) 1 \ {0}))

theorem Spec.ExactSolution.tame (hv : ExactSolution a rho up down v) : TameField (bottom a) v := ⟨hv.bounded, hv.cont⟩

section
variable {B : ℝ} (hv : TameField B v)
include hv

/-- The scattering integral of the exact field, uniformly in depth and direction. -/
theorem scatter_small {D : ℝ → ℝ → ℝ} (hDc : ContinuousOn (fun p : ℝ × ℝ => D p.1 p.2) (Set.Icc (-1) 1 ×ˢ Set.Icc (-1) 1)) {η : ℝ} (hη : 0 < η) : ∃ d : ℕ, ∀ n mu w, Rule d n mu w → ∀ t ∈ Set.Icc 0 B, ∀ y ∈ Set.Icc (-1 : ℝ) 1,
    |∑ j ∈ range (2 * n), streamW n w j * D y (stream n mu j) * v t (stream n mu j)
      - ∫ z in (-1 : ℝ)..1, D y z * v t z| ≤ η := by
  obtain ⟨M, hM⟩ := hv.bounded
  obtain ⟨K, hK⟩ := (isCompact_Icc.prod isCompact_Icc : IsCompact (Set.Icc (-1 : ℝ) 1 ×ˢ Set.Icc (-1 : ℝ) 1)).exists_bound_of_continuousOn hDc
  have hf : ∀ s : ℝ, |s| = 1 → ContinuousOn (fun p : (Set.Icc 0 B × Set.Icc (-1 : ℝ) 1) × ℝ => D p.1.2 (s * p.2) * v p.1.1 (s * p.2))
      (Set.univ ×ˢ Set.Ioc 0 1) := by
    intro s hs
    have hin : ∀ z ∈ Set.Ioc (0 : ℝ) 1, s * z ∈ Set.Icc (-1 : ℝ) 1 := fun z hz =>
      abs_le.1 (show |s * z| ≤ 1 by rw [abs_mul, hs, one_mul, abs_of_pos hz.1]; exact hz.2)
    refine (hDc.comp (f := fun p : (Set.Icc 0 B × Set.Icc (-1 : ℝ) 1) × ℝ => ((p.1.2 : ℝ), s * p.2)) (by fun_prop) fun p hp => ⟨p.1.2.2, hin _ hp.2⟩).mul
      (hv.cont.comp (f := fun p : (Set.Icc 0 B × Set.Icc (-1 : ℝ) 1) × ℝ => ((p.1.1 : ℝ), s * p.2)) (by fun_prop) fun p hp => ⟨p.1.1.2, ?_, ?_⟩)
    · exact hin _ hp.2
    · have hs0 : s ≠ 0 := by rintro rfl; simp at hs
      exact mul_ne_zero hs0 hp.2.1.ne'
  have hb : ∀ s : ℝ, |s| = 1 → ∀ x : Set.Icc 0 B × Set.Icc (-1 : ℝ) 1, ∀ z ∈ Set.Ioc (0 : ℝ) 1, |D x.2 (s * z) * v x.1 (s * z)| ≤ K * M := by
    intro s hs x z hz
    have h1 := abs_le.1 (show |s * z| ≤ 1 by rw [abs_mul, hs, one_mul, abs_of_pos hz.1]; exact hz.2)
    have hs0 : s ≠ 0 := by rintro rfl; simp at hs
    have k1 := hK (x.2, s * z) ⟨x.2.2, h1⟩
    have k2 := hM x.1 x.1.2 (s * z) h1 (mul_ne_zero hs0 hz.1.ne')
    rw [abs_mul]
    exact mul_le_mul k1 k2 (abs_nonneg _) ((norm_nonneg _).trans k1)
  have f1 := hf 1 abs_one
  have f2 := hf (-1) (by simp)
  have b1 := hb 1 abs_one
  have b2 := hb (-1) (by simp)
  simp only [one_mul, neg_mul] at f1 f2 b1 b2
  obtain ⟨d, hd⟩ := quad_uniform (f1.add f2) (M := K * M + K * M) (g := fun (x : Set.Icc 0 B × Set.Icc (-1 : ℝ) 1) z => D x.2 z * v x.1 z + D x.2 (-z) * v x.1 (-z))
    (fun x z hz => (abs_add_le _ _).trans (add_le_add (b1 x z hz) (b2 x z hz))) hη
  refine ⟨d, fun n mu w hq t ht y hy => ?_⟩
  have := hd n mu w hq (⟨t, ht⟩, ⟨y, hy⟩)
  rw [integral_halves]
  · have e := sum_streams n mu w (fun z => D y z * v t z)
    simp only [mul_assoc] at e ⊢
    rw [e]
    exact this
  · refine intervalIntegrable_neg (intervalIntegrable_of_bounded (M := K * M) ?_ fun z hz => b2 (⟨t, ht⟩, ⟨y, hy⟩) z hz)
    exact f2.comp (f := fun z : ℝ => (((⟨t, ht⟩, ⟨y, hy⟩) : Set.Icc 0 B × Set.Icc (-1 : ℝ) 1), z)) (by fun_prop) fun z hz => ⟨trivial, hz⟩
  · refine intervalIntegrable_of_bounded (M := K * M) ?_ fun z hz => b1 (⟨t, ht⟩, ⟨y, hy⟩) z hz
    exact f1.comp (f := fun z : ℝ => (((⟨t, ht⟩, ⟨y, hy⟩) : Set.Icc 0 B × Set.Icc (-1 : ℝ) 1), z)) (by fun_prop) fun z hz => ⟨trivial, hz⟩

/-- The light reflected by the surface, uniformly in direction. -/
theorem reflect_small (h0 : 0 ≤ B) (hr : AbsorbingSurface rho) {η : ℝ} (hη : 0 < η) : ∃ d : ℕ, ∀ n mu w, Rule d n mu w → ∀ y ∈ Set.Icc (0 : ℝ) 1,
    |2 * ∑ j ∈ range n, w j * mu j * rho y (mu j) * v B (-mu j) - reflectExact rho (v B) y| ≤ η := by
  obtain ⟨M, hM⟩ := hv.bounded
  obtain ⟨K, hK⟩ := (isCompact_Icc.prod isCompact_Icc : IsCompact (Set.Icc (0 : ℝ) 1 ×ˢ Set.Icc (0 : ℝ) 1)).exists_bound_of_continuousOn hr.cont
  have hbm : B ∈ Set.Icc 0 B := ⟨h0, le_rfl⟩
  have hneg : ∀ z ∈ Set.Ioc (0 : ℝ) 1, -z ∈ Set.Icc (-1 : ℝ) 1 ∧ -z ≠ 0 := fun z hz =>
    ⟨⟨by linarith [hz.2], by linarith [hz.1]⟩, neg_ne_zero.2 hz.1.ne'⟩
  have hc : ContinuousOn (fun p : Set.Icc (0 : ℝ) 1 × ℝ => p.2 * rho p.1 p.2 * v B (-p.2)) (Set.univ ×ˢ Set.Ioc 0 1) := by
    refine (ContinuousOn.mul (by fun_prop) ?_).mul ?_
    · exact hr.cont.comp (f := fun p : Set.Icc (0 : ℝ) 1 × ℝ => ((p.1 : ℝ), p.2)) (by fun_prop) fun p hp => ⟨p.1.2, hp.2.1.le, hp.2.2⟩
    · exact hv.cont.comp (f := fun p : Set.Icc (0 : ℝ) 1 × ℝ => (B, -p.2)) (by fun_prop) fun p hp => ⟨hbm, hneg _ hp.2⟩
  obtain ⟨d, hd⟩ := quad_uniform hc (M := K * M) (g := fun (x : Set.Icc (0 : ℝ) 1) z => z * rho x z * v B (-z)) (fun x z hz => by
    have k1 := hK (x, z) ⟨x.2, hz.1.le, hz.2⟩
    have k2 := hM _ hbm _ (hneg z hz).1 (hneg z hz).2
    rw [abs_mul, abs_mul, abs_of_pos hz.1]
    refine mul_le_mul ((mul_le_of_le_one_left (abs_nonneg _) hz.2).trans k1) k2 (abs_nonneg _) ((norm_nonneg _).trans k1)) (half_pos hη)
  refine ⟨d, fun n mu w hq y hy => ?_⟩
  have := hd n mu w hq ⟨y, hy⟩
  unfold reflectExact
  rw [← mul_sub, abs_mul, abs_two]
  simp only [mul_assoc] at this ⊢
  linarith

/-- The fluxes, uniformly in depth. -/
theorem flux_small {η : ℝ} (hη : 0 < η) : ∃ d : ℕ, ∀ n mu w, Rule d n mu w → ∀ t ∈ Set.Icc 0 B,
    |2 * Real.pi * ∑ j ∈ range n, mu j * w j * v t (mu j) - upFluxExact (v t)| ≤ η
    ∧ |2 * Real.pi * ∑ j ∈ range n, mu j * w j * v t (-mu j) - downFluxExact (v t)| ≤ η := by
  obtain ⟨M, hM⟩ := hv.bounded
  have hpi := Real.pi_pos
  have key : ∀ s : ℝ, |s| = 1 → ∃ d : ℕ, ∀ n mu w, Rule d n mu w → ∀ t ∈ Set.Icc 0 B,
      |2 * Real.pi * ∑ j ∈ range n, mu j * w j * v t (s * mu j) - 2 * Real.pi * ∫ y in (0 : ℝ)..1, y * v t (s * y)| ≤ η := by
    intro s hs
    have hs0 : s ≠ 0 := by rintro rfl; simp at hs
    have hin : ∀ z ∈ Set.Ioc (0 : ℝ) 1, s * z ∈ Set.Icc (-1 : ℝ) 1 := fun z hz =>
      abs_le.1 (show |s * z| ≤ 1 by rw [abs_mul, hs, one_mul, abs_of_pos hz.1]; exact hz.2)
    have hc : ContinuousOn (fun p : Set.Icc 0 B × ℝ => p.2 * v p.1 (s * p.2)) (Set.univ ×ˢ Set.Ioc 0 1) := by
      refine ContinuousOn.mul (by fun_prop) ?_
      exact hv.cont.comp (f := fun p : Set.Icc 0 B × ℝ => ((p.1 : ℝ), s * p.2)) (by fun_prop) fun p hp =>
        ⟨p.1.2, hin _ hp.2, mul_ne_zero hs0 hp.2.1.ne'⟩
    obtain ⟨d, hd⟩ := quad_uniform hc (M := M) (g := fun (x : Set.Icc 0 B) z => z * v x (s * z)) (fun x z hz => by
      have k2 := hM x x.2 _ (hin z hz) (mul_ne_zero hs0 hz.1.ne')
      rw [abs_mul, abs_of_pos hz.1]
      exact (mul_le_of_le_one_left (abs_nonneg _) hz.2).trans k2) (η := η / (2 * Real.pi)) (by positivity)
    refine ⟨d, fun n mu w hq t ht => ?_⟩
    have := hd n mu w hq ⟨t, ht⟩
    rw [← mul_sub, abs_mul, abs_of_pos (by positivity)]
    rw [le_div_iff₀ (by positivity)] at this
    have e : ∑ j ∈ range n, mu j * w j * v t (s * mu j) = ∑ j ∈ range n, w j * (mu j * v t (s * mu j)) := sum_congr rfl fun j _ => by ring
    rw [e]
    linarith
  obtain ⟨d₁, h₁⟩ := key 1 abs_one
  obtain ⟨d₂, h₂⟩ := key (-1) (by simp)
  simp only [one_mul, neg_mul] at h₁ h₂
  exact ⟨max d₁ d₂, fun n mu w hq t ht => ⟨h₁ n mu w (hq.mono (le_max_left _ _)) t ht, h₂ n mu w (hq.mono (le_max_right _ _)) t ht⟩⟩

end

/-- What the discretised surface reflects. -/
theorem reflectance_small (hr : AbsorbingSurface rho) {η : ℝ} (hη : 0 < η) : ∃ d : ℕ, ∀ n mu w, Rule d n mu w → ∀ y ∈ Set.Icc (0 : ℝ) 1,
    |2 * ∑ j ∈ range n, w j * mu j * rho y (mu j) - 2 * ∫ z in (0 : ℝ)..1, z * rho y z| ≤ η := by
  obtain ⟨d, hd⟩ := quad_family (X := Set.Icc (0 : ℝ) 1) (g := fun x z => z * rho x z) (ContinuousOn.mul (by fun_prop)
    (hr.cont.comp (f := fun p : Set.Icc (0 : ℝ) 1 × ℝ => ((p.1 : ℝ), p.2)) (by fun_prop) fun p hp => ⟨p.1.2, hp.2⟩)) (half_pos hη)
  refine ⟨d, fun n mu w hq y hy => ?_⟩
  have := hd n mu w hq ⟨y, hy⟩
  rw [← mul_sub, abs_mul, abs_two]
  simp only [mul_assoc] at this ⊢
  linarith


/-- **C109.** Let `v` solve the transfer equation of an atmosphere for all directions, above a surface that absorbs some of the light. For every accuracy `ε` there is a number of
streams beyond which every call that describes this atmosphere, and whose boundary values are sampled from those of `v`, returns azimuthally averaged intensities within `ε` of `v` at
every depth and stream, and fluxes within `ε` of the exact ones. The number of streams does not depend on depth or stream. -/
theorem C109_converges (hacc : Accepted a) (hpk : ∀ l < a.tauArr.n, peak a l < 1) (hn : NoNeglect a) (hpos : NonnegScatteringAll a)
    {rho : ℕ → ℝ → ℝ → ℝ} (hsf : AbsorbingSurface (rho 0)) (hv : ExactSolution a (rho 0) up down v) {ε : ℝ} (hε : 0 < ε) :
    ∃ N₀ : ℕ, ∀ (E : Ext) (b : Args) (J : Junk) (R : Solved) (F : Fields), SameAtmosphere a b → N₀ ≤ nHalf b → Sampled b (node E b) up down →
      SurfaceIs b rho → Azimuthless b.bpos → Azimuthless b.bneg → Rescalable b → Sound E b → pydisort E J b = .ok R → Evaluates b R F →
      ∀ t, 0 ≤ t → t ≤ bottom a → (∀ i < 2 * nHalf b, |F.u0 t i - v t (stream (nHalf b) (node E b) i)| ≤ ε)
        ∧ |F.up t - upFluxExact (v t)| ≤ ε
        ∧ ∀ l < a.tauArr.n, InLayer a l t →
          |F.diffuse t + F.direct t - (downFluxExact (v t) + a.I0 * a.mu0 * Real.exp (-tauStar a l t / a.mu0))| ≤ ε := by
  have hpi := Real.two_le_pi
  have hbot0 : 0 ≤ bottom a := by
    have := bdry_le hacc (Nat.zero_le a.tauArr.n) le_rfl
    rwa [bdry_zero, bdry_bottom hacc] at this
  have hom : ∀ l < a.tauArr.n, 0 < 1 - omegaStar a l := by
    intro l hl
    have := (effAlbedo_range hacc hl (hpk l hl)).2.1
    rw [effAlbedo_eq_omegaStar hn hl] at this
    linarith
  obtain ⟨κ, hκ, habs⟩ := hsf.absorbs
  set ε' := ε / (2 * Real.pi) with hε'
  have he0 : 0 < ε' := by positivity
  have he1 : Real.pi * ε' = ε / 2 := by rw [hε']; field_simp
  have he2 : ε' ≤ ε := by nlinarith [Real.pi_pos]
  have hsc : ∀ l < a.tauArr.n, ∃ d : ℕ, ∀ n mu w, Rule d n mu w → ∀ t ∈ Set.Icc 0 (bottom a), ∀ y ∈ Set.Icc (-1 : ℝ) 1,
      |∑ j ∈ range (2 * n), streamW n w j * scatD (omegaStar a l) (nLeg a) (legStar a l) 0 y (stream n mu j) * v t (stream n mu j)
        - scatterExact a l (v t) y| ≤ ε' * (1 - omegaStar a l) := fun l hl => scatter_small hv.tame (continuous_scatD _ _ _).continuousOn (mul_pos he0 (hom l hl))
  choose! d₁ h₁ using hsc
  obtain ⟨d₂, h₂⟩ := reflect_small hv.tame hbot0 hsf (η := ε' * (κ / 2)) (by positivity)
  obtain ⟨d₃, h₃⟩ := reflectance_small hsf (η := κ / 2) (by positivity)
  obtain ⟨d₄, h₄⟩ := flux_small hv.tame (η := ε / 2) (by positivity)
  refine ⟨max (max ((range a.tauArr.n).sup d₁) d₂) (max d₃ d₄) + 1, fun E b J R F hab hN hsm hrho hbp hbn hres hS h hF t ht0 ht1 => ?_⟩
  have hg := hS.gauss
  have q₁ : ∀ l < a.tauArr.n, Rule (d₁ l) (nHalf b) (node E b) (weight E b) := fun l hl => rule_of_gauss hg (by
    have := le_sup (f := d₁) (mem_range.2 hl); omega)
  have q₂ : Rule d₂ (nHalf b) (node E b) (weight E b) := rule_of_gauss hg (by omega)
  have q₃ : Rule d₃ (nHalf b) (node E b) (weight E b) := rule_of_gauss hg (by omega)
  have q₄ : Rule d₄ (nHalf b) (node E b) (weight E b) := rule_of_gauss hg (by omega)
  have hnode : ∀ i < nHalf b, node E b i ∈ Set.Icc (0 : ℝ) 1 := fun i hi => ⟨(node_pos hg hi).1.le, (node_pos hg hi).2.le⟩
  have hrefl : ∀ i < nHalf b, 2 * ∑ j ∈ range (nHalf b), weight E b j * node E b j * rho 0 (node E b i) (node E b j) ≤ 1 - κ / 2 := by
    intro i hi
    have := (abs_le.1 (h₃ _ _ _ q₃ _ (hnode i hi))).2
    have := habs _ (hnode i hi)
    linarith
  have hlayer : ∀ l < a.tauArr.n, ∀ t, InLayer a l t → t ∈ Set.Icc 0 (bottom a) := by
    intro l hl t ht
    have b1 := bdry_le hacc (Nat.zero_le l) hl.le
    have b2 := bdry_le hacc (show l + 1 ≤ a.tauArr.n from hl) le_rfl
    rw [bdry_zero] at b1
    rw [bdry_bottom hacc] at b2
    exact ⟨b1.trans ht.1, ht.2.trans b2⟩
  have hk : NonnegScattering b (node E b) := by
    intro l hl i hi j hj
    rw [kernel_zero_eq (hab.noNeglect hn) hl, hab.omegaStar_eq, hab.nLeg, hab.legStar_eq]
    exact hpos l (by rwa [hab.tau] at hl) _ (stream_mem hg hi).1 _ (stream_mem hg hj).1
  have hd : ScatterDefect b (node E b) (weight E b) v ε' := by
    intro l hl t ht i hi
    rw [hab.tau] at hl
    rw [hab.omegaStar_eq, hab.nLeg, hab.legStar_eq, hab.scatterExact_eq]
    exact h₁ l hl _ _ _ (q₁ l hl) t (hlayer l hl t (hab.inLayer.1 ht)) _ (stream_mem hg hi).1
  have hd' : ReflectDefect b (node E b) (weight E b) (rho 0) v ε' := by
    intro hm i hi
    unfold reflectance
    rw [if_pos hm, hab.bottom_eq]
    refine (h₂ _ _ _ q₂ _ (hnode i hi)).trans (mul_le_mul_of_nonneg_left ?_ he0.le)
    have := hrefl i hi
    linarith
  have core := discretisation_core h hS hres hbp hbn hrho (fun i hi j hj => hsf.nonneg _ (hnode i hi) _ (hnode j hj)) (fun i hi => by
      unfold reflectance
      split_ifs
      · have := hrefl i hi; linarith
      · exact zero_le_one) hk (hab.noNeglect hn) (hab.exact hv) hsm hd hd' hF t ht0 (by rwa [hab.bottom_eq])
  obtain ⟨c1, c2, c3⟩ := core
  obtain ⟨x1, x2⟩ := h₄ _ _ _ q₄ t ⟨ht0, ht1⟩
  refine ⟨fun i hi => (c1 i hi).trans he2, ?_, fun l hl hin => ?_⟩
  · refine c2.trans ?_
    unfold hemiFlux
    linarith
  · have := c3 l (by rwa [hab.tau]) (hab.inLayer.2 hin)
    rw [hab.beam, hab.angle, hab.tauStar_eq] at this
    refine this.trans ?_
    unfold hemiFlux
    linarith

end Pydisort

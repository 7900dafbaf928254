import Verif.Props.Full
import Verif.FullSlab
import Verif.Props.Exact
import Verif.Witness
import Mathlib.Analysis.SpecificLimits.Normed
import Mathlib.Analysis.Real.Cardinality

/-!
# C116: the transfer equation with the whole phase function has exactly one solution

Also here: an atmosphere with a Henyey–Greenstein phase function, which has infinitely many coefficients, and for every number of streams a call that truncates it. It meets the hypotheses of
C115 and C116.
-/

namespace Pydisort
open Finset Spec MeasureTheory

section
variable {a : Args} {g : ℕ → ℕ → ℝ} {rho : ℝ → ℝ → ℝ} {up down : ℝ → ℝ}

/-- **C116.** Before truncation and delta-M scaling the transfer equation has a bounded solution for every accepted atmosphere with non-negative phase functions whose Legendre series
converges absolutely, a surface that absorbs and continuous bounded illumination; and it has only one. -/
theorem C116_full_solution_exists (hacc : Accepted a) (hgs : ∀ l < a.tauArr.n, PhaseSeries (g l)) (hpos : NonnegMean a g) (hsf : AbsorbingSurface rho)
    (hu : ContinuousOn up (Set.Ioc 0 1)) (hu' : ∃ M, ∀ y ∈ Set.Ioc (0 : ℝ) 1, |up y| ≤ M) (hd : ContinuousOn down (Set.Ioc 0 1))
    (hd' : ∃ M, ∀ y ∈ Set.Ioc (0 : ℝ) 1, |down y| ≤ M) :
    (∃ v, FullSolution a g rho up down v)
      ∧ ∀ v v', FullSolution a g rho up down v → FullSolution a g rho up down v' → ∀ t ∈ Set.Icc 0 (bottom a), ∀ y ∈ Set.Icc (-1 : ℝ) 1, y ≠ 0 → v t y = v' t y := by
  obtain ⟨ω, hval⟩ := fullSlab_valid hacc hgs hpos hsf hu hu' hd hd'
  refine ⟨?_, fun v v' hv hv' t ht y hy hy0 => ?_⟩
  · obtain ⟨v, hv⟩ := slab_exists hval
    exact ⟨v, (full_iff hacc).2 hv⟩
  · exact slab_unique hval ((full_iff hacc).1 hv) ((full_iff hacc).1 hv') ht ⟨hy, hy0⟩
end

/-! ### A Henyey–Greenstein atmosphere -/

/-- The coefficients of the Henyey–Greenstein phase function with asymmetry 1/5. -/
noncomputable def hg (k : ℕ) : ℝ := (1 / 5) ^ k

theorem hg_hasSum : HasSum (fun k : ℕ => (2 * (k : ℝ) + 1) * |hg k|) (15 / 8) := by
  have h1 := (hasSum_coe_mul_geometric_of_norm_lt_one (r := (1 / 5 : ℝ)) (by norm_num)).mul_left 2
  have h2 := hasSum_geometric_of_norm_lt_one (ξ := (1 / 5 : ℝ)) (by norm_num)
  have he : (fun k : ℕ => (2 * (k : ℝ) + 1) * |hg k|) = fun k : ℕ => 2 * ((k : ℝ) * (1 / 5) ^ k) + (1 / 5) ^ k := by
    funext k
    rw [hg, abs_of_pos (by positivity)]
    ring
  rw [he, show (15 / 8 : ℝ) = 2 * (1 / 5 / (1 - 1 / 5) ^ 2) + (1 - 1 / 5)⁻¹ by norm_num]
  exact h1.add h2

theorem hg_phase : PhaseSeries hg := ⟨pow_zero _, hg_hasSum.summable⟩

theorem hg_decay : Filter.Tendsto (fun k : ℕ => (k : ℝ) ^ 2 * hg k) Filter.atTop (nhds 0) :=
  tendsto_pow_const_mul_const_pow_of_abs_lt_one 2 (by norm_num)

theorem hg_nonneg {x y : ℝ} (hx : x ∈ Set.Icc (-1 : ℝ) 1) (hy : y ∈ Set.Icc (-1 : ℝ) 1) : 0 ≤ meanPhase hg x y := by
  have h := truncation_le hg_phase 0 1 hx hy
  have ht : tailSum hg 1 = 7 / 8 := by
    have := hg_hasSum.summable.sum_add_tsum_nat_add 1
    rw [hg_hasSum.tsum_eq] at this
    unfold tailSum
    simp only [sum_range_one, hg, pow_zero, abs_one, Nat.cast_zero] at this
    simp only [hg]
    linarith
  rw [ht] at h
  simp only [sum_range_one, hg, pow_zero, legendreP_zero, Polynomial.eval_one, Nat.cast_zero] at h
  have := (abs_le.1 h).2
  norm_num at this ⊢
  linarith

/-- Two layers with this phase function, cut after `n` coefficients, with the usual peak `f = g_n`, and `2 n` streams. -/
noncomputable def demoHG (n : ℕ) (x : ℝ) : Args := { demo n x with leg := ⟨2, 2 * n, fun _ k => hg k⟩, fArr := ⟨2, fun _ => hg n⟩ }

section
variable {n : ℕ}

theorem demoHG_nHalf (x : ℝ) : nHalf (demoHG n x) = n := demo_nHalf x

theorem demoHG_nLeg (x : ℝ) : nLeg (demoHG n x) = n := by simp [nLeg, demoHG, demo]

theorem demoHG_peak (x : ℝ) {l : ℕ} (hl : l < (demoHG n x).tauArr.n) : peak (demoHG n x) l = hg n := by
  unfold peak
  exact if_pos hl

theorem hg_lt_one (hn : 0 < n) : hg n < 1 := pow_lt_one₀ (by norm_num) (by norm_num) (by omega)

theorem demoHG_accepted (hn : 0 < n) {x : ℝ} (h0 : 0 < x) (h1 : x ≤ 1) : Accepted (demoHG n x) :=
  { demo_accepted hn h0 h1 with
    legVal := fun l _ k hk0 hk => by
      have hp : 0 < hg k := by unfold hg; positivity
      exact ⟨by show -1 < hg k; linarith, hg_lt_one (by omega)⟩
    peakLen := Or.inr rfl
    peak := fun k _ => ⟨by show 0 ≤ hg n; unfold hg; positivity, (hg_lt_one hn).le⟩ }

/-- One beam direction is regular for all numbers of streams. -/
theorem demoHG_beam : ∃ x : ℝ, 0 < x ∧ x ≤ 1 ∧ ∀ n, BeamRegular (demoHG n x) (node refExt (demoHG n x)) (weight refExt (demoHG n x)) := by
  set bad : ℕ → Set ℝ := fun n => {x | x ∈ Set.Ioc (0 : ℝ) 1 ∧ ¬ BeamRegular (demoHG n x) (node refExt (demoHG n x)) (weight refExt (demoHG n x))} with hbad
  have hfin : ∀ n, (bad n).Finite := by
    intro n
    by_contra hinf
    obtain ⟨x, hx, hb⟩ := exists_beamRegular_in (demoHG n 1) (node refExt (demoHG n 1)) (weight refExt (demoHG n 1)) (S := bad n) (fun _ h => h.1) hinf
    exact hx.2 hb
  have hc : (⋃ n, bad n).Countable := Set.countable_iUnion fun n => (hfin n).countable
  obtain ⟨x, hx, hx'⟩ : ∃ x ∈ Set.Ioc (0 : ℝ) 1, x ∉ ⋃ n, bad n := by
    by_contra h
    push Not at h
    have := Cardinal.Real.Ioc_countable_iff.1 (hc.mono h)
    linarith
  refine ⟨x, hx.1, hx.2, fun n => ?_⟩
  by_contra h
  exact hx' (Set.mem_iUnion.2 ⟨n, hx, h⟩)

theorem demoHG_wellPosed (hn : 0 < n) {x : ℝ} (h0 : 0 < x) (h1 : x ≤ 1) (hb : BeamRegular (demoHG n x) (node refExt (demoHG n x)) (weight refExt (demoHG n x))) :
    WellPosed refExt (demoHG n x) := by
  have hgc : GaussContract refExt (nHalf (demoHG n x)) := by rw [demoHG_nHalf]; exact refExt_gauss hn
  have hp : ∀ l < (demoHG n x).tauArr.n, 0 ≤ peak (demoHG n x) l ∧ peak (demoHG n x) l < 1 := fun l hl => by
    rw [demoHG_peak x hl]
    exact ⟨by unfold hg; positivity, hg_lt_one hn⟩
  refine ⟨demoHG_accepted hn h0 h1, hgc, refExt_eig, fun l hl => (hp l hl).2, ?_, hb, ?_, trivial, trivial, Or.inr rfl, Or.inr (by simp [demoHG, demo]),
    by simp [demoHG, demo]⟩
  · refine dissipates_of_nLeg_le hgc ?_ (demoHG_accepted hn h0 h1).omega hp ?_
    · rw [demoHG_nHalf, demoHG_nLeg]
    · intro l _ k _
      unfold leg
      split_ifs with h
      · exact le_rfl
      · exact pow_le_one₀ (by norm_num) (by norm_num)
  · exact passive_lambertian hgc (by rw [demoHG_nHalf]; exact hn) (by norm_num) rfl

theorem demoHG_sampled (x : ℝ) : Sampled (demoHG n x) (node refExt (demoHG n x)) (fun _ => 1) (fun _ => 1) := by
  constructor
  · intro i hi
    rfl
  · intro i hi
    rw [demoHG_nHalf] at hi
    simp only [demoHG, demo, bcVal, if_true, if_pos hi]
    split_ifs <;> rfl

theorem demoHG_visible (x : ℝ) : VisibleScattering (demoHG n x) := fun l _ => Or.inr (by
  simp only [demoHG, demo]
  split_ifs <;> norm_num)

/-- The hypotheses of C115 and C116 are met: an infinite phase function, a beam, a reflecting surface, and calls with the usual delta-M peak for every number of coefficients. -/
example : ∃ (a : Args) (g : ℕ → ℕ → ℝ) (rho : ℝ → ℝ → ℝ) (up down : ℝ → ℝ), Accepted a ∧ VisibleScattering a ∧ (∀ l < a.tauArr.n, PhaseSeries (g l)) ∧ NonnegMean a g
    ∧ (∀ l < a.tauArr.n, Filter.Tendsto (fun k : ℕ => (k : ℝ) ^ 2 * g l k) Filter.atTop (nhds 0)) ∧ AbsorbingSurface rho ∧ (∃ v, FullSolution a g rho up down v) ∧ 0 < a.I0
    ∧ (∀ l k, g l k ≠ 0) ∧ 0 < a.bdrf.length ∧ ∀ m, 0 < m → ∀ J, ∃ b R F, Truncates a g b ∧ nLeg b = m ∧ (∀ l < a.tauArr.n, 0 < peak b l ∧ peak b l = g l (nLeg b))
      ∧ Sampled b (node refExt b) up down ∧ SurfaceIs b (fun _ => rho) ∧ Azimuthless b.bpos ∧ Azimuthless b.bneg ∧ Rescalable b ∧ Sound refExt b
      ∧ pydisort refExt J b = .ok R ∧ Evaluates b R F := by
  obtain ⟨x, h0, h1, hb⟩ := demoHG_beam
  have hacc := demoHG_accepted (n := 1) one_pos h0 h1
  have hone : ContinuousOn (fun _ : ℝ => (1 : ℝ)) (Set.Ioc 0 1) := continuousOn_const
  have hone' : ∃ M, ∀ y ∈ Set.Ioc (0 : ℝ) 1, |(fun _ : ℝ => (1 : ℝ)) y| ≤ M := ⟨1, fun y _ => by simp⟩
  have hnn : NonnegMean (demoHG 1 x) (fun _ => hg) := fun l _ y hy z hz => hg_nonneg hy hz
  refine ⟨demoHG 1 x, fun _ => hg, fun _ _ => 1 / 3, fun _ => 1, fun _ => 1, hacc, demoHG_visible x, fun _ _ => hg_phase, hnn, fun _ _ => hg_decay,
    demoLinear_surface, (C116_full_solution_exists hacc (fun _ _ => hg_phase) hnn demoLinear_surface hone hone' hone hone').1, one_pos,
    fun _ k => by unfold hg; positivity, one_pos, fun m hm J => ?_⟩
  have hw := demoHG_wellPosed hm h0 h1 (hb m)
  have hr : Rescalable (demoHG m x) := demo_rescalable x
  obtain ⟨R, e⟩ := pydisort_isOk hw J
  obtain ⟨F, f⟩ := evaluates_exists e hw.sound hr
  refine ⟨demoHG m x, R, F, ⟨rfl, rfl, rfl, rfl, rfl, Iff.rfl, fun _ _ _ _ _ => rfl⟩, demoHG_nLeg x, fun l hl => ?_, demoHG_sampled x, fun k _ => demo_rho (n := m) x k,
    trivial, trivial, hr, hw.sound, e, f⟩
  rw [demoHG_peak (n := m) x hl, demoHG_nLeg]
  exact ⟨by unfold hg; positivity, rfl⟩

end

end Pydisort

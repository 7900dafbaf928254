import Verif.ModeSlab

/-!
# C110: the exact solution exists and is unique
# C111: calls with sufficiently many streams agree with each other
-/

namespace Pydisort
open Finset Spec MeasureTheory Topology

section
variable {a : Args}
/-- **C110.** The transfer equation for all directions that `pydisort` discretises has a bounded solution for every accepted atmosphere with `f < 1`, a non-negative phase function, a
surface that absorbs, and continuous bounded boundary illumination; and it has only one. -/
theorem C110_exact_solution_exists (hacc : Accepted a) (hpk : ∀ l < a.tauArr.n, peak a l < 1) (hpos : NonnegScatteringAll a) {rho : ℝ → ℝ → ℝ}
    (hsf : AbsorbingSurface rho) {up down : ℝ → ℝ} (hu : ContinuousOn up (Set.Ioc 0 1)) (hu' : ∃ M, ∀ y ∈ Set.Ioc (0 : ℝ) 1, |up y| ≤ M)
    (hd : ContinuousOn down (Set.Ioc 0 1)) (hd' : ∃ M, ∀ y ∈ Set.Ioc (0 : ℝ) 1, |down y| ≤ M) :
    (∃ v, ExactSolution a rho up down v)
      ∧ ∀ v v', ExactSolution a rho up down v → ExactSolution a rho up down v' → ∀ t ∈ Set.Icc 0 (bottom a), ∀ y ∈ Set.Icc (-1 : ℝ) 1, y ≠ 0 → v t y = v' t y := by
  have key := exactMode_exists hacc hpk (m := 0) (rho := rho) (fun l hl y hy => ?_) (fun _ => hsf.cont) (fun _ => ?_) hu hu' hd hd'
  · simpa only [exactMode_zero] using key
  · refine (le_of_eq (intervalIntegral.integral_congr fun z hz => ?_)).trans (scatD_mass hacc (hpk l hl) y).le
    rw [Set.uIcc_of_le (by norm_num)] at hz
    exact abs_of_nonneg (hpos l hl y hy z hz)
  · obtain ⟨κ, hκ, hk⟩ := hsf.absorbs
    refine ⟨κ, hκ, fun x hx => le_trans (le_of_eq ?_) (hk x hx)⟩
    rw [if_pos rfl, one_add_one_eq_two]
    congr 1
    refine intervalIntegral.integral_congr fun z hz => ?_
    rw [Set.uIcc_of_le zero_le_one] at hz
    simp only [abs_of_nonneg (hsf.nonneg x hx z hz)]

/-- **C111.** With sufficiently many streams the answers no longer depend on their number: any two calls that describe the same atmosphere, illuminated by samples of the same continuous
functions, with at least `2 N₀` streams each, return fluxes that differ by at most `ε` at every depth. -/
theorem C111_streams_agree (hacc : Accepted a) (hpk : ∀ l < a.tauArr.n, peak a l < 1) (hn : NoNeglect a) (hpos : NonnegScatteringAll a)
    {rho : ℕ → ℝ → ℝ → ℝ} (hsf : AbsorbingSurface (rho 0)) {up down : ℝ → ℝ} (hu : ContinuousOn up (Set.Ioc 0 1))
    (hu' : ∃ M, ∀ y ∈ Set.Ioc (0 : ℝ) 1, |up y| ≤ M) (hd : ContinuousOn down (Set.Ioc 0 1)) (hd' : ∃ M, ∀ y ∈ Set.Ioc (0 : ℝ) 1, |down y| ≤ M)
    {ε : ℝ} (hε : 0 < ε) :
    ∃ N₀ : ℕ, ∀ (E E' : Ext) (b b' : Args) (J J' : Junk) (R R' : Solved) (F F' : Fields),
      (SameAtmosphere a b ∧ N₀ ≤ nHalf b ∧ Sampled b (node E b) up down ∧ SurfaceIs b rho ∧ Azimuthless b.bpos ∧ Azimuthless b.bneg ∧ Rescalable b ∧ Sound E b
        ∧ pydisort E J b = .ok R ∧ Evaluates b R F) →
      (SameAtmosphere a b' ∧ N₀ ≤ nHalf b' ∧ Sampled b' (node E' b') up down ∧ SurfaceIs b' rho ∧ Azimuthless b'.bpos ∧ Azimuthless b'.bneg ∧ Rescalable b'
        ∧ Sound E' b' ∧ pydisort E' J' b' = .ok R' ∧ Evaluates b' R' F') →
      ∀ t, 0 ≤ t → t ≤ bottom a → |F.up t - F'.up t| ≤ ε ∧ |F.diffuse t + F.direct t - (F'.diffuse t + F'.direct t)| ≤ ε
        ∧ ∀ i < 2 * nHalf b, ∀ i' < 2 * nHalf b', stream (nHalf b) (node E b) i = stream (nHalf b') (node E' b') i' → |F.u0 t i - F'.u0 t i'| ≤ ε := by
  obtain ⟨v, hv⟩ := (C110_exact_solution_exists hacc hpk hpos hsf hu hu' hd hd').1
  obtain ⟨N₀, hN⟩ := C109_converges hacc hpk hn hpos hsf hv (half_pos hε)
  refine ⟨N₀, fun E E' b b' J J' R R' F F' ⟨p1, p2, p3, p4, p5, p6, p7, p8, p9, p10⟩ ⟨q1, q2, q3, q4, q5, q6, q7, q8, q9, q10⟩ t ht0 ht1 => ?_⟩
  obtain ⟨x1, x2, x3⟩ := hN E b J R F p1 p2 p3 p4 p5 p6 p7 p8 p9 p10 t ht0 ht1
  obtain ⟨y1, y2, y3⟩ := hN E' b' J' R' F' q1 q2 q3 q4 q5 q6 q7 q8 q9 q10 t ht0 ht1
  obtain ⟨l, hl, hin⟩ := exists_layer hacc ht0 ht1
  have x3 := x3 l hl hin
  have y3 := y3 l hl hin
  have tri : ∀ p q r : ℝ, |p - r| ≤ ε / 2 → |q - r| ≤ ε / 2 → |p - q| ≤ ε := fun p q r h1 h2 => by
    rw [abs_le] at *
    constructor <;> linarith [h1.1, h1.2, h2.1, h2.2]
  refine ⟨tri _ _ _ x2 y2, tri _ _ _ x3 y3, fun i hi i' hi' hii => tri _ _ _ (x1 i hi) ?_⟩
  rw [hii]
  exact y1 i' hi'

/-! ### The hypotheses are met -/

theorem demoMild_nonneg (n : ℕ) (x : ℝ) : NonnegScatteringAll (demoMild n x) := by
  intro l hl y hy z hz
  unfold scatD
  exact mul_nonneg (by have := demoMild_omega x hl; positivity) (demoMild_moment x hl (abs_le.2 hy) (abs_le.2 hz))

/-- C110 applies to two anisotropically scattering, delta-M scaled layers with internal sources, lit by a beam, above a reflecting surface; the boundary values are those of the call. -/
example {n : ℕ} (hn : 0 < n) {x : ℝ} (h0 : 0 < x) (h1 : x ≤ 1) : ∃ v, ExactSolution (demoMild n x) (fun _ _ => 1 / 3) (fun _ => 1) (fun _ => 1) v :=
  (C110_exact_solution_exists (demoMild_accepted hn h0 h1) (fun l hl => by rw [show peak (demoMild n x) l = 1 / 8 from demo_peak (n := n) (x := x) hl]; norm_num)
    (demoMild_nonneg n x) demoLinear_surface continuousOn_const ⟨1, fun _ _ => by simp⟩ continuousOn_const ⟨1, fun _ _ => by simp⟩).1

/-- The solution found is not the zero field: it takes the value of the illumination at the top. -/
example {n : ℕ} {x : ℝ} {v : ℝ → ℝ → ℝ} (h : ExactSolution (demoMild n x) (fun _ _ => 1 / 3) (fun _ => 1) (fun _ => 1) v) : v 0 (-1) = 1 :=
  h.top 1 ⟨one_pos, le_rfl⟩

/-- The hypotheses of C111 are met: calls with every number of streams that describe one atmosphere. -/
example : ∃ (a : Args) (rho : ℕ → ℝ → ℝ → ℝ) (up down : ℝ → ℝ), Accepted a ∧ (∀ l < a.tauArr.n, peak a l < 1) ∧ NoNeglect a
    ∧ NonnegScatteringAll a ∧ AbsorbingSurface (rho 0) ∧ ContinuousOn up (Set.Ioc 0 1) ∧ (∃ M, ∀ y ∈ Set.Ioc (0 : ℝ) 1, |up y| ≤ M)
    ∧ ContinuousOn down (Set.Ioc 0 1) ∧ (∃ M, ∀ y ∈ Set.Ioc (0 : ℝ) 1, |down y| ≤ M)
    ∧ ∀ m, 0 < m → ∀ J, ∃ b R F, SameAtmosphere a b ∧ nHalf b = m ∧ Sampled b (node refExt b) up down ∧ SurfaceIs b rho ∧ Azimuthless b.bpos ∧ Azimuthless b.bneg
      ∧ Rescalable b ∧ Sound refExt b ∧ pydisort refExt J b = .ok R ∧ Evaluates b R F := by
  have hw := demoLinear_wellPosed one_pos
  refine ⟨demoLinear 1, fun _ _ _ => 1 / 3, fun y => 20 / 9 + y, fun y => 1 - y, hw.accepted, hw.peak, demoLinear_noNeglect, demoLinear_nonneg,
    demoLinear_surface, by fun_prop, ⟨4, fun y hy => ?_⟩, by fun_prop, ⟨4, fun y hy => ?_⟩, fun m hm J => ?_⟩
  · rw [abs_le]; constructor <;> linarith [hy.1, hy.2]
  · rw [abs_le]; constructor <;> linarith [hy.1, hy.2]
  · have hw' := demoLinear_wellPosed hm
    obtain ⟨R, e⟩ := pydisort_isOk hw' J
    obtain ⟨F, f⟩ := evaluates_exists e hw'.sound (demoLinear_rescalable hm)
    exact ⟨demoLinear m, R, F, demoLinear_same m, demoLinear_nHalf, demoLinear_sampled, fun k _ => demo_rho (n := m) 1 k, trivial, trivial, demoLinear_rescalable hm, hw'.sound, e, f⟩

end

end Pydisort

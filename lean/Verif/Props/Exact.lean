import Verif.Props.Convergence

/-!
# C108: fields of low degree are reproduced exactly, and examples for C108 and C109
-/

namespace Pydisort
open Finset Spec MeasureTheory Polynomial

variable {E : Ext} {a : Args} {up down : ℝ → ℝ} {v : ℝ → ℝ → ℝ}

/-- The scattering kernel as a polynomial in the second direction. -/
noncomputable def scatPoly (a : Args) (l : ℕ) (y : ℝ) : ℝ[X] :=
  ∑ k ∈ range (nLeg a), C (omegaStar a l / 2 * ((2 * (k : ℝ) + 1) * legStar a l k) * (legendreP k).eval y) * legendreP k

theorem scatPoly_eval (a : Args) (l : ℕ) (y z : ℝ) : (scatPoly a l y).eval z = scatD (omegaStar a l) (nLeg a) (legStar a l) 0 y z := by
  unfold scatPoly scatD phaseMoment assocLegendre
  rw [eval_finset_sum, mul_sum, Nat.Ico_zero_eq_range]
  refine sum_congr rfl fun k _ => ?_
  have : ((k.factorial : ℝ)) ≠ 0 := by positivity
  simp [this]
  ring

theorem scatPoly_degree (a : Args) (l : ℕ) (y : ℝ) : (scatPoly a l y).natDegree ≤ nLeg a - 1 := by
  refine natDegree_sum_le_of_forall_le _ _ fun k hk => ?_
  have := mem_range.1 hk
  exact (natDegree_C_mul_le _ _).trans ((natDegree_legendreP k).trans (by omega))

theorem natDegree_comp_neg (p : ℝ[X]) : (p.comp (-X)).natDegree ≤ p.natDegree := by
  refine natDegree_comp_le.trans ?_
  simp

theorem comp_neg_eval (p : ℝ[X]) (z : ℝ) : (p.comp (-X)).eval z = p.eval (-z) := by simp [eval_comp]

theorem integral_congr_Ioc {f g : ℝ → ℝ} (h : ∀ z ∈ Set.Ioc (0 : ℝ) 1, f z = g z) : ∫ z in (0 : ℝ)..1, f z = ∫ z in (0 : ℝ)..1, g z :=
  intervalIntegral.integral_congr_ae (ae_of_all _ fun z hz => h z (by rwa [Set.uIoc_of_le zero_le_one] at hz))

theorem half_exact_of (hg : GaussContract E (nHalf a)) {f : ℝ → ℝ} (p : ℝ[X]) (hp : p.natDegree ≤ 2 * nHalf a - 1) (h : ∀ z ∈ Set.Ioc (0 : ℝ) 1, f z = p.eval z) :
    ∑ i ∈ range (nHalf a), weight E a i * f (node E a i) = ∫ z in (0 : ℝ)..1, f z := by
  rw [integral_congr_Ioc h, ← half_exact hg p hp]
  exact sum_congr rfl fun i hi => by rw [h _ ⟨(node_pos hg (mem_range.1 hi)).1, (node_pos hg (mem_range.1 hi)).2.le⟩]

/-- **C108, exactness.** If the exact field is at every depth a polynomial of the direction in either hemisphere, of a degree `k` such that the quadrature integrates the product with the
phase function and with the cosine, and the surface is Lambertian, then the code makes no discretisation error: it returns the exact azimuthally averaged intensities and fluxes. -/
theorem C108_exact_on_polynomials {J : Junk} {R : Solved} (h : pydisort E J a = .ok R) (hS : Sound E a) (hr : Rescalable a)
    (hbp : Azimuthless a.bpos) (hbn : Azimuthless a.bneg) {rho : ℕ → ℝ → ℝ → ℝ} (hrho : SurfaceIs a rho)
    (hsf : FairSurface a (node E a) (weight E a) (rho 0)) {A : ℝ} (hA : ∀ x y, rho 0 x y = A) (hk : NonnegScattering a (node E a)) (hn : NoNeglect a)
    (hv : ExactSolution a (rho 0) up down v) (hsm : Sampled a (node E a) up down) {k : ℕ} (hd1 : k + nLeg a ≤ 2 * nHalf a) (hd2 : k + 2 ≤ 2 * nHalf a)
    (hp : ∀ t, 0 ≤ t → t ≤ bottom a → ∃ p q : ℝ[X], p.natDegree ≤ k ∧ q.natDegree ≤ k ∧ ∀ z ∈ Set.Ioc (0 : ℝ) 1, v t z = p.eval z ∧ v t (-z) = q.eval z)
    {F : Fields} (hF : Evaluates a R F) :
    ∀ t, 0 ≤ t → t ≤ bottom a → (∀ i < 2 * nHalf a, F.u0 t i = v t (stream (nHalf a) (node E a) i)) ∧ F.up t = upFluxExact (v t)
      ∧ ∀ l < a.tauArr.n, InLayer a l t → F.diffuse t + F.direct t = downFluxExact (v t) + a.I0 * a.mu0 * Real.exp (-tauStar a l t / a.mu0) := by
  have hacc := (pydisort_ok h).1
  have hg := hS.gauss
  have hL : 0 < nLeg a := by
    have := hacc.nLeg.1
    unfold nLeg; omega
  have hbot0 : 0 ≤ bottom a := by
    have := bdry_le hacc (Nat.zero_le a.tauArr.n) le_rfl
    rwa [bdry_zero, bdry_bottom hacc] at this
  have hd : ScatterDefect a (node E a) (weight E a) v 0 := by
    intro l hl t ht i hi
    have b1 := bdry_le hacc (Nat.zero_le l) hl.le
    have b2 := bdry_le hacc (show l + 1 ≤ a.tauArr.n from hl) le_rfl
    rw [bdry_zero] at b1
    rw [bdry_bottom hacc] at b2
    obtain ⟨p, q, hp1, hq1, hpq⟩ := hp t (b1.trans ht.1) (ht.2.trans b2)
    set y := stream (nHalf a) (node E a) i
    rw [zero_mul, abs_nonpos_iff, sub_eq_zero]
    simp only [mul_assoc]
    rw [sum_streams (nHalf a) (node E a) (weight E a) (fun z => scatD (omegaStar a l) (nLeg a) (legStar a l) 0 y z * v t z)]
    have e1 : ∀ z ∈ Set.Ioc (0 : ℝ) 1, scatD (omegaStar a l) (nLeg a) (legStar a l) 0 y z * v t z = (scatPoly a l y * p).eval z := fun z hz => by
      rw [eval_mul, scatPoly_eval, (hpq z hz).1]
    have e2 : ∀ z ∈ Set.Ioc (0 : ℝ) 1, scatD (omegaStar a l) (nLeg a) (legStar a l) 0 y (-z) * v t (-z) = ((scatPoly a l y).comp (-X) * q).eval z := fun z hz => by
      rw [eval_mul, comp_neg_eval, scatPoly_eval, (hpq z hz).2]
    have hdeg := scatPoly_degree a l y
    rw [half_exact_of hg (f := fun z => scatD (omegaStar a l) (nLeg a) (legStar a l) 0 y z * v t z + scatD (omegaStar a l) (nLeg a) (legStar a l) 0 y (-z) * v t (-z))
      (scatPoly a l y * p + (scatPoly a l y).comp (-X) * q) ?_ fun z hz => by rw [eval_add, ← e1 z hz, ← e2 z hz]]
    · unfold scatterExact
      rw [integral_halves]
      · refine intervalIntegrable_neg (IntervalIntegrable.congr_ae (((scatPoly a l y).comp (-X) * q).continuous.intervalIntegrable 0 1) ?_)
        rw [Set.uIoc_of_le zero_le_one]
        exact (ae_restrict_iff' measurableSet_Ioc).2 (ae_of_all _ fun z hz => (e2 z hz).symm)
      · refine IntervalIntegrable.congr_ae ((scatPoly a l y * p).continuous.intervalIntegrable 0 1) ?_
        rw [Set.uIoc_of_le zero_le_one]
        exact (ae_restrict_iff' measurableSet_Ioc).2 (ae_of_all _ fun z hz => (e1 z hz).symm)
    · refine (natDegree_add_le _ _).trans (max_le ?_ ?_)
      · exact natDegree_mul_le.trans (by omega)
      · have := natDegree_comp_neg (scatPoly a l y)
        exact natDegree_mul_le.trans (by omega)
  have hd' : ReflectDefect a (node E a) (weight E a) (rho 0) v 0 := by
    intro _ i _
    obtain ⟨p, q, hp1, hq1, hpq⟩ := hp _ hbot0 le_rfl
    rw [zero_mul, abs_nonpos_iff, sub_eq_zero]
    unfold reflectExact
    simp only [hA, mul_assoc]
    rw [half_exact_of hg (f := fun z => z * (A * v (bottom a) (-z))) (X * (C A * q)) ?_ fun z hz => by rw [(hpq z hz).2]; simp]
    refine natDegree_mul_le.trans ?_
    have := natDegree_C_mul_le A q
    rw [natDegree_X]
    omega
  intro t h0 h1
  obtain ⟨c1, c2, c3⟩ := C108_discretisation_error h hS hr hbp hbn hrho hsf hk hn hv hsm hd hd' hF t h0 h1
  obtain ⟨p, q, hp1, hq1, hpq⟩ := hp t h0 h1
  have f1 : hemiFlux a (node E a) (weight E a) (fun i => v t (node E a i)) = upFluxExact (v t) := by
    unfold hemiFlux upFluxExact
    rw [← half_exact_of hg (X * p) (f := fun z => z * v t z) (natDegree_mul_le.trans (by rw [natDegree_X]; omega)) fun z hz => by rw [(hpq z hz).1]; simp]
    congr 1
    exact sum_congr rfl fun i _ => by ring
  have f2 : hemiFlux a (node E a) (weight E a) (fun i => v t (-node E a i)) = downFluxExact (v t) := by
    unfold hemiFlux downFluxExact
    rw [← half_exact_of hg (X * q) (f := fun z => z * v t (-z)) (natDegree_mul_le.trans (by rw [natDegree_X]; omega)) fun z hz => by rw [(hpq z hz).2]; simp]
    congr 1
    exact sum_congr rfl fun i _ => by ring
  rw [f1, sub_self, abs_zero, mul_zero, add_zero] at c2
  refine ⟨fun i hi => sub_eq_zero.1 (abs_nonpos_iff.1 (c1 i hi)), sub_eq_zero.1 (abs_nonpos_iff.1 c2), fun l hl hin => ?_⟩
  have := c3 l hl hin
  rw [f2, sub_self, abs_zero, mul_zero, add_zero] at this
  exact sub_eq_zero.1 (abs_nonpos_iff.1 this)

/-! ### An exact solution in closed form -/

section
variable {n : ℕ}

/-- Two isotropically scattering layers whose internal source grows linearly with depth, `S(τ) = 1 + τ`, above a Lambertian surface of albedo `1/3`, lit from above by `1 - μ`; the
surface emits `20/9 + μ`. -/
noncomputable def demoLinear (n : ℕ) : Args :=
  { demo n 1 with
    I0 := 0
    leg := ⟨2, 1, fun _ _ => 1⟩
    NLeg := some 1
    NFourier := some 1
    fArr := ⟨2, fun _ => 0⟩
    bpos := .vec ⟨n, fun i => 20 / 9 + ((refExt.leggauss n).1 i + 1) / 2⟩
    bneg := .vec ⟨n, fun i => 1 - ((refExt.leggauss n).1 i + 1) / 2⟩ }

theorem demoLinear_nHalf : nHalf (demoLinear n) = n := demo_nHalf 1

theorem demoLinear_node (i : ℕ) : node refExt (demoLinear n) i = ((refExt.leggauss n).1 i + 1) / 2 := by
  unfold node; rw [demoLinear_nHalf]

theorem demoLinear_peak (l : ℕ) : peak (demoLinear n) l = 0 := by
  unfold peak; split_ifs <;> rfl

theorem demoLinear_scale (l : ℕ) : scale (demoLinear n) l = 1 := by unfold scale; rw [demoLinear_peak]; ring

theorem demoLinear_omegaStar (l : ℕ) : omegaStar (demoLinear n) l = if l = 0 then 1 / 2 else 3 / 4 := by
  unfold omegaStar; rw [demoLinear_peak, demoLinear_scale]; simp [demoLinear, demo]

theorem demoLinear_scatD (l : ℕ) (x y : ℝ) :
    scatD (omegaStar (demoLinear n) l) (nLeg (demoLinear n)) (legStar (demoLinear n) l) 0 x y = (if l = 0 then 1 / 2 else 3 / 4) / 2 := by
  have h1 : nLeg (demoLinear n) = 1 := rfl
  have h2 : legStar (demoLinear n) l 0 = 1 := by unfold legStar; rw [demoLinear_peak]; simp [leg]
  unfold scatD phaseMoment
  rw [h1, demoLinear_omegaStar, Nat.Ico_zero_eq_range, sum_range_one, h2, show assocLegendre 0 0 x = 1 by simp [assocLegendre, legendreP_zero],
    show assocLegendre 0 0 y = 1 by simp [assocLegendre, legendreP_zero]]
  simp

theorem demoLinear_wellPosed (hn : 0 < n) : WellPosed refExt (demoLinear n) := by
  have hh : nHalf (demoLinear n) = n := demoLinear_nHalf
  have hacc : Accepted (demoLinear n) :=
    { demo_accepted (n := n) hn one_pos le_rfl with
      beam := le_rfl
      beamDir := fun h => absurd h (lt_irrefl _)
      peakLen := Or.inr rfl
      peak := fun k _ => ⟨le_rfl, zero_le_one⟩
      legRows := rfl
      legVal := fun l _ k hk h1 => by simp only [demoLinear] at hk; omega
      legCols := by simp [demoLinear]
      modes := fun _ => by simp [demoLinear]
      nLeg := by simp only [demoLinear, demo, Option.getD_some]; omega
      bottom := Or.inr (Or.inr hh.symm)
      topBC := Or.inr (Or.inr hh.symm) }
  refine wellPosed_of hacc (by rw [hh]; exact hn) ?_ ?_ (beamRegular_dark rfl _ _) (Or.inr ⟨1 / 3, by norm_num, rfl⟩) trivial trivial (Or.inr rfl) rfl
  · intro l _
    rw [demoLinear_peak]; norm_num
  · rw [hh, show nLeg (demoLinear n) = 1 from rfl]; omega

theorem demoLinear_source {l : ℕ} (hl : l < 2) (t : ℝ) : source (demoLinear n) l t = 1 + t := by
  unfold source
  rw [if_pos (show l < (demoLinear n).s.r from hl), show (demoLinear n).s.c = 2 from rfl, sum_range_succ, sum_range_one]
  simp [demoLinear, demo]

theorem demoLinear_bottom : bottom (demoLinear n) = 2 := by
  change ((1 : ℕ) : ℝ) + 1 = 2; norm_num

/-- The intensity `1 + τ + μ` solves the transfer equation for all directions. -/
theorem demoLinear_exact : ExactSolution (demoLinear n) (fun _ _ => 1 / 3) (fun y => 20 / 9 + y) (fun y => 1 - y) (fun t y => 1 + t + y) where
  bounded := ⟨4, fun t ht y hy _ => by
    rw [demoLinear_bottom] at ht
    rw [abs_le]; constructor <;> linarith [ht.1, ht.2, hy.1, hy.2]⟩
  cont := by fun_prop
  ode := by
    intro l hl t _ _ y _ _
    refine ⟨1, by simpa using ((hasDerivAt_id t).const_add 1).add_const y, ?_⟩
    unfold rteAll scatterExact beamX
    simp only [demoLinear_scatD]
    rw [demoLinear_scale, demoLinear_source hl, intervalIntegral.integral_const_mul,
      intervalIntegral.integral_add (by simp) (by simp), show (demoLinear n).I0 = 0 from rfl]
    simp only [intervalIntegral.integral_const, integral_id, demoLinear, demo, smul_eq_mul]
    split_ifs <;> ring
  top := by intro y _; ring
  bot := by
    intro y _
    rw [if_pos (by simp [demoLinear, demo]), demoLinear_bottom, show (demoLinear n).I0 = 0 from rfl]
    unfold reflectExact
    have : ∀ z : ℝ, z * (1 / 3) * (1 + 2 + -z) = z - 1 / 3 * z ^ 2 := fun z => by ring
    simp only [this]
    rw [intervalIntegral.integral_sub (by simp) (Continuous.intervalIntegrable (by fun_prop) _ _), intervalIntegral.integral_const_mul, integral_id, integral_pow]
    norm_num
    ring

theorem demoLinear_sampled : Sampled (demoLinear n) (node refExt (demoLinear n)) (fun y => 20 / 9 + y) (fun y => 1 - y) := by
  constructor
  · intro i hi
    rw [demoLinear_nHalf] at hi
    rw [demoLinear_node]
    simp only [demoLinear, bcVal, if_true, if_pos hi]
    split_ifs with h1
    · rw [show i = 0 by omega]
    · rfl
  · intro i hi
    rw [demoLinear_nHalf] at hi
    rw [demoLinear_node]
    simp only [demoLinear, bcVal, if_true, if_pos hi]
    split_ifs with h1
    · rw [show i = 0 by omega]
    · rfl

theorem demoLinear_rescalable (hn : 0 < n) : Rescalable (demoLinear n) := by
  have hg : GaussContract refExt (nHalf (demoLinear n)) := (demoLinear_wellPosed hn).gauss
  refine Or.inl (Or.inr (Or.inl ⟨0, hn, ?_⟩))
  have := (node_pos hg (i := 0) (by rw [demoLinear_nHalf]; exact hn)).1
  rw [demoLinear_node] at this
  simp only
  linarith

theorem demoLinear_noNeglect : NoNeglect (demoLinear n) := by
  refine fun l hl => Or.inr ⟨0, le_rfl, by rw [show nLeg (demoLinear n) = 1 from rfl]; exact one_pos, ?_⟩
  have h2 : legStar (demoLinear n) l 0 = 1 := by unfold legStar; rw [demoLinear_peak]; simp [leg]
  rw [h2, demoLinear_omegaStar]
  split_ifs <;> norm_num

theorem demoLinear_nonneg : NonnegScatteringAll (demoLinear n) := by
  intro l _ x _ y _
  rw [demoLinear_scatD]
  split_ifs <;> norm_num

theorem demoLinear_surface : AbsorbingSurface (fun _ _ => 1 / 3) where
  cont := continuousOn_const
  nonneg := fun _ _ _ _ => by norm_num
  absorbs := ⟨1 / 2, by norm_num, fun _ _ => by rw [intervalIntegral.integral_mul_const, integral_id]; norm_num⟩

theorem demoLinear_fair (hn : 0 < n) : FairSurface (demoLinear n) (node refExt (demoLinear n)) (weight refExt (demoLinear n)) (fun _ _ => 1 / 3) where
  nonneg := fun _ _ _ _ => by norm_num
  beam := fun _ _ => by norm_num
  bounded := fun i _ => by
    unfold reflectance
    rw [if_pos (by simp [demoLinear, demo]), ← sum_mul, sum_weight_node (demoLinear_wellPosed hn).gauss (by rw [demoLinear_nHalf]; exact hn)]
    norm_num

/-- The hypotheses of C108 are met with four or more streams, and its conclusion is not vacuous: the code returns `1 + τ + μ`. -/
example (hn : 1 < n) (J : Junk) : ∃ R F, pydisort refExt J (demoLinear n) = .ok R ∧ Evaluates (demoLinear n) R F
    ∧ ∀ t, 0 ≤ t → t ≤ 2 → (∀ i < 2 * n, F.u0 t i = 1 + t + stream n (node refExt (demoLinear n)) i) ∧ F.up t = Real.pi * (1 + t) + 2 * Real.pi / 3 := by
  have hn0 : 0 < n := by omega
  have hw := demoLinear_wellPosed hn0
  have hg := hw.gauss
  obtain ⟨R, e⟩ := pydisort_isOk hw J
  obtain ⟨F, f⟩ := evaluates_exists e hw.sound (demoLinear_rescalable hn0)
  refine ⟨R, F, e, f, fun t h0 h1 => ?_⟩
  obtain ⟨c1, c2, -⟩ := C108_exact_on_polynomials (k := 1) (A := 1 / 3) e hw.sound (demoLinear_rescalable hn0) trivial trivial (rho := fun _ _ _ => 1 / 3)
    (fun m _ => demo_rho (n := n) 1 m) (demoLinear_fair hn0) (fun _ _ => rfl) (fun l hl i hi j hj => by
      rw [kernel_zero_eq demoLinear_noNeglect hl]
      exact demoLinear_nonneg l hl _ (stream_mem hg hi).1 _ (stream_mem hg hj).1) demoLinear_noNeglect demoLinear_exact demoLinear_sampled
    (by rw [demoLinear_nHalf, show nLeg (demoLinear n) = 1 from rfl]; omega) (by rw [demoLinear_nHalf]; omega)
    (fun t _ _ => ⟨C (1 + t) + X, C (1 + t) - X, by compute_degree, by compute_degree, fun z _ => by simp; ring⟩) f t h0
    (by rw [demoLinear_bottom]; exact h1)
  rw [demoLinear_nHalf] at c1
  refine ⟨c1, ?_⟩
  rw [c2]
  unfold upFluxExact
  have : ∀ z : ℝ, z * (1 + t + z) = (1 + t) * z + z ^ 2 := fun z => by ring
  simp only [this]
  rw [intervalIntegral.integral_add (Continuous.intervalIntegrable (by fun_prop) _ _) (by simp), intervalIntegral.integral_const_mul, integral_id, integral_pow]
  norm_num
  ring

theorem demoLinear_same (m : ℕ) : SameAtmosphere (demoLinear n) (demoLinear m) := ⟨rfl, rfl, rfl, rfl, rfl, rfl, rfl, rfl, rfl⟩

/-- The hypotheses of C109 are met: an atmosphere with an exact solution, and calls with every number of streams that describe it. -/
example : ∃ (a : Args) (rho : ℕ → ℝ → ℝ → ℝ) (up down : ℝ → ℝ) (v : ℝ → ℝ → ℝ), Accepted a ∧ (∀ l < a.tauArr.n, peak a l < 1) ∧ NoNeglect a
    ∧ NonnegScatteringAll a ∧ AbsorbingSurface (rho 0) ∧ ExactSolution a (rho 0) up down v
    ∧ ∀ m, 0 < m → ∀ J, ∃ b R F, SameAtmosphere a b ∧ nHalf b = m ∧ Sampled b (node refExt b) up down ∧ SurfaceIs b rho ∧ Azimuthless b.bpos ∧ Azimuthless b.bneg
      ∧ Rescalable b ∧ Sound refExt b ∧ pydisort refExt J b = .ok R ∧ Evaluates b R F := by
  have hw := demoLinear_wellPosed one_pos
  refine ⟨demoLinear 1, fun _ _ _ => 1 / 3, fun y => 20 / 9 + y, fun y => 1 - y, fun t y => 1 + t + y, hw.accepted, hw.peak, demoLinear_noNeglect, demoLinear_nonneg,
    demoLinear_surface, demoLinear_exact, fun m hm J => ?_⟩
  have hw' := demoLinear_wellPosed hm
  obtain ⟨R, e⟩ := pydisort_isOk hw' J
  obtain ⟨F, f⟩ := evaluates_exists e hw'.sound (demoLinear_rescalable hm)
  exact ⟨demoLinear m, R, F, demoLinear_same m, demoLinear_nHalf, demoLinear_sampled, fun k _ => demo_rho (n := m) 1 k, trivial, trivial, demoLinear_rescalable hm, hw'.sound, e, f⟩

end

end Pydisort

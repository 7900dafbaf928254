import Verif.Spec.Neglect
import Verif.Props.Bounds
import Verif.SplitLemmas
import Verif.Props.Corrections
import Verif.Addition

/-!
# C100: what ignoring weak scattering costs

Specification used: `Spec.rteExact`, `Spec.IsExactSolution`.
-/

namespace Pydisort
open Finset Spec

variable {E : Ext} {J : Junk} {a : Args} {R : Solved}

theorem legendreP_at_one (l : ℕ) : (legendreP l).eval 1 = 1 := by
  induction l using Nat.twoStepInduction with
  | zero => simp [legendreP_zero]
  | one => simp [legendreP_one]
  | more l h0 h1 =>
    have := congrArg (Polynomial.eval 1) (legendreP_bonnet l)
    simp only [Polynomial.eval_mul, Polynomial.eval_C, Polynomial.eval_sub, Polynomial.eval_X, h0, h1] at this
    have h2 : (0 : ℝ) < (l : ℝ) + 2 := by positivity
    have h3 : ((l : ℝ) + 2) * ((legendreP (l + 2)).eval 1 - 1) = 0 := by linarith
    linarith [(mul_eq_zero.1 h3).resolve_left h2.ne']

/-- `|P_l(x)| ≤ 1` for `|x| ≤ 1`. -/
theorem abs_assocLegendre_zero_le (l : ℕ) {x : ℝ} (hx : |x| ≤ 1) : |assocLegendre 0 l x| ≤ 1 := by
  have hx2 : x ^ 2 ≤ 1 := (sq_le_one_iff_abs_le_one x).2 hx
  have h := addition_theorem l hx2 hx2 0
  have e : x * x + Real.sqrt (1 - x ^ 2) * Real.sqrt (1 - x ^ 2) * Real.cos 0 = 1 := by
    rw [Real.cos_zero, mul_one, Real.mul_self_sqrt (by linarith)]; ring
  rw [e, legendreP_at_one, sum_range_succ'] at h
  have h0 : 0 ≤ ∑ k ∈ range l, (2 - if k + 1 = 0 then (1 : ℝ) else 0) * (((l - (k + 1)).factorial : ℝ) / ((l + (k + 1)).factorial : ℝ))
      * assocLegendre (k + 1) l x * assocLegendre (k + 1) l x * Real.cos ((k + 1 : ℕ) * 0) := by
    refine sum_nonneg fun k _ => ?_
    rw [if_neg (by omega), mul_zero, Real.cos_zero, mul_one, mul_assoc]
    have := mul_self_nonneg (assocLegendre (k + 1) l x)
    have : (0 : ℝ) ≤ ((l - (k + 1)).factorial : ℝ) / ((l + (k + 1)).factorial : ℝ) := by positivity
    nlinarith
  rw [if_pos rfl] at h
  simp only [Nat.sub_zero, add_zero, Nat.cast_zero, zero_mul, Real.cos_zero, mul_one] at h
  have h1 : ((l.factorial : ℝ) / (l.factorial : ℝ)) = 1 := div_self (by positivity)
  rw [h1] at h
  refine abs_le_of_sq_le_sq ?_ zero_le_one
  nlinarith

/-- In a layer whose scattering is ignored, the kernel is tiny. -/
theorem weak_moment {l : ℕ} (h : ¬ Significant (omegaStar a l) (nLeg a) (legStar a l) 0) {x y : ℝ} (hx : |x| ≤ 1) (hy : |y| ≤ 1) :
    |omegaStar a l / 2 * phaseMoment (nLeg a) (legStar a l) 0 x y| ≤ (nLeg a : ℝ) / 10 ^ 8 := by
  unfold phaseMoment
  rw [mul_sum, ← range_eq_Ico]
  refine (abs_sum_le_sum_abs _ _).trans ((sum_le_sum fun k hk => ?_).trans (b := ∑ _k ∈ range (nLeg a), (1 : ℝ) / 10 ^ 8) ?_)
  · have h1 : |omegaStar a l / 2 * ((2 * (k : ℝ) + 1) * legStar a l k)| ≤ 1 / 10 ^ 8 := by
      by_contra hc
      exact h ⟨k, Nat.zero_le k, mem_range.1 hk, not_le.1 hc⟩
    have h2 : ((k - 0).factorial : ℝ) / ((k + 0).factorial : ℝ) = 1 := div_self (by positivity)
    rw [h2, mul_one, show omegaStar a l / 2 * ((2 * (k : ℝ) + 1) * legStar a l k * assocLegendre 0 k x * assocLegendre 0 k y)
      = omegaStar a l / 2 * ((2 * (k : ℝ) + 1) * legStar a l k) * (assocLegendre 0 k x * assocLegendre 0 k y) by ring, abs_mul,
      abs_mul (assocLegendre 0 k x)]
    have h3 := abs_assocLegendre_zero_le k hx
    have h4 := abs_assocLegendre_zero_le k hy
    have h5 : |assocLegendre 0 k x| * |assocLegendre 0 k y| ≤ 1 := mul_le_one₀ h3 (abs_nonneg _) h4
    calc _ ≤ 1 / 10 ^ 8 * (1 : ℝ) := mul_le_mul h1 h5 (by positivity) (by positivity)
      _ = _ := mul_one _
  · rw [sum_const, card_range, nsmul_eq_mul]
    exact le_of_eq (by ring)

theorem rteExact_eq (a : Args) (mu w : Vec) (l : ℕ) (t : ℝ) (u : ℕ → ℝ) (i : ℕ) :
    rteExact a mu w l t u i = scale a l * (u i - ∑ j ∈ range (2 * nHalf a), streamW (nHalf a) w j
        * scatD (omegaStar a l) (nLeg a) (legStar a l) 0 (stream (nHalf a) mu i) (stream (nHalf a) mu j) * u j)
      - (scale a l * (beamX (omegaStar a l) (nLeg a) (legStar a l) a.I0 a.mu0 0 (stream (nHalf a) mu i) * Real.exp (-tauStar a l t / a.mu0))
        + (1 - a.omega.get l) * source a l t) := by
  unfold rteExact rteRHS
  ring

/-- What the threshold leaves out at one depth and stream. -/
theorem residual_le (hacc : Accepted a) (hg : GaussContract E (nHalf a)) (hpk : ∀ l < a.tauArr.n, peak a l < 1) {v : ℕ → ℝ} {B : ℝ}
    (hB : ∀ i < 2 * nHalf a, |v i| ≤ B) {l : ℕ} (hl : l < a.tauArr.n) {t : ℝ} (ht : InLayer a l t) {i : ℕ} (hi : i < 2 * nHalf a) :
    |(∑ j ∈ range (2 * nHalf a), streamW (nHalf a) (weight E a) j * (scatD (omegaStar a l) (nLeg a) (legStar a l) 0 (stream (nHalf a) (node E a) i)
        (stream (nHalf a) (node E a) j) - kernel a 0 l (stream (nHalf a) (node E a) i) (stream (nHalf a) (node E a) j)) * v j)
      + (beamX (omegaStar a l) (nLeg a) (legStar a l) a.I0 a.mu0 0 (stream (nHalf a) (node E a) i)
        - beamSource a 0 l (stream (nHalf a) (node E a) i)) * Real.exp (-tauStar a l t / a.mu0)| ≤ neglected a B * (1 - effAlbedo a l) := by
  have hn := streams_pos hacc
  have hB0 : 0 ≤ B := (abs_nonneg _).trans (hB i hi)
  have hI := hacc.beam
  have hpi := Real.pi_pos
  have he0 : 0 ≤ neglected a B := by unfold neglected; positivity
  unfold kernel beamSource effAlbedo
  by_cases hs : Significant (omegaStar a l) (nLeg a) (legStar a l) 0
  · have h1 := effAlbedo_range hacc hl (hpk l hl)
    unfold effAlbedo at h1
    simp only [if_pos hs] at h1 ⊢
    simp only [sub_self, mul_zero, zero_mul, sum_const_zero, add_zero, abs_zero]
    exact mul_nonneg he0 (by linarith [h1.2.1])
  · simp only [if_neg hs]
    rw [sub_zero (1 : ℝ), mul_one]
    have hx := stream_abs_le hg hi
    refine (abs_add_le _ _).trans ?_
    have h1 : |∑ j ∈ range (2 * nHalf a), streamW (nHalf a) (weight E a) j * (scatD (omegaStar a l) (nLeg a) (legStar a l) 0
        (stream (nHalf a) (node E a) i) (stream (nHalf a) (node E a) j) - 0) * v j| ≤ (nLeg a : ℝ) / 10 ^ 8 * (2 * B) := by
      refine (abs_sum_le_sum_abs _ _).trans ((sum_le_sum fun j hj => ?_).trans
        (b := ∑ j ∈ range (2 * nHalf a), streamW (nHalf a) (weight E a) j * ((nLeg a : ℝ) / 10 ^ 8 * B)) ?_)
      · have hw : 0 < streamW (nHalf a) (weight E a) j := by
          have := mem_range.1 hj
          unfold streamW; split_ifs <;> exact weight_pos hg (by omega)
        rw [abs_mul, abs_mul, abs_of_pos hw, sub_zero, mul_assoc]
        refine mul_le_mul_of_nonneg_left ?_ hw.le
        exact mul_le_mul (weak_moment hs hx (stream_abs_le hg (mem_range.1 hj))) (hB j (mem_range.1 hj)) (abs_nonneg _) (by positivity)
      · rw [← sum_mul, sum_streamW hg hn]
        exact le_of_eq (by ring)
    have h2 : |(beamX (omegaStar a l) (nLeg a) (legStar a l) a.I0 a.mu0 0 (stream (nHalf a) (node E a) i) - 0) * Real.exp (-tauStar a l t / a.mu0)|
        ≤ (nLeg a : ℝ) / 10 ^ 8 * (a.I0 / (2 * Real.pi)) := by
      rw [sub_zero]
      rcases hI.lt_or_eq with hI | hI
      · have hm := (hacc.beamDir hI).1
        have h3 : |(-a.mu0)| ≤ 1 := by rw [abs_neg, abs_of_pos hm.1]; exact hm.2
        have h4 : Real.exp (-tauStar a l t / a.mu0) ≤ 1 := by
          rw [Real.exp_le_one_iff]
          refine div_nonpos_of_nonpos_of_nonneg ?_ hm.1.le
          have := bdryStar_nonneg hacc hl.le
          have h5 := (Args.scale_pos hacc hl).le
          have h6 : 0 ≤ scale a l * (t - bdry a.tauArr.get l) := mul_nonneg h5 (by linarith [ht.1])
          unfold tauStar; linarith
        have h5 : beamX (omegaStar a l) (nLeg a) (legStar a l) a.I0 a.mu0 0 (stream (nHalf a) (node E a) i)
            = a.I0 / (2 * Real.pi) * (omegaStar a l / 2 * phaseMoment (nLeg a) (legStar a l) 0 (stream (nHalf a) (node E a) i) (-a.mu0)) := by
          unfold beamX; rw [if_pos rfl]; field_simp; ring
        rw [h5, abs_mul, abs_mul, abs_of_pos (by positivity : (0 : ℝ) < a.I0 / (2 * Real.pi)), abs_of_pos (Real.exp_pos _)]
        have h7 := weak_moment hs hx h3
        calc _ ≤ a.I0 / (2 * Real.pi) * ((nLeg a : ℝ) / 10 ^ 8) * 1 := by gcongr
          _ = _ := by ring
      · unfold beamX; rw [← hI]; simp
    unfold neglected
    linarith

theorem neglect_bound (hacc : Accepted a) (hg : GaussContract E (nHalf a)) (hpk : ∀ l < a.tauArr.n, peak a l < 1)
    (hk : NonnegScattering a (node E a)) {rho : ℝ → ℝ → ℝ} (hsf : FairSurface a (node E a) (weight E a) rho) {U V : ℝ → ℕ → ℝ}
    (hU : IsSolution a (node E a) (weight E a) rho 0 U) (hV : IsExactSolution a (node E a) (weight E a) rho V) {B : ℝ}
    (hB : ∀ t, 0 ≤ t → t ≤ bottom a → ∀ i < 2 * nHalf a, |V t i| ≤ B) (s : ℝ) (hs : |s| = 1) :
    ∀ t, 0 ≤ t → t ≤ bottom a → ∀ i < 2 * nHalf a, 0 ≤ neglected a B + s * (U t i - V t i) := by
  have hn := streams_pos hacc
  have hbot0 : 0 ≤ bottom a := by
    have := bdry_le hacc (Nat.zero_le a.tauArr.n) le_rfl
    rwa [bdry_zero, bdry_bottom hacc] at this
  have hB0 : 0 ≤ B := (abs_nonneg _).trans (hB 0 le_rfl hbot0 0 (by omega))
  have hI := hacc.beam
  have hpi := Real.pi_pos
  have he0 : 0 ≤ neglected a B := by unfold neglected; positivity
  refine nonneg_of_super (E := E) hacc hg hpk hk hsf.nonneg hsf.bounded (V := fun t i => neglected a B + s * (U t i - V t i))
    (fun i hi => continuousOn_const.add (continuousOn_const.mul ((hU.cont i hi).sub (hV.cont i hi)))) ?_ ?_ ?_
  · intro l hl t ht0 ht1 i hi
    obtain ⟨d₁, g₁, e₁⟩ := hU.ode l hl t ht0 ht1 i hi
    obtain ⟨d₂, g₂, e₂⟩ := hV.ode l hl t ht0 ht1 i hi
    refine ⟨s * (d₁ - d₂), ((g₁.sub g₂).const_mul s).const_add _, ?_⟩
    have hr := residual_le hacc hg hpk (hB t ?_ ?_) hl ⟨ht0.le, ht1.le⟩ hi
    · rw [rteUser_zero] at e₁
      rw [rteExact_eq] at e₂
      have hrow := row_sum_kernel hacc hg (hpk l hl) (stream (nHalf a) (node E a) i)
      have hsc := Args.scale_pos hacc hl
      have hq : ∑ j ∈ range (2 * nHalf a), streamW (nHalf a) (weight E a) j * kernel a 0 l (stream (nHalf a) (node E a) i)
          (stream (nHalf a) (node E a) j) * (neglected a B + s * (U t j - V t j)) = effAlbedo a l * neglected a B
          + s * (∑ j ∈ range (2 * nHalf a), streamW (nHalf a) (weight E a) j * kernel a 0 l (stream (nHalf a) (node E a) i)
              (stream (nHalf a) (node E a) j) * U t j
            - ∑ j ∈ range (2 * nHalf a), streamW (nHalf a) (weight E a) j * kernel a 0 l (stream (nHalf a) (node E a) i)
              (stream (nHalf a) (node E a) j) * V t j) := by
        rw [← hrow, sum_mul, ← sum_sub_distrib, mul_sum, ← sum_add_distrib]
        exact sum_congr rfl fun j _ => by ring
      rw [hq]
      simp only [mul_sub, sub_mul, sum_sub_distrib] at hr
      set K := ∑ j ∈ range (2 * nHalf a), streamW (nHalf a) (weight E a) j * kernel a 0 l (stream (nHalf a) (node E a) i)
        (stream (nHalf a) (node E a) j) * V t j
      set D := ∑ j ∈ range (2 * nHalf a), streamW (nHalf a) (weight E a) j * scatD (omegaStar a l) (nLeg a) (legStar a l) 0
        (stream (nHalf a) (node E a) i) (stream (nHalf a) (node E a) j) * V t j
      set K' := ∑ j ∈ range (2 * nHalf a), streamW (nHalf a) (weight E a) j * kernel a 0 l (stream (nHalf a) (node E a) i)
        (stream (nHalf a) (node E a) j) * U t j
      set X := beamX (omegaStar a l) (nLeg a) (legStar a l) a.I0 a.mu0 0 (stream (nHalf a) (node E a) i) * Real.exp (-tauStar a l t / a.mu0)
      set X' := beamSource a 0 l (stream (nHalf a) (node E a) i) * Real.exp (-tauStar a l t / a.mu0)
      have h1 : s * (D - K + (X - X')) ≤ neglected a B * 1 - neglected a B * effAlbedo a l := by
        refine (le_abs_self _).trans ?_
        rw [abs_mul, hs, one_mul]; exact hr
      have h2 := mul_le_mul_of_nonneg_left h1 hsc.le
      have h3 : stream (nHalf a) (node E a) i * (s * (d₁ - d₂)) = s * (stream (nHalf a) (node E a) i * d₁ - stream (nHalf a) (node E a) i * d₂) := by ring
      rw [h3, e₁, e₂]
      linarith
    · have := bdry_le hacc (Nat.zero_le l) hl.le
      rw [bdry_zero] at this
      linarith
    · have := bdry_le hacc (show l + 1 ≤ a.tauArr.n from hl) le_rfl
      rw [bdry_bottom hacc] at this
      linarith
  · intro i hi
    beta_reduce
    rw [hU.top i hi, hV.top i hi]; linarith
  · intro i hi
    beta_reduce
    rw [hU.bot i hi, hV.bot i hi]
    have e1 := hsf.bounded i hi
    unfold reflectance at e1
    split_ifs at e1 ⊢ with hm
    · unfold reflected
      rw [if_pos rfl, one_add_one_eq_two]
      have h1 : ∑ j ∈ range (nHalf a), weight E a j * node E a j * rho (node E a i) (node E a j)
          * (neglected a B + s * (U (bottom a) (nHalf a + j) - V (bottom a) (nHalf a + j)))
          = (∑ j ∈ range (nHalf a), weight E a j * node E a j * rho (node E a i) (node E a j)) * neglected a B
            + s * (∑ j ∈ range (nHalf a), weight E a j * node E a j * rho (node E a i) (node E a j) * U (bottom a) (nHalf a + j)
              - ∑ j ∈ range (nHalf a), weight E a j * node E a j * rho (node E a i) (node E a j) * V (bottom a) (nHalf a + j)) := by
        rw [sum_mul, ← sum_sub_distrib, mul_sum, ← sum_add_distrib]
        exact sum_congr rfl fun j _ => by ring
      rw [h1]
      have h2 := mul_le_mul_of_nonneg_right e1 he0
      linarith
    · linarith

theorem abs_hemiFlux_sub_le (hg : GaussContract E (nHalf a)) (hn : 0 < nHalf a) {v v' : Vec} {e : ℝ} (h : ∀ i < nHalf a, |v i - v' i| ≤ e) :
    |hemiFlux a (node E a) (weight E a) v - hemiFlux a (node E a) (weight E a) v'| ≤ Real.pi * e := by
  have hc := hemiFlux_const hg hn e
  have hadd : ∀ x y : Vec, hemiFlux a (node E a) (weight E a) (fun i => x i + y i) = hemiFlux a (node E a) (weight E a) x
      + hemiFlux a (node E a) (weight E a) y := by
    intro x y; unfold hemiFlux; rw [← mul_add, ← sum_add_distrib]
    congr 1; exact sum_congr rfl fun i _ => by ring
  have h1 := hemiFlux_mono hg (v := v) (v' := fun i => v' i + e) (fun i hi => by linarith [(abs_le.1 (h i hi)).2])
  have h2 := hemiFlux_mono hg (v := v') (v' := fun i => v i + e) (fun i hi => by linarith [(abs_le.1 (h i hi)).1])
  rw [hadd v' (fun _ => e), hc] at h1
  rw [hadd v (fun _ => e), hc] at h2
  exact abs_le.2 ⟨by linarith, by linarith⟩

/-- Given a bound for the intensities, the returned fields are close to any solution that ignores nothing. -/
theorem close_of_bound (h : pydisort E J a = .ok R) (hS : Sound E a) (hres : Rescalable a) (hbp : Azimuthless a.bpos) (hbn : Azimuthless a.bneg)
    {rho : ℕ → ℝ → ℝ → ℝ} (hrho : SurfaceIs a rho) (hsf : FairSurface a (node E a) (weight E a) (rho 0)) (hk : NonnegScattering a (node E a))
    {V : ℝ → ℕ → ℝ} (hV : IsExactSolution a (node E a) (weight E a) (rho 0) V) {B : ℝ}
    (hB : ∀ t, 0 ≤ t → t ≤ bottom a → ∀ i < 2 * nHalf a, |V t i| ≤ B) {F : Fields} (hF : Evaluates a R F) :
    ∀ t, 0 ≤ t → t ≤ bottom a → ∀ i < 2 * nHalf a, |F.u0 t i - V t i| ≤ neglected a B := by
  intro t h0 h1 i hi
  obtain ⟨U, hU, _⟩ := C02_modes_solve_transfer_equation h hS hres
  have hacc := (pydisort_ok h).1
  have hsol := modes_isSolution h hS hres hbp hbn hrho hU (nFourier_pos h hS)
  obtain ⟨e1, -⟩ := evaluates_unique hF (evaluates h hres hU) h0 h1
  rw [e1 i hi]
  change |U 0 t i - V t i| ≤ _
  have p := neglect_bound hacc hS.gauss hS.peak hk hsf hsol hV hB 1 (by simp) t h0 h1 i hi
  have q := neglect_bound hacc hS.gauss hS.peak hk hsf hsol hV hB (-1) (by simp) t h0 h1 i hi
  exact abs_le.2 ⟨by linarith, by linarith⟩

theorem exists_sharp_bound (hacc : Accepted a) {V : ℝ → ℕ → ℝ} (hV : ∀ i < 2 * nHalf a, ContinuousOn (fun t => V t i) (Set.Icc 0 (bottom a))) :
    ∃ M, (∀ t, 0 ≤ t → t ≤ bottom a → ∀ i < 2 * nHalf a, |V t i| ≤ M) ∧ ∃ t i, 0 ≤ t ∧ t ≤ bottom a ∧ i < 2 * nHalf a ∧ |V t i| = M := by
  have hn := streams_pos hacc
  have hbot0 : 0 ≤ bottom a := by
    have := bdry_le hacc (Nat.zero_le a.tauArr.n) le_rfl
    rwa [bdry_zero, bdry_bottom hacc] at this
  have hx : ∀ i, ∃ t ∈ Set.Icc 0 (bottom a), i < 2 * nHalf a → ∀ s ∈ Set.Icc 0 (bottom a), |V s i| ≤ |V t i| := by
    intro i
    by_cases hi : i < 2 * nHalf a
    · obtain ⟨t, ht, hm⟩ := isCompact_Icc.exists_isMaxOn ⟨0, Set.left_mem_Icc.2 hbot0⟩ (hV i hi).abs
      exact ⟨t, ht, fun _ s hs => hm hs⟩
    · exact ⟨0, Set.left_mem_Icc.2 hbot0, fun h => absurd h hi⟩
  choose T hT hm using hx
  obtain ⟨i, hi, hmax⟩ := exists_max_image (range (2 * nHalf a)) (fun i => |V (T i) i|) ⟨0, mem_range.2 (by omega)⟩
  refine ⟨|V (T i) i|, fun t h0 h1 j hj => (hm j hj t ⟨h0, h1⟩).trans (hmax j (mem_range.2 hj)), T i, i, (hT i).1, (hT i).2, mem_range.1 hi, rfl⟩

/-- **C100.** The code ignores scattering in a layer if no weighted coefficient exceeds `1e-8` (`Significant`; the specification of C01 does the same). Compared
with any solution `V` of the equations in which nothing is ignored, the azimuthally averaged intensity is off by at most `neglected a B`, that is
`NLeg 1e-8 (2 B + I₀ / 2π)` where `B` bounds the intensities, and the fluxes by at most `π` times this. -/
theorem C100_ignoring_weak_scattering (h : pydisort E J a = .ok R) (hS : Sound E a) (hres : Rescalable a) (hbp : Azimuthless a.bpos)
    (hbn : Azimuthless a.bneg) {rho : ℕ → ℝ → ℝ → ℝ} (hrho : SurfaceIs a rho) (hsf : FairSurface a (node E a) (weight E a) (rho 0))
    (hk : NonnegScattering a (node E a)) {V : ℝ → ℕ → ℝ} (hV : IsExactSolution a (node E a) (weight E a) (rho 0) V) {B : ℝ}
    (hB : ∀ t, 0 ≤ t → t ≤ bottom a → ∀ i < 2 * nHalf a, |V t i| ≤ B) {F : Fields} (hF : Evaluates a R F) :
    ∀ l < a.tauArr.n, ∀ t, InLayer a l t →
      (∀ i < 2 * nHalf a, |F.u0 t i - V t i| ≤ neglected a B) ∧
      |F.up t - hemiFlux a (node E a) (weight E a) (V t)| ≤ Real.pi * neglected a B ∧
      |F.diffuse t + F.direct t - (hemiFlux a (node E a) (weight E a) (fun i => V t (nHalf a + i))
        + a.I0 * a.mu0 * Real.exp (-tauStar a l t / a.mu0))| ≤ Real.pi * neglected a B := by
  intro l hl t ht
  have hacc := (pydisort_ok h).1
  have hn := streams_pos hacc
  have h0 : 0 ≤ t := by
    have := bdry_le hacc (Nat.zero_le l) hl.le
    rw [bdry_zero] at this
    exact this.trans ht.1
  have h1 : t ≤ bottom a := by
    have := bdry_le hacc (show l + 1 ≤ a.tauArr.n from hl) le_rfl
    rw [bdry_bottom hacc] at this
    exact ht.2.trans this
  have key := close_of_bound h hS hres hbp hbn hrho hsf hk hV hB hF t h0 h1
  obtain ⟨U, hU, _⟩ := C02_modes_solve_transfer_equation h hS hres
  obtain ⟨e1, e2, e3, e4⟩ := evaluates_unique hF (evaluates h hres hU) h0 h1
  refine ⟨key, ?_, ?_⟩
  · rw [e2]
    refine abs_hemiFlux_sub_le hS.gauss hn fun i hi => ?_
    have := key i (by omega)
    rwa [e1 i (by omega)] at this
  · rw [e3, e4]
    have hl' := layOf_spec hacc h0 h1
    simp only [fieldsOf]
    rw [tauStar_layers hacc hl'.1 hl hl'.2 ht]
    have := abs_hemiFlux_sub_le (v := fun i => U 0 t (nHalf a + i)) (v' := fun i => V t (nHalf a + i)) hS.gauss hn (fun i hi => by
      have := key (nHalf a + i) (by omega)
      rwa [e1 _ (by omega)] at this)
    refine le_of_eq_of_le (congrArg _ ?_) this
    ring

/-- **C100, from the results.** The same with a bound `B` of the intensities that the code returns: then the error is at most
`neglected a B / (1 - 2e-8 NLeg)`, as long as there are less than fifty million coefficients. -/
theorem C100_from_the_results (h : pydisort E J a = .ok R) (hS : Sound E a) (hres : Rescalable a) (hbp : Azimuthless a.bpos)
    (hbn : Azimuthless a.bneg) {rho : ℕ → ℝ → ℝ → ℝ} (hrho : SurfaceIs a rho) (hsf : FairSurface a (node E a) (weight E a) (rho 0))
    (hk : NonnegScattering a (node E a)) {V : ℝ → ℕ → ℝ} (hV : IsExactSolution a (node E a) (weight E a) (rho 0) V) {F : Fields}
    (hF : Evaluates a R F) {B : ℝ} (hB : ∀ t, 0 ≤ t → t ≤ bottom a → ∀ i < 2 * nHalf a, |F.u0 t i| ≤ B) (hL : nLeg a < 5 * 10 ^ 7) :
    ∀ t, 0 ≤ t → t ≤ bottom a → ∀ i < 2 * nHalf a, |F.u0 t i - V t i| ≤ neglected a B / (1 - 2 * (nLeg a / 10 ^ 8)) := by
  have hacc := (pydisort_ok h).1
  obtain ⟨M, hM, t₀, i₀, h0, h1, hi, he⟩ := exists_sharp_bound hacc hV.cont
  have key := close_of_bound h hS hres hbp hbn hrho hsf hk hV hM hF
  have hd : (0 : ℝ) < 1 - 2 * (nLeg a / 10 ^ 8) := by
    have : (nLeg a : ℝ) < 5 * 10 ^ 7 := by exact_mod_cast hL
    linarith
  have hM1 : M ≤ B + neglected a M := by
    have p := abs_le.1 (key t₀ h0 h1 i₀ hi)
    have q := hB t₀ h0 h1 i₀ hi
    have r : |V t₀ i₀| ≤ |F.u0 t₀ i₀| + |F.u0 t₀ i₀ - V t₀ i₀| := by
      have := abs_sub_abs_le_abs_sub (V t₀ i₀) (F.u0 t₀ i₀)
      rw [abs_sub_comm] at this
      linarith
    linarith [key t₀ h0 h1 i₀ hi]
  intro t ht0 ht1 i hi'
  refine (key t ht0 ht1 i hi').trans ?_
  rw [le_div_iff₀ hd]
  unfold neglected at hM1 ⊢
  have hl : (0 : ℝ) ≤ nLeg a / 10 ^ 8 := by positivity
  have := mul_le_mul_of_nonneg_left hM1 hl
  linarith

/-- A uniform field is an exact solution in thermal equilibrium, however weak the scattering. -/
theorem const_isExactSolution (hacc : Accepted a) (hg : GaussContract E (nHalf a)) (hpk : ∀ l < a.tauArr.n, peak a l < 1)
    {rho : ℝ → ℝ → ℝ} {B : ℝ} (hb : Isothermal a (node E a) (weight E a) rho B) :
    IsExactSolution a (node E a) (weight E a) rho (fun _ _ => B) := by
  refine ⟨fun _ _ => continuousOn_const, ?_, fun i hi => (hb.top i hi).symm, ?_⟩
  · intro l hl t ht0 ht1 i hi
    refine ⟨0, hasDerivAt_const _ _, ?_⟩
    have hz : beamX (omegaStar a l) (nLeg a) (legStar a l) a.I0 a.mu0 0 (stream (nHalf a) (node E a) i) = 0 := by
      unfold beamX; rw [hb.noBeam]; simp
    have hs := Args.scale_pos hacc hl
    have hrow : ∑ j ∈ range (2 * nHalf a), streamW (nHalf a) (weight E a) j * scatD (omegaStar a l) (nLeg a) (legStar a l) 0
        (stream (nHalf a) (node E a) i) (stream (nHalf a) (node E a) j) = omegaStar a l := by
      have h1 := hacc.nLeg
      have h2 := hacc.streams
      have h3 := sum_phaseMoment hg (a := a) (by
        unfold nLeg nHalf
        obtain ⟨k, hk⟩ := h2.2
        omega) (by unfold nLeg; omega) (legStar a l) (stream (nHalf a) (node E a) i)
      have h0 : legStar a l 0 = 1 := by
        unfold legStar leg; rw [if_pos rfl]; exact div_self (by linarith [hpk l hl])
      calc _ = omegaStar a l / 2 * ∑ j ∈ range (2 * nHalf a), streamW (nHalf a) (weight E a) j
              * phaseMoment (nLeg a) (legStar a l) 0 (stream (nHalf a) (node E a) j) (stream (nHalf a) (node E a) i) := by
            rw [mul_sum]; exact sum_congr rfl fun j _ => by unfold scatD; rw [phaseMoment_symm]; ring
        _ = _ := by rw [h3, h0]; ring
    rw [rteExact_eq, hz, ← sum_mul, hrow, hb.inner l hl t ⟨ht0.le, ht1.le⟩]
    have : scale a l * (1 - omegaStar a l) = 1 - a.omega.get l := by
      unfold omegaStar
      rw [mul_sub, mul_div_cancel₀ _ hs.ne']
      unfold scale; ring
    linear_combination (-B) * this
  · intro i hi
    rw [hb.bottom i hi]
    unfold reflectance
    split_ifs with hm
    · unfold reflected
      rw [if_pos rfl, one_add_one_eq_two, hb.noBeam, ← sum_mul]
      simp only [mul_zero, zero_div, zero_mul]
      ring
    · ring

/-- **C100, thermal equilibrium.** C70 without the assumption that no scattering is ignored: the intensity is `B` up to `2e-8 NLeg B`. -/
theorem C100_isothermal (h : pydisort E J a = .ok R) (hS : Sound E a) (hres : Rescalable a) (hbp : Azimuthless a.bpos)
    (hbn : Azimuthless a.bneg) {rho : ℕ → ℝ → ℝ → ℝ} (hrho : SurfaceIs a rho) (hsf : FairSurface a (node E a) (weight E a) (rho 0))
    (hk : NonnegScattering a (node E a)) {B : ℝ} (hB : 0 ≤ B) (hq : Isothermal a (node E a) (weight E a) (rho 0) B) {F : Fields}
    (hF : Evaluates a R F) :
    ∀ t, 0 ≤ t → t ≤ bottom a → ∀ i < 2 * nHalf a, |F.u0 t i - B| ≤ 2 * nLeg a / 10 ^ 8 * B := by
  intro t h0 h1 i hi
  have := close_of_bound h hS hres hbp hbn hrho hsf hk (const_isExactSolution (pydisort_ok h).1 hS.gauss hS.peak hq) (B := B)
    (fun _ _ _ _ _ => by rw [abs_of_nonneg hB]) hF t h0 h1 i hi
  unfold neglected at this
  rw [hq.noBeam] at this
  refine this.trans (le_of_eq ?_)
  ring

/-! ### The hypotheses are met, and the bound is needed -/

section
variable {n : ℕ}

/-- `demoWarm` with an upper layer that scatters so little that the code ignores it. -/
noncomputable def demoFaint (n : ℕ) (B : ℝ) : Args :=
  { demoWarm n B with omega := ⟨2, fun l => if l = 0 then 1 / 10 ^ 8 else 3 / 4⟩ }

theorem demoFaint_peak {B : ℝ} {l : ℕ} (hl : l < 2) : peak (demoFaint n B) l = 1 / 8 := demo_peak (n := n) (x := 1) hl

theorem demoFaint_wellPosed (hn : 0 < n) (B : ℝ) : WellPosed refExt (demoFaint n B) := by
  have hh : nHalf (demoFaint n B) = n := demo_nHalf 1
  have hacc : Accepted (demoFaint n B) :=
    { (demoWarm_wellPosed hn B).accepted with
      omega := by
        intro l _
        change 0 ≤ (if l = 0 then (1 / 10 ^ 8 : ℝ) else 3 / 4) ∧ (if l = 0 then (1 / 10 ^ 8 : ℝ) else 3 / 4) < 1
        split_ifs <;> norm_num }
  refine wellPosed_of hacc (by rw [hh]; exact hn) ?_ ?_ (beamRegular_dark rfl _ _) (Or.inr ⟨1 / 3, by norm_num, rfl⟩) trivial trivial (Or.inr rfl) rfl
  · intro l hl
    rw [demoFaint_peak hl]; norm_num
  · rw [hh]; simp [nLeg, demoFaint, demoWarm, demoMild, demo]

theorem demoFaint_isothermal (hn : 0 < n) (B : ℝ) :
    Isothermal (demoFaint n B) (node refExt (demoFaint n B)) (weight refExt (demoFaint n B)) (fun _ _ => 1 / 3) B :=
  let h := demoWarm_isothermal hn B
  ⟨h.noBeam, h.inner, h.top, h.bottom⟩

theorem demoFaint_scattering (hn : 0 < n) (B : ℝ) : NonnegScattering (demoFaint n B) (node refExt (demoFaint n B)) := by
  have hg := (demoFaint_wellPosed hn B).gauss
  intro l hl i hi j hj
  unfold kernel
  split_ifs
  · refine mul_nonneg ?_ (demoMild_moment 1 hl (stream_abs_le hg hi) (stream_abs_le hg hj))
    have : 0 ≤ omegaStar (demoFaint n B) l := by
      unfold omegaStar scale
      rw [demoFaint_peak hl]
      simp only [demoFaint]
      split_ifs <;> norm_num
    positivity
  · exact le_rfl

theorem demoFaint_insignificant (B : ℝ) :
    ¬ Significant (omegaStar (demoFaint n B) 0) (nLeg (demoFaint n B)) (legStar (demoFaint n B) 0) 0 := by
  rintro ⟨k, -, -, hk⟩
  have h1 : legStar (demoFaint n B) 0 k = if k = 0 then 1 else if k = 1 then 1 / 4 else 0 :=
    demoMild_legStar (n := n) 1 (show 0 < 2 by norm_num) k
  have h2 : omegaStar (demoFaint n B) 0 = (1 - 1 / 8) * (1 / 10 ^ 8) / (1 - 1 / 10 ^ 8 * (1 / 8)) := by
    unfold omegaStar scale
    rw [demoFaint_peak (by norm_num)]
    simp [demoFaint]
  rw [h1, h2] at hk
  refine absurd hk (not_lt.2 ?_)
  split_ifs with h3 h4
  · subst h3; norm_num [abs_of_pos]
  · subst h4; norm_num [abs_of_pos]
  · norm_num

/-- The hypotheses of the theorems are met by a call in which scattering is ignored, for every number of streams, and the results are not exact: the equality of C70
fails. -/
theorem C100_not_exact (hn : 0 < n) {B : ℝ} (hB : 0 < B) (J : Junk) : ∃ (a : Args) (R : Solved) (F : Fields), pydisort refExt J a = .ok R ∧ nHalf a = n ∧
    WellPosed refExt a ∧ Rescalable a ∧ SurfaceIs a (fun _ _ _ => 1 / 3) ∧
    FairSurface a (node refExt a) (weight refExt a) (fun _ _ => 1 / 3) ∧ NonnegScattering a (node refExt a) ∧
    Isothermal a (node refExt a) (weight refExt a) (fun _ _ => 1 / 3) B ∧
    IsExactSolution a (node refExt a) (weight refExt a) (fun _ _ => 1 / 3) (fun _ _ => B) ∧
    Evaluates a R F ∧ ∃ t, 0 ≤ t ∧ t ≤ bottom a ∧ ∃ i < 2 * nHalf a, F.u0 t i ≠ B := by
  have hw := demoFaint_wellPosed hn B
  obtain ⟨R, hR⟩ := pydisort_isOk hw J
  have hi := demoFaint_isothermal hn B
  have hres : Rescalable (demoFaint n B) := Or.inl (Or.inr (Or.inr (Or.inl hB)))
  have hrho : SurfaceIs (demoFaint n B) (fun _ _ _ => 1 / 3) := fun m _ => demo_rho (n := n) 1 m
  obtain ⟨F, hF⟩ := evaluates_exists hR hw.sound hres
  refine ⟨_, R, F, hR, demo_nHalf 1, hw, hres, hrho,
    ⟨(demoMild_surface (x := 1) hn).nonneg, (demoMild_surface (x := 1) hn).beam, (demoMild_surface (x := 1) hn).bounded⟩, demoFaint_scattering hn B, hi,
    const_isExactSolution hw.accepted hw.gauss hw.peak hi, hF, ?_⟩
  by_contra hc
  push Not at hc
  obtain ⟨U, hU, _⟩ := C02_modes_solve_transfer_equation hR hw.sound hres
  have hsol := modes_isSolution hR hw.sound hres trivial trivial hrho hU (nFourier_pos hR hw.sound)
  have hh : nHalf (demoFaint n B) = n := demo_nHalf 1
  have hbot : bottom (demoFaint n B) = 2 := by norm_num [bottom, demoFaint, demoWarm, demoMild, demo]
  have hb1 : bdry (demoFaint n B).tauArr.get (0 + 1) = 1 := by simp [bdry, demoFaint, demoWarm, demoMild, demo]
  have hU0 : ∀ t, 0 ≤ t → t ≤ 2 → ∀ i < 2 * nHalf (demoFaint n B), U 0 t i = B := by
    intro t h0 h1 i hi'
    have e := (evaluates_unique hF (evaluates hR hres hU) h0 (by rw [hbot]; exact h1)).1 i hi'
    exact e.symm.trans (hc t h0 (by rw [hbot]; exact h1) i hi')
  obtain ⟨d, hd, he⟩ := hsol.ode 0 (show 0 < 2 by norm_num) (1 / 2) (by rw [bdry_zero]; norm_num) (by rw [hb1]; norm_num) 0 (by rw [hh]; omega)
  have hd0 : d = 0 := by
    refine hd.unique ((hasDerivAt_const (1 / 2 : ℝ) B).congr_of_eventuallyEq ?_)
    filter_upwards [Ioo_mem_nhds (show (0 : ℝ) < 1 / 2 by norm_num) (show (1 / 2 : ℝ) < 2 by norm_num)] with t ht
    exact hU0 t ht.1.le ht.2.le 0 (by rw [hh]; omega)
  have hz : beamSource (demoFaint n B) 0 0 (stream (nHalf (demoFaint n B)) (node refExt (demoFaint n B)) 0) = 0 := by
    unfold beamSource; rw [if_neg (demoFaint_insignificant B)]
  rw [hd0, mul_zero, rteUser_zero, hz, hU0 _ (by norm_num) (by norm_num) 0 (by rw [hh]; omega),
    hi.inner 0 (show 0 < 2 by norm_num) (1 / 2) ⟨by rw [bdry_zero]; norm_num, by rw [hb1]; norm_num⟩,
    sum_eq_zero (fun j _ => by rw [kernel_zero (demoFaint_insignificant B)]; ring)] at he
  have hs : scale (demoFaint n B) 0 = 1 - 1 / 10 ^ 8 * (1 / 8) := by
    unfold scale; rw [demoFaint_peak (by norm_num)]; simp [demoFaint]
  have ho : (demoFaint n B).omega.get 0 = 1 / 10 ^ 8 := by simp [demoFaint]
  rw [hs, ho] at he
  nlinarith

end

end Pydisort

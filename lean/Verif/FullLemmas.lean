import Verif.Spec.Full
import Verif.ModeConvergence
import Mathlib.Topology.Algebra.InfiniteSum.NatInt
import Mathlib.Analysis.Normed.Group.FunctionSeries

/-!
# Lemmas on the whole phase function
-/

namespace Pydisort
open Finset Spec MeasureTheory Topology

/-! ### Legendre polynomials are bounded by one -/

theorem legendreP_eval_one (l : ℕ) : (legendreP l).eval 1 = 1 := by
  induction l using Nat.twoStepInduction with
  | zero => rw [legendreP_zero]; simp
  | one =>
    have := congrArg (Polynomial.eval 1) (legendreP_succ_rodrigues 0)
    simpa using this
  | more l h0 h1 =>
    have := congrArg (Polynomial.eval 1) (legendreP_bonnet l)
    simp only [Polynomial.eval_mul, Polynomial.eval_sub, Polynomial.eval_C, Polynomial.eval_X, h0, h1] at this
    have hl : (0 : ℝ) < (l : ℝ) + 2 := by positivity
    nlinarith

theorem abs_legendreP_le (l : ℕ) {x : ℝ} (hx : x ∈ Set.Icc (-1 : ℝ) 1) : |(legendreP l).eval x| ≤ 1 := by
  have hx2 := sq_le_of_mem hx
  have h := addition_theorem l hx2 hx2 0
  have hs : Real.sqrt (1 - x ^ 2) * Real.sqrt (1 - x ^ 2) = 1 - x ^ 2 := Real.mul_self_sqrt (by linarith)
  rw [Real.cos_zero, mul_one, hs, show x * x + (1 - x ^ 2) = 1 by ring, legendreP_eval_one, sum_range_succ'] at h
  simp only [mul_zero, Real.cos_zero, mul_one, Nat.sub_zero, Nat.add_zero] at h
  have h0 : assocLegendre 0 l x = (legendreP l).eval x := by simp [assocLegendre]
  have hf : ((l.factorial : ℝ)) ≠ 0 := by positivity
  rw [h0, div_self hf] at h
  have hpos : 0 ≤ ∑ k ∈ range l, (2 - if k + 1 = 0 then 1 else 0) * (((l - (k + 1)).factorial : ℝ) / ((l + (k + 1)).factorial : ℝ))
      * assocLegendre (k + 1) l x * assocLegendre (k + 1) l x := sum_nonneg fun k _ => by
    rw [if_neg (Nat.succ_ne_zero k), mul_assoc]
    exact mul_nonneg (by positivity) (mul_self_nonneg _)
  rw [abs_le_one_iff_mul_self_le_one]
  rw [if_pos trivial] at h
  linarith

/-! ### The series -/

section
variable {g : ℕ → ℝ}

theorem term_le (k : ℕ) (c : ℝ) {x y : ℝ} (hx : x ∈ Set.Icc (-1 : ℝ) 1) (hy : y ∈ Set.Icc (-1 : ℝ) 1) :
    |(2 * (k : ℝ) + 1) * c * (legendreP k).eval x * (legendreP k).eval y| ≤ (2 * (k : ℝ) + 1) * |c| := by
  rw [abs_mul, abs_mul, abs_mul, abs_of_pos (show (0 : ℝ) < 2 * (k : ℝ) + 1 by positivity)]
  have h1 := abs_legendreP_le k hx
  have h2 := abs_legendreP_le k hy
  have h3 : 0 ≤ (2 * (k : ℝ) + 1) * |c| := by positivity
  calc _ ≤ (2 * (k : ℝ) + 1) * |c| * 1 * 1 := by gcongr
    _ = _ := by ring

/-- What is cut off after `L` terms. -/
noncomputable def tailSum (g : ℕ → ℝ) (L : ℕ) : ℝ := ∑' k : ℕ, (2 * ((k + L : ℕ) : ℝ) + 1) * |g (k + L)|

theorem tailSum_nonneg (g : ℕ → ℝ) (L : ℕ) : 0 ≤ tailSum g L := tsum_nonneg fun k => by positivity

theorem tailSum_tendsto (g : ℕ → ℝ) : Filter.Tendsto (tailSum g) Filter.atTop (𝓝 0) :=
  tendsto_sum_nat_add fun k : ℕ => (2 * (k : ℝ) + 1) * |g k|

theorem sum_odd (L : ℕ) : ∑ k ∈ range L, (2 * (k : ℝ) + 1) = (L : ℝ) ^ 2 := by
  induction L with
  | zero => simp
  | succ L ih => rw [sum_range_succ, ih]; push_cast; ring

variable (hg : PhaseSeries g)
include hg

theorem summable_mean {x y : ℝ} (hx : x ∈ Set.Icc (-1 : ℝ) 1) (hy : y ∈ Set.Icc (-1 : ℝ) 1) :
    Summable fun k : ℕ => (2 * (k : ℝ) + 1) * g k * (legendreP k).eval x * (legendreP k).eval y :=
  Summable.of_norm_bounded hg.summable fun k => term_le k (g k) hx hy

theorem continuousOn_meanPhase : ContinuousOn (fun p : ℝ × ℝ => meanPhase g p.1 p.2) (Set.Icc (-1) 1 ×ˢ Set.Icc (-1) 1) := by
  refine continuousOn_tsum (u := fun k : ℕ => (2 * (k : ℝ) + 1) * |g k|) (fun k => ?_) hg.summable fun k p hp => term_le k (g k) hp.1 hp.2
  have h1 : Continuous fun p : ℝ × ℝ => (legendreP k).eval p.1 := (legendreP k).continuous.comp continuous_fst
  have h2 : Continuous fun p : ℝ × ℝ => (legendreP k).eval p.2 := (legendreP k).continuous.comp continuous_snd
  exact Continuous.continuousOn (by fun_prop)

theorem abs_meanPhase_le {x y : ℝ} (hx : x ∈ Set.Icc (-1 : ℝ) 1) (hy : y ∈ Set.Icc (-1 : ℝ) 1) :
    |meanPhase g x y| ≤ ∑' k : ℕ, (2 * (k : ℝ) + 1) * |g k| := by
  have := tsum_of_norm_bounded hg.summable.hasSum (f := fun k : ℕ => (2 * (k : ℝ) + 1) * g k * (legendreP k).eval x * (legendreP k).eval y)
    fun k => term_le k (g k) hx hy
  exact this

/-- Truncation to `L` terms with a peak `f` taken out. -/
theorem truncation_le (f : ℝ) (L : ℕ) {x y : ℝ} (hx : x ∈ Set.Icc (-1 : ℝ) 1) (hy : y ∈ Set.Icc (-1 : ℝ) 1) :
    |∑ k ∈ range L, (2 * (k : ℝ) + 1) * (g k - f) * (legendreP k).eval x * (legendreP k).eval y - meanPhase g x y| ≤ tailSum g L + |f| * (L : ℝ) ^ 2 := by
  have h1 := (summable_mean hg hx hy).sum_add_tsum_nat_add L
  have h2 : |∑' k : ℕ, (2 * ((k + L : ℕ) : ℝ) + 1) * g (k + L) * (legendreP (k + L)).eval x * (legendreP (k + L)).eval y| ≤ tailSum g L :=
    tsum_of_norm_bounded (f := fun k : ℕ => (2 * ((k + L : ℕ) : ℝ) + 1) * g (k + L) * (legendreP (k + L)).eval x * (legendreP (k + L)).eval y)
      ((summable_nat_add_iff L).2 hg.summable).hasSum fun k => term_le (k + L) (g (k + L)) hx hy
  have h3 : |∑ k ∈ range L, (2 * (k : ℝ) + 1) * f * (legendreP k).eval x * (legendreP k).eval y| ≤ |f| * (L : ℝ) ^ 2 := by
    refine (abs_sum_le_sum_abs _ _).trans ((sum_le_sum fun k _ => term_le k f hx hy).trans (le_of_eq ?_))
    rw [← sum_mul, sum_odd]; ring
  have h4 : ∑ k ∈ range L, (2 * (k : ℝ) + 1) * (g k - f) * (legendreP k).eval x * (legendreP k).eval y
      = ∑ k ∈ range L, (2 * (k : ℝ) + 1) * g k * (legendreP k).eval x * (legendreP k).eval y
        - ∑ k ∈ range L, (2 * (k : ℝ) + 1) * f * (legendreP k).eval x * (legendreP k).eval y := by
    rw [← sum_sub_distrib]; exact sum_congr rfl fun k _ => by ring
  unfold meanPhase
  rw [h4, ← h1]
  rw [show ∀ A B C : ℝ, A - B - (A + C) = -(B + C) by intros; ring, abs_neg]
  exact (abs_add_le _ _).trans (by linarith)

end

/-! ### The scaled kernel -/

section
variable {a b : Args} {g : ℕ → ℕ → ℝ}

theorem scaled_kernel (hacc : Accepted b) (hn : NoNeglect b) {l : ℕ} (hl : l < b.tauArr.n) (hp : peak b l < 1) (x y : ℝ) :
    scale b l * kernel b 0 l x y
      = b.omega.get l / 2 * ∑ k ∈ range (nLeg b), (2 * (k : ℝ) + 1) * (leg b l k - peak b l) * (legendreP k).eval x * (legendreP k).eval y := by
  have hs := (Args.scale_pos hacc hl).ne'
  have hp' : 1 - peak b l ≠ 0 := by linarith
  rw [kernel_zero_eq hn hl, ← scatPoly_eval, scatPoly, Polynomial.eval_finset_sum, mul_sum, mul_sum]
  refine sum_congr rfl fun k _ => ?_
  simp only [Polynomial.eval_mul, Polynomial.eval_C]
  unfold omegaStar legStar
  field_simp

theorem scaled_beam (hn : NoNeglect b) {l : ℕ} (hl : l < b.tauArr.n) (x : ℝ) :
    beamSource b 0 l x = b.I0 / (2 * Real.pi) * kernel b 0 l x (-b.mu0) := by
  rw [kernel_zero_eq hn hl, beamSource_zero_eq hn hl]
  unfold beamX scatD
  have := Real.pi_pos.ne'
  simp only [if_true]
  field_simp
  ring

/-! ### The delta-M scaled depth is close to the true one -/

theorem bdryStar_near (hacc : Accepted b) {φ : ℝ} (hφ : ∀ l < b.tauArr.n, 0 ≤ peak b l ∧ peak b l ≤ φ) {k : ℕ} (hk : k ≤ b.tauArr.n) :
    bdryStar b k ≤ bdry b.tauArr.get k ∧ (1 - φ) * bdry b.tauArr.get k ≤ bdryStar b k := by
  induction k with
  | zero => rw [bdry_zero]; unfold bdryStar; simp
  | succ k ih =>
    obtain ⟨h1, h2⟩ := ih (by omega)
    have h3 := hφ k (by omega)
    have h4 := bdry_lt hacc (show k < b.tauArr.n by omega)
    have h5 := hacc.omega k (by omega)
    have e : bdryStar b (k + 1) = bdryStar b k + scale b k * (bdry b.tauArr.get (k + 1) - bdry b.tauArr.get k) := by
      unfold bdryStar; rw [sum_range_succ]
    rw [e]
    unfold scale
    have h6 : 0 ≤ b.omega.get k * peak b k := mul_nonneg h5.1 h3.1
    have h7 : b.omega.get k * peak b k ≤ φ := (mul_le_of_le_one_left h3.1 h5.2.le).trans h3.2
    constructor <;> nlinarith

theorem tauStar_near (hacc : Accepted b) {φ : ℝ} (hφ : ∀ l < b.tauArr.n, 0 ≤ peak b l ∧ peak b l ≤ φ) {l : ℕ} (hl : l < b.tauArr.n) {t : ℝ} (ht : InLayer b l t) :
    tauStar b l t ≤ t ∧ (1 - φ) * t ≤ tauStar b l t := by
  obtain ⟨h1, h2⟩ := bdryStar_near hacc hφ hl.le
  have h3 := hφ l hl
  have h5 := hacc.omega l hl
  have h6 : 0 ≤ b.omega.get l * peak b l := mul_nonneg h5.1 h3.1
  have h7 : b.omega.get l * peak b l ≤ φ := (mul_le_of_le_one_left h3.1 h5.2.le).trans h3.2
  have h8 := ht.1
  unfold tauStar scale
  constructor <;> nlinarith

theorem exp_near {x y c m : ℝ} (hx : 0 ≤ x) (hxy : x ≤ y) (hc : y - x ≤ c) (hm : 0 < m) :
    0 ≤ Real.exp (-x / m) - Real.exp (-y / m) ∧ Real.exp (-x / m) - Real.exp (-y / m) ≤ c / m ∧ Real.exp (-x / m) ≤ 1 := by
  have h1 : Real.exp (-y / m) = Real.exp (-x / m) * Real.exp (-((y - x) / m)) := by rw [← Real.exp_add]; congr 1; ring
  have h2 := Real.add_one_le_exp (-((y - x) / m))
  have h3 : Real.exp (-x / m) ≤ 1 := Real.exp_le_one_iff.2 (div_nonpos_of_nonpos_of_nonneg (by linarith) hm.le)
  have h4 : (y - x) / m ≤ c / m := by gcongr
  have h5 : 0 ≤ (y - x) / m := div_nonneg (by linarith) hm.le
  have h6 := Real.exp_pos (-x / m)
  have h7 : Real.exp (-((y - x) / m)) ≤ 1 := Real.exp_le_one_iff.2 (by linarith)
  refine ⟨by rw [h1]; nlinarith, ?_, h3⟩
  rw [h1]
  nlinarith

/-! ### The scaled kernel is close to the true one -/

theorem truncates_leg (hT : Truncates a g b) {l : ℕ} (hl : l < a.tauArr.n) (hg : PhaseSeries (g l)) {k : ℕ} (hk : k < nLeg b) : leg b l k = g l k := by
  unfold leg
  split_ifs with h
  · rw [h, hg.normalised]
  · exact hT.leg l hl k (Nat.pos_of_ne_zero h) hk

theorem kernel_near (hT : Truncates a g b) (hacc : Accepted b) (hn : NoNeglect b) {l : ℕ} (hl : l < a.tauArr.n) (hg : PhaseSeries (g l)) (hp0 : 0 ≤ peak b l)
    (hp : peak b l < 1) {s : ℝ} (hs : tailSum (g l) (nLeg b) + peak b l * (nLeg b : ℝ) ^ 2 ≤ s) {x y : ℝ} (hx : x ∈ Set.Icc (-1 : ℝ) 1) (hy : y ∈ Set.Icc (-1 : ℝ) 1) :
    |scale b l * kernel b 0 l x y - a.omega.get l / 2 * meanPhase (g l) x y| ≤ s / 2 := by
  have hl' : l < b.tauArr.n := by rwa [hT.tau]
  have ho := hacc.omega l hl'
  have h1 := truncation_le hg (peak b l) (nLeg b) hx hy
  rw [abs_of_nonneg hp0] at h1
  rw [scaled_kernel hacc hn hl' hp, hT.omega, ← mul_sub, abs_mul]
  rw [hT.omega] at ho
  have e : ∑ k ∈ range (nLeg b), (2 * (k : ℝ) + 1) * (leg b l k - peak b l) * (legendreP k).eval x * (legendreP k).eval y
      = ∑ k ∈ range (nLeg b), (2 * (k : ℝ) + 1) * (g l k - peak b l) * (legendreP k).eval x * (legendreP k).eval y :=
    sum_congr rfl fun k hk => by rw [truncates_leg hT hl hg (mem_range.1 hk)]
  rw [e, abs_of_nonneg (by linarith [ho.1])]
  have h2 := h1.trans hs
  have h3 : a.omega.get l / 2 ≤ 1 / 2 := by linarith [ho.2]
  calc _ ≤ 1 / 2 * s := mul_le_mul h3 h2 (abs_nonneg _) (by norm_num)
    _ = _ := by ring

end

theorem Spec.FullSolution.tame {a : Args} {g : ℕ → ℕ → ℝ} {rho : ℝ → ℝ → ℝ} {up down : ℝ → ℝ} {v : ℝ → ℝ → ℝ} (hv : FullSolution a g rho up down v) :
    TameField (bottom a) v := ⟨hv.bounded, hv.cont⟩

end Pydisort

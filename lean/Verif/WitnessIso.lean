import Verif.WitnessNT
import Verif.AntiLemmas
import Verif.Props.Anti

/-! Well-posed problems in which light is scattered equally in all directions, and the particular solution for the beam. -/

namespace Pydisort
open Finset Spec

/-- The delta-M fractions of the atmosphere below. -/
noncomputable def isoPeak (l : ℕ) : ℝ := if l = 0 then 1 / 8 else 1 / 4

/-- An atmosphere of `L` layers with `2 n` streams and `F` Fourier modes, in which the scaled scattering is isotropic and the delta-M
scaling differs between the first and the other layers. -/
noncomputable def demoIso (n L F : ℕ) (mu0 : ℝ) : Args where
  tauArr := ⟨L, fun k => (k : ℝ) + 1⟩
  omega := ⟨L, fun _ => 1 / 2⟩
  NQuad := 2 * n
  leg := ⟨L, 2 * n, fun l k => if k = 0 then 1 else isoPeak l⟩
  mu0 := mu0
  I0 := 1
  phi0 := 1
  NLeg := some F
  NFourier := some F
  bpos := .scalar 0
  bneg := .scalar 1
  fArr := ⟨L, isoPeak⟩
  bdrf := []
  s := ⟨1, 0, fun _ _ => 0⟩

theorem isoPeak_bounds (l : ℕ) : 1 / 8 ≤ isoPeak l ∧ isoPeak l ≤ 1 / 4 := by
  unfold isoPeak; split_ifs <;> norm_num

section
variable {n L F : ℕ} {x : ℝ}

theorem demoIso_nHalf : nHalf (demoIso n L F x) = n := by
  show ((2 * (n : ℤ)) / 2).toNat = n
  omega

theorem demoIso_nLeg : nLeg (demoIso n L F x) = F := by simp [nLeg, demoIso]

theorem demoIso_nFourier : nFourier (demoIso n L F x) = F := by simp [nFourier, demoIso]

theorem demoIso_noSource : NoSource (demoIso n L F x) := fun _ _ j hj => absurd hj (by simp [demoIso])

theorem demoIso_accepted (hn : 0 < n) (hL : 0 < L) (hF : 0 < F) (hFn : F ≤ n) (h0 : 0 < x) (h1 : x ≤ 1) :
    Accepted (demoIso n L F x) where
  layers := hL
  top := by simp [demoIso]
  increasing := by intro k hk; simp [demoIso]
  omegaLen := rfl
  omega := by intro k _; simp only [demoIso]; norm_num
  legRows := rfl
  legCols := by simp only [demoIso, Option.getD_some]; push_cast; omega
  legVal := by
    intro l _ k _ hk
    simp only [demoIso]
    rw [if_neg (by omega)]
    have := isoPeak_bounds l
    constructor <;> linarith [this.1, this.2]
  peakLen := Or.inr rfl
  peak := by
    intro k _
    have := isoPeak_bounds k
    simp only [demoIso]
    constructor <;> linarith [this.1, this.2]
  sourceRows := Or.inl demoIso_noSource
  streams := by
    simp only [demoIso]
    exact ⟨by omega, ⟨(n : ℤ), by ring⟩⟩
  modes := by intro _; simp only [demoIso, Option.getD_some]; omega
  nLeg := by simp only [demoIso, Option.getD_some]; omega
  beam := by simp [demoIso]
  beamDir := by
    intro _
    refine ⟨⟨h0, h1⟩, by simp [demoIso], ?_⟩
    simp only [demoIso]
    linarith [Real.two_le_pi]
  bottom := trivial
  topBC := trivial
  banded := by simp [demoIso]

theorem demoIso_peak {l : ℕ} (hl : l < L) : peak (demoIso n L F x) l = isoPeak l := by
  unfold peak
  exact if_pos hl

theorem demoIso_legStar {l : ℕ} (hl : l < L) (k : ℕ) : legStar (demoIso n L F x) l k = if k = 0 then 1 else 0 := by
  unfold legStar leg
  rw [demoIso_peak hl]
  have := isoPeak_bounds l
  have h1 : (1 : ℝ) - isoPeak l ≠ 0 := by linarith [this.2]
  by_cases hk : k = 0
  · simp [hk, demoIso, div_self h1]
  · simp [hk, demoIso]

theorem demoIso_scale {l : ℕ} (hl : l < L) : scale (demoIso n L F x) l = 1 - 1 / 2 * isoPeak l := by
  unfold scale
  rw [demoIso_peak hl]
  simp [demoIso]

theorem demoIso_omegaStar {l : ℕ} (hl : l < L) : 1 / 4 ≤ omegaStar (demoIso n L F x) l := by
  unfold omegaStar
  have := isoPeak_bounds l
  rw [demoIso_scale hl, demoIso_peak hl, show (demoIso n L F x).omega.get l = 1 / 2 from rfl]
  rw [le_div_iff₀ (by linarith [this.2])]
  linarith [this.2]

theorem demoIso_significant {l : ℕ} (hl : l < L) (hF : 0 < F) :
    Significant (omegaStar (demoIso n L F x) l) (nLeg (demoIso n L F x)) (legStar (demoIso n L F x) l) 0 := by
  refine ⟨0, le_rfl, by rw [demoIso_nLeg]; exact hF, ?_⟩
  rw [demoIso_legStar hl, if_pos rfl]
  have := demoIso_omegaStar (n := n) (F := F) (x := x) hl
  rw [abs_of_nonneg (by push_cast; linarith)]
  push_cast
  linarith

theorem demoIso_insignificant {l m : ℕ} (hl : l < L) (hm : 0 < m) :
    ¬ Significant (omegaStar (demoIso n L F x) l) (nLeg (demoIso n L F x)) (legStar (demoIso n L F x) l) m := by
  rintro ⟨k, hk, _, hlt⟩
  rw [demoIso_legStar hl, if_neg (by omega)] at hlt
  norm_num at hlt

theorem demoIso_phaseMoment {l : ℕ} (hl : l < L) (hF : 0 < F) (y z : ℝ) :
    phaseMoment (nLeg (demoIso n L F x)) (legStar (demoIso n L F x) l) 0 y z = 1 := by
  unfold phaseMoment
  rw [demoIso_nLeg, sum_eq_single_of_mem 0 (by simp [hF])]
  · rw [demoIso_legStar hl]; simp [assocLegendre, legendreP_zero]
  · intro k _ hk
    rw [demoIso_legStar hl, if_neg hk]; ring

theorem demoIso_kernel {l : ℕ} (hl : l < L) (hF : 0 < F) (y z : ℝ) :
    kernel (demoIso n L F x) 0 l y z = omegaStar (demoIso n L F x) l / 2 := by
  unfold kernel scatD
  rw [if_pos (demoIso_significant hl hF), demoIso_phaseMoment hl hF, mul_one]

theorem demoIso_beamSource {l : ℕ} (hl : l < L) (hF : 0 < F) (y : ℝ) :
    beamSource (demoIso n L F x) 0 l y = omegaStar (demoIso n L F x) l / (4 * Real.pi) := by
  unfold beamSource beamX
  rw [if_pos (demoIso_significant hl hF), demoIso_phaseMoment hl hF]
  simp only [demoIso]
  norm_num

end

/-- There is a well-posed problem of this kind in which the beam is steeper than every stream. -/
theorem demoIso_wellPosed {n L F : ℕ} (hn : 0 < n) (hL : 0 < L) (hF : 0 < F) (hFn : F ≤ n) :
    ∃ x, WellPosed refExt (demoIso n L F x) ∧ ∀ i < n, node refExt (demoIso n L F x) i < x := by
  set v := node refExt (demoIso n L F 1) with hv
  have hg : ∀ x, GaussContract refExt (nHalf (demoIso n L F x)) := fun x => by rw [demoIso_nHalf]; exact refExt_gauss hn
  have hv1 : ∀ i < n, v i < 1 := fun i hi => node_lt_one (hg 1) (by rw [demoIso_nHalf]; exact hi)
  obtain ⟨c, hc0, hc1, hc⟩ : ∃ c : ℝ, 0 < c ∧ c < 1 ∧ ∀ i < n, v i ≤ c := by
    have hne : (range n).Nonempty := ⟨0, mem_range.2 hn⟩
    obtain ⟨i0, hi0, hmax⟩ := exists_max_image (range n) v hne
    refine ⟨max (v i0) (1 / 2), lt_max_of_lt_right (by norm_num), max_lt (hv1 i0 (mem_range.1 hi0)) (by norm_num),
      fun i hi => le_max_of_le_left (hmax i (mem_range.2 hi))⟩
  obtain ⟨x, hx, hb⟩ := exists_beamRegular_in (demoIso n L F 1) v (weight refExt (demoIso n L F 1))
    (S := Set.Ioo c 1) (fun y hy => ⟨hc0.trans hy.1, hy.2.le⟩) (Set.Ioo_infinite hc1)
  have h0 : 0 < x := hc0.trans hx.1
  refine ⟨x, wellPosed_of (demoIso_accepted hn hL hF hFn h0 hx.2.le) (by rw [demoIso_nHalf]; exact hn) ?_
    (by rw [demoIso_nLeg, demoIso_nHalf]; exact hFn) hb (Or.inl rfl) trivial trivial (Or.inl rfl) rfl, fun i hi => ?_⟩
  · intro l hl
    rw [demoIso_peak (L := L) hl]
    linarith [(isoPeak_bounds l).2]
  · exact lt_of_le_of_lt (hc i hi) hx.1

variable {E : Ext} {J : Junk} {a : Args} {R : Solved}

/-- The particular solution for the beam solves its linear system. -/
theorem beam_particular (h : pydisort E J a = .ok R) (hS : Sound E a) (hres : Rescalable a) (hb : 0 < a.I0) {m l i : ℕ}
    (hm : m < nFourier a) (hl : l < a.tauArr.n) (hi : i < 2 * nHalf a) :
    (R.I.rescale * R.S.B m l i) * (1 + stream (nHalf a) (node E a) i / a.mu0)
      = (∑ j ∈ range (2 * nHalf a), streamW (nHalf a) (weight E a) j *
          kernel a m l (stream (nHalf a) (node E a) i) (stream (nHalf a) (node E a) j) * (R.I.rescale * R.S.B m l j))
        + beamSource a m l (stream (nHalf a) (node E a) i) := by
  obtain ⟨hacc, O, r, hO, hr, hI, hsol, _⟩ := pydisort_ok h
  have hs := Args.optics_spec hacc hO
  have hI' : R.I = a.asm E O r := hI
  have hbt := (beam_iff h).2 hb
  rw [hI'] at hsol hbt ⊢
  have hg := asm_good (r := r) hacc hs hS.toNumerics
  have hnr := asm_nonRes hacc hs hS hsol
  obtain ⟨out, C, hsp, hG, hK, hB, _⟩ := AsmIn.modeSol hsol hg hnr
  have hslot := slotOK_of_spec hg.F hsp hg.eig (by rw [← hK]; exact hnr)
  have hm' : m < (a.asm E O r).NFourier := by rw [← nFourier_eq] at hm; exact hm
  have e := hslot.beam hbt m hm' l hl i hi
  have e1 := effA_spec (E := E) (O := O) (r := r) hs hS.gauss hl m (out.B m l) hi
  have e2 := effX_spec (E := E) (O := O) (r := r) hs hS.gauss hl m hi (rescale_I0 hacc hs hr hres)
  rw [hB, ← e2, ← e]
  have e3 : ∑ j ∈ range (2 * nHalf a), streamW (nHalf a) (weight E a) j *
          kernel a m l (stream (nHalf a) (node E a) i) (stream (nHalf a) (node E a) j) * ((a.asm E O r).rescale * out.B m l j)
      = r * ∑ j ∈ range (2 * nHalf a), streamW (nHalf a) (weight E a) j *
          kernel a m l (stream (nHalf a) (node E a) i) (stream (nHalf a) (node E a) j) * out.B m l j := by
    rw [mul_sum]
    exact sum_congr rfl fun j _ => by rw [show (a.asm E O r).rescale = r from rfl]; ring
  rw [e3]
  change r * out.B m l i * (1 + _ / a.mu0) = _ + _ * (r * (mulVec (2 * nHalf a) _ (out.B m l) i + out.B m l i / a.mu0))
  linear_combination (-r) * e1

end Pydisort

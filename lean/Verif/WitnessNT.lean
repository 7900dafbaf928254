import Verif.Witness
import Verif.Spec.Corrections
import Mathlib.MeasureTheory.Measure.Lebesgue.Basic

/-! Well-posed problems in which the Nakajima-Tanaka corrections are active. -/

namespace Pydisort
open Finset Spec

/-- All but finitely many beam directions of any set are regular. -/
theorem exists_beamRegular_in (a : Args) (mu w : Vec) {S : Set ℝ} (hS : S ⊆ Set.Ioc 0 1) (hi : S.Infinite) :
    ∃ x ∈ S, BeamRegular { a with mu0 := x } mu w := by
  classical
  set M : ℕ → ℕ → Matrix (Fin (nHalf a)) (Fin (nHalf a)) ℝ :=
    fun m l => toM (nHalf a) (reduced (nHalf a) mu w (kernel a m l)) with hM
  set bad : Finset ℝ := (range (nFourier a)).biUnion fun m => (range a.tauArr.n).biUnion fun l => (M m l).charpoly.roots.toFinset with hbad
  have hinj : Set.InjOn (fun x : ℝ => 1 / x ^ 2) S := by
    intro x hx y hy hxy
    have h1 := (hS hx).1
    have h2 := (hS hy).1
    have : x ^ 2 = y ^ 2 := by
      have : 1 / x ^ 2 = 1 / y ^ 2 := hxy
      field_simp at this
      linarith
    nlinarith [sq_nonneg (x - y), sq_nonneg (x + y), mul_self_eq_mul_self_iff.1 (show x * x = y * y by nlinarith)]
  obtain ⟨y, hy, hyb⟩ := (hi.image hinj).exists_notMem_finset bad
  obtain ⟨x, hx, rfl⟩ := hy
  refine ⟨x, hx, ?_⟩
  intro _ m hm l hl _ hdet
  apply hyb
  have hm' : m < nFourier a := hm
  have hl' : l < a.tauArr.n := hl
  simp only [hbad, mem_biUnion, mem_range]
  refine ⟨m, hm', l, hl', ?_⟩
  rw [Multiset.mem_toFinset, Polynomial.mem_roots (Matrix.charpoly_monic _).ne_zero, Polynomial.IsRoot, Matrix.eval_charpoly]
  have e : Matrix.scalar (Fin (nHalf a)) (1 / x ^ 2) - M m l = -(toM (nHalf a) (fun i j => reduced (nHalf a) mu w (kernel a m l) i j
      - if i = j then 1 / x ^ 2 else 0)) := by
    ext i j
    simp only [hM, Matrix.sub_apply, Matrix.neg_apply, toM, Matrix.scalar_apply, Matrix.diagonal_apply, Fin.ext_iff]
    ring
  rw [e, Matrix.det_neg]
  have h2 : (toM (nHalf a) (fun i j => reduced (nHalf a) mu w (kernel a m l) i j
      - if i = j then 1 / x ^ 2 else 0)).det = 0 := hdet
  rw [h2, mul_zero]

/-- There is room between fewer than ten million nodes. -/
theorem away_infinite {n : ℕ} (hn : n < 10 ^ 7) (v : Vec) :
    {x : ℝ | x ∈ Set.Ioc (0 : ℝ) 1 ∧ ∀ i < n, 1 / 10 ^ 8 ≤ |v i - x|}.Infinite := by
  intro hfin
  have hz := hfin.measure_zero MeasureTheory.volume
  set B : Set ℝ := ⋃ i ∈ range n, Set.Ioo (v i - 1 / 10 ^ 8) (v i + 1 / 10 ^ 8) with hB
  have hsub : Set.Ioc (0 : ℝ) 1 \ B ⊆ {x : ℝ | x ∈ Set.Ioc (0 : ℝ) 1 ∧ ∀ i < n, 1 / 10 ^ 8 ≤ |v i - x|} := by
    rintro x ⟨hx, hxB⟩
    refine ⟨hx, fun i hi => ?_⟩
    by_contra hlt
    apply hxB
    rw [hB]
    simp only [Set.mem_iUnion, mem_range]
    refine ⟨i, hi, ?_⟩
    have := abs_lt.1 (not_le.1 hlt)
    exact ⟨by linarith [this.2], by linarith [this.1]⟩
  have h0 : MeasureTheory.volume (Set.Ioc (0 : ℝ) 1 \ B) = 0 := MeasureTheory.measure_mono_null hsub hz
  have hBle : MeasureTheory.volume B ≤ ENNReal.ofReal (n * (2 / 10 ^ 8)) := by
    refine (MeasureTheory.measure_biUnion_finset_le _ _).trans ?_
    simp only [Real.volume_Ioo]
    rw [sum_congr rfl (g := fun _ => ENNReal.ofReal (2 / 10 ^ 8)) (fun i _ => by congr 1; ring), sum_const, card_range, nsmul_eq_mul,
      ENNReal.ofReal_mul (by positivity), ENNReal.ofReal_natCast]
  have h1 : MeasureTheory.volume (Set.Ioc (0 : ℝ) 1) ≤ MeasureTheory.volume (Set.Ioc (0 : ℝ) 1 \ B) + MeasureTheory.volume B := by
    refine le_trans (MeasureTheory.measure_mono ?_) (MeasureTheory.measure_union_le _ _)
    intro x hx
    by_cases hxB : x ∈ B
    · exact Or.inr hxB
    · exact Or.inl ⟨hx, hxB⟩
  rw [h0, zero_add, Real.volume_Ioc] at h1
  have h2 := h1.trans hBle
  have hn' : (n : ℝ) < 10 ^ 7 := by exact_mod_cast hn
  rw [ENNReal.ofReal_le_ofReal_iff (by positivity)] at h2
  linarith

/-- The atmosphere `demo` with intensity corrections. -/
noncomputable def demoNT (n : ℕ) (x : ℝ) : Args := { demo n x with NTcor := true }

variable {n : ℕ}

theorem demoNT_corrected (hn : 0 < n) (x : ℝ) : Corrected (demoNT n x) :=
  ⟨rfl, rfl, one_pos, ⟨0, by simp [demoNT, demo], by simp [demoNT, demo]⟩, by simp [demoNT, demo, nLeg]; omega,
    ⟨0, by simp [demoNT, demo], by simp [demoNT, demo]⟩⟩

theorem demoNT_accepted (hn : 0 < n) {x : ℝ} (h0 : 0 < x) (h1 : x ≤ 1) : Accepted (demoNT n x) :=
  { demo_accepted hn h0 h1 with }

theorem demoNT_nHalf (x : ℝ) : nHalf (demoNT n x) = n := demo_nHalf x

theorem demoNT_peak {x : ℝ} {l : ℕ} (hl : l < 2) : peak (demoNT n x) l = 1 / 8 := demo_peak (n := n) (x := x) hl

theorem demoNT_wellPosed (hn : 0 < n) (hn' : n < 10 ^ 7) (F : Finset ℝ) :
    ∃ x, x ∉ F ∧ 0 < x ∧ x ≤ 1 ∧ WellPosed refExt (demoNT n x) := by
  set v := node refExt (demo n 1) with hv
  have hinf := (away_infinite hn' v).diff F.finite_toSet
  obtain ⟨x, hx, hb⟩ := exists_beamRegular_in (demo n 1) v (weight refExt (demo n 1)) (fun y hy => hy.1.1) hinf
  have h0 : 0 < x := hx.1.1.1
  have h1 : x ≤ 1 := hx.1.1.2
  refine ⟨x, hx.2, h0, h1, ?_⟩
  have hg : GaussContract refExt (nHalf (demoNT n x)) := by rw [demoNT_nHalf]; exact refExt_gauss hn
  refine ⟨demoNT_accepted hn h0 h1, hg, refExt_eig, ?_, ?_, hb, ?_, trivial, trivial, Or.inr rfl, Or.inr (Nat.le_of_ble_eq_true rfl), fun _ i hi => ?_⟩
  · intro l hl; rw [demoNT_peak hl]; norm_num
  · refine dissipates_of_nLeg_le hg ?_ (demoNT_accepted hn h0 h1).omega ?_ ?_
    · rw [demoNT_nHalf]; simp [nLeg, demoNT, demo]
    · intro l hl; rw [demoNT_peak hl]; norm_num
    · intro l _ k _
      unfold leg
      split_ifs with h
      · exact le_rfl
      · exact pow_le_one₀ (by norm_num) (by norm_num)
  · exact passive_lambertian hg (by rw [demoNT_nHalf]; exact hn) (by norm_num) rfl
  · rw [demoNT_nHalf] at hi
    exact hx.1.2 i hi

theorem demoNT_call (hn : 0 < n) (hn' : n < 10 ^ 7) (F : Finset ℝ) (J : Junk) : ∃ x R, pydisort refExt J (demoNT n x) = .ok R ∧
    x ∉ F ∧ 0 < x ∧ x ≤ 1 ∧ WellPosed refExt (demoNT n x) ∧ Sound refExt (demoNT n x) ∧ Rescalable (demoNT n x) := by
  obtain ⟨x, hF, h0, h1, hx⟩ := demoNT_wellPosed hn hn' F
  obtain ⟨R, hR⟩ := pydisort_isOk hx J
  exact ⟨x, R, hR, hF, h0, h1, hx, hx.sound, Or.inl (Or.inl one_pos)⟩

end Pydisort

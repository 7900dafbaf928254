import Verif.KernelIntegral
import Verif.Props.Convergence
import Mathlib.Algebra.Ring.Periodic

/-! Quadrature of light gathered from all directions, uniformly in the direction it is scattered to. -/

namespace Pydisort
open MeasureTheory Finset Spec

section
variable {Y : Set ℝ} {K : ℝ → ℝ → ℝ → ℝ → ℝ} {X : Type*} [TopologicalSpace X] {A : Set X} {f : X → ℝ → ℝ → ℝ} {M η : ℝ}

/-- Downward or upward directions only. -/
theorem kern_quad (hY : IsCompact Y) (hK : GoodKernel 0 1 Y K) (hper : ∀ y ph z ph', K y (ph + 2 * Real.pi) z ph' = K y ph z ph') (hA : IsCompact A)
    (hf : ContinuousOn (fun p : X × ℝ × ℝ => f p.1 p.2.1 p.2.2) (A ×ˢ (Set.Icc 0 1 \ {0}) ×ˢ Set.univ))
    (hM : ∀ s ∈ A, ∀ z ∈ Set.Icc (0 : ℝ) 1 \ {0}, ∀ ph, |f s z ph| ≤ M) (hη : 0 < η) :
    ∃ d : ℕ, ∀ n mu w, Rule d n mu w → ∀ s ∈ A, ∀ y ∈ Y, ∀ ph,
      |∑ j ∈ range n, w j * (∫ ph' in (0 : ℝ)..(2 * Real.pi), K y ph (mu j) ph' * f s (mu j) ph') - kint 0 1 K (f s) y ph| ≤ η := by
  have hpi := Real.pi_pos
  have hcut : Set.Icc (0 : ℝ) 1 \ {0} = Set.Ioc 0 1 := by
    ext z
    simp only [Set.mem_diff, Set.mem_Icc, Set.mem_singleton_iff, Set.mem_Ioc]
    exact ⟨fun h => ⟨lt_of_le_of_ne h.1.1 (Ne.symm h.2), h.1.2⟩, fun h => ⟨⟨h.1.le, h.2⟩, h.1.ne'⟩⟩
  obtain ⟨B, hB0, hB⟩ := mass_bound hK
  haveI : CompactSpace A := isCompact_iff_compactSpace.1 hA
  haveI : CompactSpace Y := isCompact_iff_compactSpace.1 hY
  have hin := inner_cont hK hf
  obtain ⟨d, hd⟩ := quad_uniform (X := A × Y × Set.Icc (0 : ℝ) (2 * Real.pi))
    (g := fun x z => ∫ ph' in (0 : ℝ)..(2 * Real.pi), K x.2.1 x.2.2 z ph' * f x.1 z ph')
    (hin.comp (f := fun p : (A × Y × Set.Icc (0 : ℝ) (2 * Real.pi)) × ℝ => ((p.1.1 : X), (p.1.2.1 : ℝ), (p.1.2.2 : ℝ), p.2)) (by fun_prop)
      fun p hp => ⟨p.1.1.2, p.1.2.1.2, trivial, by rw [hcut]; exact hp.2⟩) (M := |M| * B)
    (fun x z hz => by
      have hz' : z ∈ Set.Icc (0 : ℝ) 1 \ {0} := by rw [hcut]; exact hz
      refine (inner_le hK (fun p => (hM x.1 x.1.2 z hz' p).trans (le_abs_self _)) x.2.1.2 _ hz'.1).trans ?_
      exact mul_le_mul_of_nonneg_left (hB _ x.2.1.2 _ z hz'.1) (abs_nonneg _)) hη
  refine ⟨d, fun n mu w hr s hs y hy ph => ?_⟩
  have hP : Function.Periodic (fun ph => ∑ j ∈ range n, w j * (∫ ph' in (0 : ℝ)..(2 * Real.pi), K y ph (mu j) ph' * f s (mu j) ph') - kint 0 1 K (f s) y ph) (2 * Real.pi) := by
    intro x
    simp only [kint, hper]
  obtain ⟨q, hq, e⟩ := hP.exists_mem_Ico₀ (by positivity) ph
  rw [e]
  exact hd n mu w hr (⟨s, hs⟩, ⟨y, hy⟩, ⟨q, Set.Ico_subset_Icc_self hq⟩)

/-- All directions. -/
theorem kern_quad_all (hY : IsCompact Y) (hK : GoodKernel (-1) 1 Y K) (hper : ∀ y ph z ph', K y (ph + 2 * Real.pi) z ph' = K y ph z ph') (hA : IsCompact A)
    (hf : ContinuousOn (fun p : X × ℝ × ℝ => f p.1 p.2.1 p.2.2) (A ×ˢ (Set.Icc (-1) 1 \ {0}) ×ˢ Set.univ))
    (hM : ∀ s ∈ A, ∀ z ∈ Set.Icc (-1 : ℝ) 1 \ {0}, ∀ ph, |f s z ph| ≤ M) (hη : 0 < η) :
    ∃ d : ℕ, ∀ n mu w, Rule d n mu w → ∀ s ∈ A, ∀ y ∈ Y, ∀ ph,
      |∑ j ∈ range (2 * n), streamW n w j * (∫ ph' in (0 : ℝ)..(2 * Real.pi), K y ph (stream n mu j) ph' * f s (stream n mu j) ph') - kint (-1) 1 K (f s) y ph| ≤ η := by
  have hup : ∀ z ∈ Set.Icc (0 : ℝ) 1 \ {0}, z ∈ Set.Icc (-1 : ℝ) 1 \ {0} := fun z hz => ⟨⟨by linarith [hz.1.1], hz.1.2⟩, hz.2⟩
  have hdn : ∀ z ∈ Set.Icc (0 : ℝ) 1 \ {0}, -z ∈ Set.Icc (-1 : ℝ) 1 \ {0} := fun z hz => ⟨⟨by linarith [hz.1.2], by linarith [hz.1.1]⟩, by
    have := hz.2
    simp only [Set.mem_singleton_iff] at this ⊢
    simpa using this⟩
  have hK1 : GoodKernel 0 1 Y K := ⟨zero_le_one, hK.cont.mono fun p hp => ⟨hp.1, trivial, ⟨by linarith [hp.2.2.1.1], hp.2.2.1.2⟩, trivial⟩,
    fun y hy ph z hz ph' => hK.nonneg y hy ph z ⟨by linarith [hz.1], hz.2⟩ ph', by
      obtain ⟨B, hB⟩ := hK.bdd
      exact ⟨B, fun y hy ph z hz ph' => hB y hy ph z ⟨by linarith [hz.1], hz.2⟩ ph'⟩⟩
  have hK2 : GoodKernel 0 1 Y (fun y ph z ph' => K y ph (-z) ph') := ⟨zero_le_one,
    hK.cont.comp (f := fun p : ℝ × ℝ × ℝ × ℝ => (p.1, p.2.1, -p.2.2.1, p.2.2.2)) (by fun_prop) fun p hp => ⟨hp.1, trivial, ⟨by linarith [hp.2.2.1.2], by linarith [hp.2.2.1.1]⟩, trivial⟩,
    fun y hy ph z hz ph' => hK.nonneg y hy ph (-z) ⟨by linarith [hz.2], by linarith [hz.1]⟩ ph', by
      obtain ⟨B, hB⟩ := hK.bdd
      exact ⟨B, fun y hy ph z hz ph' => hB y hy ph (-z) ⟨by linarith [hz.2], by linarith [hz.1]⟩ ph'⟩⟩
  obtain ⟨d₁, h₁⟩ := kern_quad hY hK1 hper hA (hf.mono fun p hp => ⟨hp.1, hup _ hp.2.1, trivial⟩) (fun s hs z hz ph => hM s hs z (hup z hz) ph) (half_pos hη)
  obtain ⟨d₂, h₂⟩ := kern_quad (f := fun s z ph => f s (-z) ph) hY hK2 (fun y ph z ph' => hper y ph (-z) ph') hA
    (hf.comp (f := fun p : X × ℝ × ℝ => (p.1, -p.2.1, p.2.2)) (by fun_prop) fun p hp => ⟨hp.1, hdn _ hp.2.1, trivial⟩)
    (fun s hs z hz ph => hM s hs (-z) (hdn z hz) ph) (half_pos hη)
  refine ⟨max d₁ d₂, fun n mu w hr s hs y hy ph => ?_⟩
  have hr1 : Rule d₁ n mu w := ⟨hr.node, hr.weight, fun p hp => hr.exact p (hp.trans (le_max_left _ _))⟩
  have hr2 : Rule d₂ n mu w := ⟨hr.node, hr.weight, fun p hp => hr.exact p (hp.trans (le_max_right _ _))⟩
  have e1 := h₁ n mu w hr1 s hs y hy ph
  have e2 := h₂ n mu w hr2 s hs y hy ph
  have hF : GoodField (-1) 1 M (f s) := ⟨hf.comp (f := fun p : ℝ × ℝ => (s, p.1, p.2)) (by fun_prop) fun p hp => ⟨hs, hp.1, trivial⟩, fun z hz q => hM s hs z hz q⟩
  have hint := kint_integrable hK hF hy ph
  have i1 : IntervalIntegrable (fun z => ∫ ph' in (0 : ℝ)..(2 * Real.pi), K y ph z ph' * f s z ph') volume (-1) 0 :=
    hint.mono_set (by rw [Set.uIcc_of_le (by norm_num), Set.uIcc_of_le (by norm_num)]; exact Set.Icc_subset_Icc le_rfl zero_le_one)
  have i2 : IntervalIntegrable (fun z => ∫ ph' in (0 : ℝ)..(2 * Real.pi), K y ph z ph' * f s z ph') volume 0 1 :=
    hint.mono_set (by rw [Set.uIcc_of_le (by norm_num), Set.uIcc_of_le (by norm_num)]; exact Set.Icc_subset_Icc (by norm_num) le_rfl)
  have i3 : IntervalIntegrable (fun z => ∫ ph' in (0 : ℝ)..(2 * Real.pi), K y ph (-z) ph' * f s (-z) ph') volume 0 1 := by
    have := IntervalIntegrable.comp_sub_left i1 0
    simpa using this.symm
  have hk : kint (-1) 1 K (f s) y ph = kint 0 1 K (f s) y ph + kint 0 1 (fun y ph z ph' => K y ph (-z) ph') (fun z ph => f s (-z) ph) y ph := by
    unfold kint
    rw [integral_halves i1 i2, intervalIntegral.integral_add i2 i3]
  rw [sum_streams n mu w (fun z => ∫ ph' in (0 : ℝ)..(2 * Real.pi), K y ph z ph' * f s z ph'), hk]
  simp only [mul_add, sum_add_distrib]
  have a1 := abs_sub_le_iff.1 e1
  have a2 := abs_sub_le_iff.1 e2
  exact abs_sub_le_iff.2 ⟨by linarith [a1.1, a2.1], by linarith [a1.2, a2.2]⟩

end

end Pydisort

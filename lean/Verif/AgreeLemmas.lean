import Verif.Spec.Similar
import Verif.Props.Absorbing
import Verif.FlipLemmas

/-! Helper lemmas: arguments that describe the same physical problem. -/

namespace Pydisort
open Finset Spec

section
variable {E : Ext} {a b : Args} {M : ℕ}

/-- Scaled Legendre coefficients, zero beyond `NLeg`. -/
noncomputable def effLeg (a : Args) (l k : ℕ) : ℝ := if k < nLeg a then legStar a l k else 0

theorem phaseMoment_pad (n N : ℕ) (hN : n ≤ N) (g : ℕ → ℝ) (m : ℕ) (x y : ℝ) :
    phaseMoment N (fun k => if k < n then g k else 0) m x y = phaseMoment n g m x y := by
  unfold phaseMoment
  rw [← sum_subset (s₁ := Ico m n) (Ico_subset_Ico_right hN)]
  · refine sum_congr rfl fun k hk => ?_
    beta_reduce
    rw [if_pos (mem_Ico.1 hk).2]
  · intro k hk hk'
    beta_reduce
    rw [if_neg (fun hlt => hk' (mem_Ico.2 ⟨(mem_Ico.1 hk).1, hlt⟩))]
    simp

theorem significant_eff (a : Args) (l m : ℕ) : Significant (omegaStar a l) (nLeg a) (legStar a l) m ↔
    ∃ k, m ≤ k ∧ 1 / 10 ^ 8 < |omegaStar a l / 2 * ((2 * (k : ℝ) + 1) * effLeg a l k)| := by
  unfold Significant effLeg
  constructor
  · rintro ⟨k, h1, h2, h3⟩
    exact ⟨k, h1, by rw [if_pos h2]; exact h3⟩
  · rintro ⟨k, h1, h3⟩
    by_cases hk : k < nLeg a
    · exact ⟨k, h1, hk, by rwa [if_pos hk] at h3⟩
    · rw [if_neg hk] at h3
      norm_num at h3

theorem not_significant_zero {n : ℕ} {g : ℕ → ℝ} {m : ℕ} : ¬ Significant 0 n g m := by
  rintro ⟨k, _, _, h⟩
  norm_num at h

namespace Spec.SamePhysics
variable (h : SamePhysics M a b)
include h

theorem scale' {l : ℕ} (hl : l < a.tauArr.n) : scale b l = scale a l := by
  unfold scale
  rw [h.omega l hl]
  by_cases h0 : a.omega.get l = 0
  · rw [h0]; ring
  · rw [h.peak l hl h0]

theorem omegaStar' {l : ℕ} (hl : l < a.tauArr.n) : omegaStar b l = omegaStar a l := by
  unfold omegaStar
  rw [h.scale' hl, h.omega l hl]
  by_cases h0 : a.omega.get l = 0
  · rw [h0]; ring
  · rw [h.peak l hl h0]

theorem eff {l : ℕ} (hl : l < a.tauArr.n) (h0 : a.omega.get l ≠ 0) : effLeg b l = effLeg a l := by
  funext k
  have hp := h.peak l hl h0
  have hk := h.leg l hl h0 k
  unfold usedLeg at hk
  unfold effLeg legStar
  rw [hp] at hk ⊢
  split_ifs at hk ⊢ with h1 h2 h2
  · rw [hk]
  · rw [hk]; simp
  · rw [← hk]; simp
  · rfl

theorem significant {l : ℕ} (hl : l < a.tauArr.n) (m : ℕ) : Significant (omegaStar b l) (nLeg b) (legStar b l) m ↔
    Significant (omegaStar a l) (nLeg a) (legStar a l) m := by
  by_cases h0 : a.omega.get l = 0
  · have : omegaStar a l = 0 := by unfold omegaStar; rw [h0]; simp
    rw [h.omegaStar' hl, this]
    exact iff_of_false not_significant_zero not_significant_zero
  · rw [significant_eff, significant_eff, h.omegaStar' hl, h.eff hl h0]

theorem phase {l : ℕ} (hl : l < a.tauArr.n) (h0 : a.omega.get l ≠ 0) (m : ℕ) (x y : ℝ) :
    phaseMoment (nLeg b) (legStar b l) m x y = phaseMoment (nLeg a) (legStar a l) m x y := by
  rw [← phaseMoment_pad _ (max (nLeg a) (nLeg b)) (le_max_right _ _), ← phaseMoment_pad (nLeg a) (max (nLeg a) (nLeg b)) (le_max_left _ _)]
  have := h.eff hl h0
  unfold effLeg at this
  rw [this]

theorem kernel' {l : ℕ} (hl : l < a.tauArr.n) (m : ℕ) : kernel b m l = kernel a m l := by
  funext x y
  unfold kernel
  have hs := h.significant hl m
  by_cases h0 : a.omega.get l = 0
  · have : omegaStar a l = 0 := by unfold omegaStar; rw [h0]; simp
    rw [if_neg (by rw [h.omegaStar' hl, this]; exact not_significant_zero), if_neg (by rw [this]; exact not_significant_zero)]
  · unfold scatD
    rw [h.phase hl h0, h.omegaStar' hl]
    by_cases hsa : Significant (omegaStar a l) (nLeg a) (legStar a l) m
    · rw [if_pos hsa, if_pos (by rw [h.omegaStar' hl] at hs; exact hs.2 hsa)]
    · rw [if_neg hsa, if_neg (fun hb => hsa (by rw [h.omegaStar' hl] at hs; exact hs.1 hb))]

theorem beamSource' (hI : a.I0 ≠ 0) {l : ℕ} (hl : l < a.tauArr.n) (m : ℕ) : beamSource b m l = beamSource a m l := by
  funext x
  unfold beamSource
  have hs := h.significant hl m
  by_cases h0 : a.omega.get l = 0
  · have : omegaStar a l = 0 := by unfold omegaStar; rw [h0]; simp
    rw [if_neg (by rw [h.omegaStar' hl, this]; exact not_significant_zero), if_neg (by rw [this]; exact not_significant_zero)]
  · unfold beamX
    rw [h.phase hl h0, h.omegaStar' hl, h.beam, (h.beamDir hI).1]
    by_cases hsa : Significant (omegaStar a l) (nLeg a) (legStar a l) m
    · rw [if_pos hsa, if_pos (by rw [h.omegaStar' hl] at hs; exact hs.2 hsa)]
    · rw [if_neg hsa, if_neg (fun hb => hsa (by rw [h.omegaStar' hl] at hs; exact hs.1 hb))]

theorem bdry' {l : ℕ} (hl : l ≤ a.tauArr.n) : bdry b.tauArr.get l = bdry a.tauArr.get l := by
  rcases l with _ | l
  · rw [bdry_zero, bdry_zero]
  · rw [Spec.bdry_succ, Spec.bdry_succ, h.depths l (by omega)]

theorem bottom' (ha : 0 < a.tauArr.n) : Spec.bottom b = Spec.bottom a := by
  unfold Spec.bottom
  rw [h.layers, h.depths _ (by omega)]

theorem bdryStar' {l : ℕ} (hl : l ≤ a.tauArr.n) : bdryStar b l = bdryStar a l := by
  unfold bdryStar
  refine sum_congr rfl fun k hk => ?_
  have := mem_range.1 hk
  rw [h.scale' (by omega), h.bdry' (by omega), h.bdry' (by omega)]

theorem tauStar' {l : ℕ} (hl : l < a.tauArr.n) (t : ℝ) : tauStar b l t = tauStar a l t := by
  unfold tauStar
  rw [h.bdryStar' hl.le, h.scale' hl, h.bdry' hl.le]

theorem inLayer' {l : ℕ} (hl : l < a.tauArr.n) (t : ℝ) : InLayer b l t ↔ InLayer a l t := by
  unfold InLayer
  rw [h.bdry' hl.le, h.bdry' (show l + 1 ≤ a.tauArr.n by omega)]

theorem rteRHS' {l : ℕ} (hl : l < a.tauArr.n) (mu w : Vec) (m : ℕ) (t : ℝ) (u : ℕ → ℝ) (i : ℕ) :
    rteRHS (nHalf b) mu w (kernel b m l) (beamSource b m l) b.mu0 0 t u i
      = rteRHS (nHalf a) mu w (kernel a m l) (beamSource a m l) a.mu0 0 t u i := by
  unfold rteRHS
  rw [h.streams, h.kernel' hl]
  by_cases hI : a.I0 = 0
  · rw [beamSource_dark hI, beamSource_dark (by rw [h.beam, hI])]; simp
  · rw [h.beamSource' hI hl, (h.beamDir hI).1]

theorem reflected' (mu w : Vec) (rho : ℝ → ℝ → ℝ) (m : ℕ) (x : ℝ) (d : ℕ → ℝ) : reflected b mu w rho m x d = reflected a mu w rho m x d := by
  unfold reflected
  rw [h.streams, h.layers, h.bdryStar' le_rfl, h.beam]
  by_cases hI : a.I0 = 0
  · rw [hI]; simp
  · rw [(h.beamDir hI).1]

/-- The solutions are the same. -/
theorem isSolution (ha : 0 < a.tauArr.n) {mu w : Vec} {rho : ℝ → ℝ → ℝ} {m : ℕ} (hm : m < M) {V : ℝ → ℕ → ℝ}
    (hV : IsSolution a mu w rho m V) : IsSolution b mu w rho m V where
  cont := by rw [h.streams, h.bottom' ha]; exact hV.cont
  ode := by
    intro l hl t ht0 ht1 i hi
    rw [h.layers] at hl
    rw [h.streams] at hi
    rw [h.bdry' hl.le] at ht0
    rw [h.bdry' (show l + 1 ≤ a.tauArr.n by omega)] at ht1
    obtain ⟨d, hd, he⟩ := hV.ode l hl t ht0 ht1 i hi
    refine ⟨d, hd, ?_⟩
    rw [h.streams, he]
    unfold rteUser
    rw [h.scale' hl, h.rteRHS' hl, h.tauStar' hl, h.omega l hl, h.source l hl t ⟨ht0.le, ht1.le⟩]
  top := by
    intro i hi
    rw [h.streams] at hi ⊢
    rw [h.top m hm i hi]
    exact hV.top i hi
  bot := by
    intro i hi
    rw [h.streams] at hi
    rw [h.bottom' ha, h.bottom m hm i hi, hV.bot i hi]
    have e : m < b.bdrf.length ↔ m < a.bdrf.length := by
      have := h.surface m hm
      by_contra hne
      rcases Nat.lt_or_ge m b.bdrf.length with h1 | h1 <;> rcases Nat.lt_or_ge m a.bdrf.length with h2 | h2
      · exact hne ⟨fun _ => h2, fun _ => h1⟩
      · rw [List.getElem?_eq_getElem h1, List.getElem?_eq_none h2] at this; cases this
      · rw [List.getElem?_eq_getElem h2, List.getElem?_eq_none h1] at this; cases this
      · exact hne ⟨fun h => absurd h (by omega), fun h => absurd h (by omega)⟩
    simp only [e, h.reflected', h.streams]

end Spec.SamePhysics

/-- Without a beam the modes other than the zeroth vanish. -/
theorem dark_isSolution (hbp : Azimuthless a.bpos) (hbn : Azimuthless a.bneg) (hI : a.I0 = 0) {mu w : Vec} {rho : ℝ → ℝ → ℝ} {m : ℕ}
    (hm : m ≠ 0) : IsSolution a mu w rho m (fun _ _ => 0) where
  cont := fun _ _ => continuousOn_const
  ode := by
    intro l hl t _ _ i hi
    refine ⟨0, hasDerivAt_const _ _, ?_⟩
    unfold rteUser rteRHS
    rw [beamSource_dark hI, if_neg hm]
    simp
  top := fun i hi => (bcVal_mode hbn hm i).symm
  bot := by
    intro i hi
    rw [bcVal_mode hbp hm]
    unfold reflected
    rw [hI]
    simp

end
end Pydisort

import Verif.Spec.Reflecting
import Verif.Props.Azimuth

/-!
# Lemmas: less absorption
-/

namespace Pydisort
open Finset Spec

variable {E : Ext} {a : Args} {om om₁ om₂ : A1 ℝ} {B B₁ B₂ : List BDRFMode}

/-- The scaled albedo increases with the albedo, the scale factor decreases. -/
theorem reflecting_scale (hf0 : 0 ≤ peak a l) (hf1 : peak a l < 1) (h0 : 0 ≤ om₁.get l) (hle : om₁.get l ≤ om₂.get l) (h1 : om₂.get l < 1) :
    0 < scale (reflecting a om₂ B₂) l ∧ scale (reflecting a om₂ B₂) l ≤ scale (reflecting a om₁ B₁) l ∧
    0 ≤ omegaStar (reflecting a om₁ B₁) l ∧ omegaStar (reflecting a om₁ B₁) l ≤ omegaStar (reflecting a om₂ B₂) l ∧
    scale (reflecting a om₁ B₁) l * omegaStar (reflecting a om₁ B₁) l ≤ scale (reflecting a om₂ B₂) l * omegaStar (reflecting a om₂ B₂) l := by
  have e₁ : scale (reflecting a om₁ B₁) l = 1 - om₁.get l * peak a l := rfl
  have e₂ : scale (reflecting a om₂ B₂) l = 1 - om₂.get l * peak a l := rfl
  have o₁ : omegaStar (reflecting a om₁ B₁) l = (1 - peak a l) * om₁.get l / (1 - om₁.get l * peak a l) := rfl
  have o₂ : omegaStar (reflecting a om₂ B₂) l = (1 - peak a l) * om₂.get l / (1 - om₂.get l * peak a l) := rfl
  set f := peak a l
  set x := om₁.get l
  set y := om₂.get l
  have hy : 0 < 1 - y * f := by nlinarith
  have hx : 0 < 1 - x * f := by nlinarith
  rw [e₁, e₂, o₁, o₂]
  refine ⟨hy, by nlinarith, div_nonneg (mul_nonneg (by linarith) h0) hx.le, ?_, ?_⟩
  · rw [div_le_div_iff₀ hx hy]
    nlinarith [mul_nonneg (sub_nonneg.2 hf1.le) (sub_nonneg.2 hle)]
  · rw [mul_div_cancel₀ _ hx.ne', mul_div_cancel₀ _ hy.ne']
    exact mul_le_mul_of_nonneg_left hle (by linarith)

open Classical in
/-- Scattered light increases with the albedo. -/
theorem significant_mono {w₁ w₂ s₁ s₂ c : ℝ} {n : ℕ} {g : ℕ → ℝ} {m : ℕ} (h0 : 0 ≤ w₁) (hle : w₁ ≤ w₂) (hs : 0 < s₂) (hsw : s₁ * w₁ ≤ s₂ * w₂)
    (hc : 0 ≤ if Significant w₂ n g m then w₂ * c else 0) :
    0 ≤ (if Significant w₁ n g m then w₁ * c else 0) ∧
    s₁ * (if Significant w₁ n g m then w₁ * c else 0) ≤ s₂ * (if Significant w₂ n g m then w₂ * c else 0) := by
  by_cases h₁ : Significant w₁ n g m
  · have h₂ : Significant w₂ n g m := by
      obtain ⟨k, hk1, hk2, hk⟩ := h₁
      refine ⟨k, hk1, hk2, hk.trans_le ?_⟩
      rw [abs_mul, abs_mul (w₂ / 2), abs_of_nonneg (show 0 ≤ w₁ / 2 by positivity), abs_of_nonneg (show 0 ≤ w₂ / 2 by linarith)]
      exact mul_le_mul_of_nonneg_right (by linarith) (abs_nonneg _)
    have hw : 0 < w₂ := by
      rcases (h0.trans hle).lt_or_eq with h | h
      · exact h
      · obtain ⟨k, _, _, hk⟩ := h₂
        rw [← h] at hk; simp at hk
        linarith [show (0 : ℝ) < (10 ^ 8)⁻¹ by positivity]
    rw [if_pos h₂] at hc ⊢
    rw [if_pos h₁]
    have hc' : 0 ≤ c := nonneg_of_mul_nonneg_right hc hw
    exact ⟨mul_nonneg h0 hc', by rw [← mul_assoc, ← mul_assoc]; exact mul_le_mul_of_nonneg_right hsw hc'⟩
  · rw [if_neg h₁, mul_zero]
    exact ⟨le_rfl, mul_nonneg hs.le hc⟩

theorem kernel_form (a : Args) (m l : ℕ) (x y : ℝ) : kernel a m l x y =
    open Classical in if Significant (omegaStar a l) (nLeg a) (legStar a l) m
      then omegaStar a l * (1 / 2 * phaseMoment (nLeg a) (legStar a l) m x y) else 0 := by
  unfold kernel scatD
  split_ifs <;> ring

theorem beamSource_form (a : Args) (m l : ℕ) (x : ℝ) : beamSource a m l x =
    open Classical in if Significant (omegaStar a l) (nLeg a) (legStar a l) m
      then omegaStar a l * (a.I0 * (2 - if m = 0 then 1 else 0) / (4 * Real.pi) * phaseMoment (nLeg a) (legStar a l) m x (-a.mu0)) else 0 := by
  unfold beamSource beamX
  by_cases h : Significant (omegaStar a l) (nLeg a) (legStar a l) m
  · rw [if_pos h, if_pos h]; ring
  · rw [if_neg h, if_neg h]

theorem reflecting_kernel {l : ℕ} (hf0 : 0 ≤ peak a l) (hf1 : peak a l < 1) (h0 : 0 ≤ om₁.get l) (hle : om₁.get l ≤ om₂.get l) (h1 : om₂.get l < 1)
    {m : ℕ} {x y : ℝ} (hk : 0 ≤ kernel (reflecting a om₂ B₂) m l x y) : 0 ≤ kernel (reflecting a om₁ B₁) m l x y ∧
    scale (reflecting a om₁ B₁) l * kernel (reflecting a om₁ B₁) m l x y ≤ scale (reflecting a om₂ B₂) l * kernel (reflecting a om₂ B₂) m l x y := by
  obtain ⟨h1, _, h3, h4, h5⟩ := reflecting_scale (B₁ := B₁) (B₂ := B₂) hf0 hf1 h0 hle h1
  rw [kernel_form] at hk ⊢
  rw [kernel_form]
  exact significant_mono h3 h4 h1 h5 hk

theorem reflecting_beamSource {l : ℕ} (hf0 : 0 ≤ peak a l) (hf1 : peak a l < 1) (h0 : 0 ≤ om₁.get l) (hle : om₁.get l ≤ om₂.get l) (h1 : om₂.get l < 1)
    {m : ℕ} {x : ℝ} (hk : 0 ≤ beamSource (reflecting a om₂ B₂) m l x) : 0 ≤ beamSource (reflecting a om₁ B₁) m l x ∧
    scale (reflecting a om₁ B₁) l * beamSource (reflecting a om₁ B₁) m l x
      ≤ scale (reflecting a om₂ B₂) l * beamSource (reflecting a om₂ B₂) m l x := by
  obtain ⟨h1, _, h3, h4, h5⟩ := reflecting_scale (B₁ := B₁) (B₂ := B₂) hf0 hf1 h0 hle h1
  rw [beamSource_form] at hk ⊢
  rw [beamSource_form]
  exact significant_mono h3 h4 h1 h5 hk

/-- Less absorption, less scaled depth. -/
theorem reflecting_depth (hacc : Accepted (reflecting a om₁ B₁)) (hle : ∀ l < a.tauArr.n, om₁.get l ≤ om₂.get l) :
    (∀ l ≤ a.tauArr.n, bdryStar (reflecting a om₂ B₂) l ≤ bdryStar (reflecting a om₁ B₁) l) ∧
    ∀ l < a.tauArr.n, ∀ t, bdry a.tauArr.get l ≤ t → tauStar (reflecting a om₂ B₂) l t ≤ tauStar (reflecting a om₁ B₁) l t := by
  have hs : ∀ l < a.tauArr.n, scale (reflecting a om₂ B₂) l ≤ scale (reflecting a om₁ B₁) l := fun l hl => by
    have hf : 0 ≤ peak a l := (Args.peak_range hacc l).1
    change 1 - om₂.get l * peak a l ≤ 1 - om₁.get l * peak a l
    nlinarith [hle l hl]
  have hb : ∀ l ≤ a.tauArr.n, bdryStar (reflecting a om₂ B₂) l ≤ bdryStar (reflecting a om₁ B₁) l := fun l hl => by
    unfold bdryStar
    refine sum_le_sum fun k hk => ?_
    have hk' : k < a.tauArr.n := by have := mem_range.1 hk; omega
    exact mul_le_mul_of_nonneg_right (hs k hk') (sub_nonneg.2 (bdry_lt hacc hk').le)
  refine ⟨hb, fun l hl t ht => ?_⟩
  unfold tauStar
  exact add_le_add (hb l hl.le) (mul_le_mul_of_nonneg_right (hs l hl) (sub_nonneg.2 ht))

end Pydisort

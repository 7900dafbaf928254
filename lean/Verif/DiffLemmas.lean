import Verif.Props.Linear
import Verif.CutLemmas
import Verif.AgreeLemmas
import Verif.Spec.Bounds

/-!
# The difference of two light fields is a light field
-/

namespace Pydisort
open Finset Spec

variable {E : Ext} {a : Args} {S₁ S₂ D : Sources}

/-- The sources `S₂` minus the sources `S₁`. -/
noncomputable def lessSources (a : Args) (S₁ S₂ : Sources) : Sources where
  I0 := S₂.I0 - S₁.I0
  bpos := .vec ⟨nHalf a, fun i => bcVal S₂.bpos 0 i - bcVal S₁.bpos 0 i⟩
  bneg := .vec ⟨nHalf a, fun i => bcVal S₂.bneg 0 i - bcVal S₁.bneg 0 i⟩
  s := ⟨a.tauArr.n, S₁.s.c + S₂.s.c, fun l k => (if l < S₂.s.r then if k < S₂.s.c then S₂.s.get l k else 0 else 0)
    - (if l < S₁.s.r then if k < S₁.s.c then S₁.s.get l k else 0 else 0)⟩

theorem padded_poly (c c' : ℕ) (h : c ≤ c') (f : ℕ → ℝ) (t : ℝ) :
    ∑ k ∈ range c', (if k < c then f k else 0) * t ^ k = ∑ k ∈ range c, f k * t ^ k := by
  rw [← sum_subset (range_subset_range.2 h) (fun k _ hk => by rw [if_neg (by simpa using hk), zero_mul])]
  exact sum_congr rfl fun k hk => by rw [if_pos (mem_range.1 hk)]

theorem source_less {l : ℕ} (hl : l < a.tauArr.n) (t : ℝ) :
    source (under a (lessSources a S₁ S₂)) l t = source (under a S₂) l t - source (under a S₁) l t := by
  change (if l < a.tauArr.n then ∑ k ∈ range (S₁.s.c + S₂.s.c), ((if l < S₂.s.r then if k < S₂.s.c then S₂.s.get l k else 0 else 0)
    - (if l < S₁.s.r then if k < S₁.s.c then S₁.s.get l k else 0 else 0)) * t ^ k else 0)
    = (if l < S₂.s.r then ∑ k ∈ range S₂.s.c, S₂.s.get l k * t ^ k else 0)
      - (if l < S₁.s.r then ∑ k ∈ range S₁.s.c, S₁.s.get l k * t ^ k else 0)
  rw [if_pos hl, ← padded_poly S₂.s.c (S₁.s.c + S₂.s.c) (by omega), ← padded_poly S₁.s.c (S₁.s.c + S₂.s.c) (by omega)]
  simp only [sub_mul, sum_sub_distrib]
  congr 1
  · split_ifs <;> simp
  · split_ifs <;> simp

theorem bcVal_less {b₁ b₂ : BCv} (h₁ : Azimuthless b₁) (h₂ : Azimuthless b₂) (m : ℕ) {n i : ℕ} (hi : i < n) :
    bcVal (.vec ⟨n, fun i => bcVal b₂ 0 i - bcVal b₁ 0 i⟩) m i = bcVal b₂ m i - bcVal b₁ m i := by
  by_cases hm : m = 0
  · subst hm; rw [bcVal_vec hi]
  · rw [bcVal_mode h₁ hm, bcVal_mode h₂ hm, bcVal_mode (b := .vec _) trivial hm, sub_zero]

theorem isSolution_less (hp₁ : Azimuthless S₁.bpos) (hn₁ : Azimuthless S₁.bneg) (hp₂ : Azimuthless S₂.bpos) (hn₂ : Azimuthless S₂.bneg)
    {mu w : Vec} {rho : ℝ → ℝ → ℝ} {m : ℕ} {V₁ V₂ : ℝ → ℕ → ℝ}
    (h₁ : IsSolution (under a S₁) mu w rho m V₁) (h₂ : IsSolution (under a S₂) mu w rho m V₂) :
    IsSolution (under a (lessSources a S₁ S₂)) mu w rho m (fun t i => V₂ t i - V₁ t i) := by
  refine ⟨fun i hi => (h₂.cont i hi).sub (h₁.cont i hi), fun l hl t ht0 ht1 i hi => ?_, fun i hi => ?_, fun i hi => ?_⟩
  · obtain ⟨d₁, g₁, e₁⟩ := h₁.ode l hl t ht0 ht1 i hi
    obtain ⟨d₂, g₂, e₂⟩ := h₂.ode l hl t ht0 ht1 i hi
    refine ⟨d₂ - d₁, g₂.sub g₁, ?_⟩
    change stream (nHalf a) mu i * (d₂ - d₁) = _
    change stream (nHalf a) mu i * d₁ = _ at e₁
    change stream (nHalf a) mu i * d₂ = _ at e₂
    rw [rteUser_under] at e₁ e₂ ⊢
    rw [mul_sub, e₁, e₂, source_less (a := a) hl]
    change _ = scale a l * (_ - (S₂.I0 - S₁.I0) * _) - _
    simp only [mul_sub, sum_sub_distrib]
    split_ifs <;> ring
  · have e₁ := h₁.top i hi
    have e₂ := h₂.top i hi
    change V₂ 0 (nHalf a + i) - V₁ 0 (nHalf a + i) = bcVal (.vec _) m i
    change V₁ 0 (nHalf a + i) = bcVal S₁.bneg m i at e₁
    change V₂ 0 (nHalf a + i) = bcVal S₂.bneg m i at e₂
    rw [e₁, e₂, bcVal_less hn₁ hn₂ m (n := nHalf a) hi]
  · have e₁ := h₁.bot i hi
    have e₂ := h₂.bot i hi
    change V₂ (bottom a) i - V₁ (bottom a) i = bcVal (.vec _) m i + if m < a.bdrf.length then _ else 0
    change V₁ (bottom a) i = bcVal S₁.bpos m i + if m < a.bdrf.length then _ else 0 at e₁
    change V₂ (bottom a) i = bcVal S₂.bpos m i + if m < a.bdrf.length then _ else 0 at e₂
    rw [e₁, e₂, bcVal_less hp₁ hp₂ m (n := nHalf a) hi]
    by_cases hm : m < a.bdrf.length
    · simp only [if_pos hm]
      unfold reflected
      change _ = bcVal S₂.bpos m i - bcVal S₁.bpos m i + ((1 + if m = 0 then 1 else 0) * ∑ j ∈ range (nHalf a),
        w j * mu j * rho (mu i) (mu j) * (V₂ (bottom a) (nHalf a + j) - V₁ (bottom a) (nHalf a + j))
        + a.mu0 * (S₂.I0 - S₁.I0) / Real.pi * rho (mu i) a.mu0 * Real.exp (-bdryStar a a.tauArr.n / a.mu0))
      change bcVal S₂.bpos m i + ((1 + if m = 0 then 1 else 0) * ∑ j ∈ range (nHalf a),
        w j * mu j * rho (mu i) (mu j) * V₂ (bottom a) (nHalf a + j)
        + a.mu0 * S₂.I0 / Real.pi * rho (mu i) a.mu0 * Real.exp (-bdryStar a a.tauArr.n / a.mu0))
        - (bcVal S₁.bpos m i + ((1 + if m = 0 then 1 else 0) * ∑ j ∈ range (nHalf a),
        w j * mu j * rho (mu i) (mu j) * V₁ (bottom a) (nHalf a + j)
        + a.mu0 * S₁.I0 / Real.pi * rho (mu i) a.mu0 * Real.exp (-bdryStar a a.tauArr.n / a.mu0))) = _
      simp only [mul_sub, sum_sub_distrib]
      ring
    · simp only [if_neg hm]; ring

theorem accepted_less (h : Accepted (under a S₂)) (hI : 0 ≤ S₁.I0) (hle : S₁.I0 ≤ S₂.I0) : Accepted (under a (lessSources a S₁ S₂)) :=
  { h with
    beam := sub_nonneg.2 hle
    beamDir := fun h' => h.beamDir (show 0 < S₂.I0 by
      have : 0 < S₂.I0 - S₁.I0 := h'
      linarith)
    bottom := Or.inr (Or.inr rfl)
    topBC := Or.inr (Or.inr rfl)
    sourceRows := Or.inr rfl }

end Pydisort

import Verif.PrepLemmas

/-! Helper lemmas: the optical properties computed by `pydisort` are the delta-M scaled ones. -/

namespace Pydisort
open Finset
open Spec (bdry)

namespace Args
variable {a : Args}

theorem legFix_eq {l k : ℕ} (hl : l < a.NLayers) (h : a.omega.get l ≠ 0) : a.legFix l k = Spec.leg a l k := by
  unfold legFix Spec.leg
  by_cases hk : k = 0
  · subst hk
    by_cases hc : ∀ l < a.NLayers, a.omega.get l * a.leg.get l 0 = a.omega.get l
    · rw [if_neg (by tauto), if_pos rfl]
      have := hc l hl
      exact mul_left_cancel₀ h (by linarith)
    · rw [if_pos ⟨hc, rfl⟩, if_pos rfl]
  · simp [hk]

theorem thick_eq (k : ℕ) : a.thick k = bdry a.tauArr.get (k + 1) - bdry a.tauArr.get k := by
  unfold thick bdry
  by_cases hk : k = 0
  · simp [hk]
  · rw [if_neg hk, if_neg hk, if_neg (by omega), show k - 1 + 1 = k by omega, show k + 1 - 1 = k by omega]

/-- What `optics` computes. -/
structure OpticsSpec (a : Args) (O : Optics) : Prop where
  scale : ∀ l < a.NLayers, O.scale l = Spec.scale a l
  tau0 : ∀ k ≤ a.NLayers, O.tau0 k = Spec.bdryStar a k
  thick : ∀ k < a.NLayers, O.thick k = Spec.scale a k * (bdry a.tauArr.get (k + 1) - bdry a.tauArr.get k)
  omega : ∀ l < a.NLayers, O.omega l = Spec.omegaStar a l
  wLeg : ∀ l < a.NLayers, ∀ k, a.omega.get l ≠ 0 → O.wLeg l k = (2 * (k : ℝ) + 1) * Spec.legStar a l k
  srcRows : a.Iso → O.s.r = a.NLayers
  src : a.Iso → ∀ l < a.NLayers, ∀ t, Spec.scale a l * ∑ k ∈ range a.s.c, O.s.get l k * Spec.tauStar a l t ^ k
    = (1 - a.omega.get l) * Spec.source a l t

theorem peak_of_pos (h : Spec.Accepted a) (hf : ∃ k < a.fArr.n, 0 < a.fArr.get k) {l : ℕ} (hl : l < a.NLayers) :
    Spec.peak a l = a.fArr.get l := by
  have : a.fArr.n = a.tauArr.n := by
    rcases h.peakLen with h' | h'
    · obtain ⟨k, hk, hp⟩ := hf
      rw [h' k hk] at hp; exact absurd hp (lt_irrefl _)
    · exact h'
  unfold Spec.peak
  rw [if_pos (by rw [this]; exact hl)]

theorem peak_of_zero (h : Spec.Accepted a) (hf : ¬ ∃ k < a.fArr.n, 0 < a.fArr.get k) (l : ℕ) :
    Spec.peak a l = 0 := by
  unfold Spec.peak
  split_ifs with hl
  · push Not at hf
    exact le_antisymm (hf l hl) (h.peak l hl).1
  · rfl

theorem peak_range (h : Spec.Accepted a) (l : ℕ) : 0 ≤ Spec.peak a l ∧ Spec.peak a l ≤ 1 := by
  unfold Spec.peak
  split_ifs with hl
  · exact h.peak l hl
  · simp

theorem scale_pos (h : Spec.Accepted a) {l : ℕ} (hl : l < a.NLayers) : 0 < Spec.scale a l := by
  have h1 := h.omega l hl
  have h2 := peak_range h l
  unfold Spec.scale
  nlinarith

theorem bin_ok {α β γ : Type} {f : α → β → γ} {x : A2 α} {y : A2 β} {z : A2 γ} (h : A2.bin f x y = .ok z) :
    bdim x.r y.r = .ok z.r ∧ bdim x.c y.c = .ok z.c ∧
      ∀ i j, z.get i j = f (x.get (bix x.r i) (bix x.c j)) (y.get (bix y.r i) (bix y.c j)) := by
  unfold A2.bin at h
  rcases h1 : bdim x.r y.r with e | r
  · rw [h1] at h; cases h
  rcases h2 : bdim x.c y.c with e | c
  · rw [h1] at h; simp only [bind, Except.bind] at h; rw [h2] at h; cases h
  rw [h1] at h; simp only [bind, Except.bind] at h; rw [h2] at h; cases h
  exact ⟨rfl, rfl, fun _ _ => rfl⟩

theorem affine_ok {p : A2 ℝ} {x y : A1 ℝ} {z : A2 ℝ} (h : affineTransform p x y = .ok z) (hxy : x.n = y.n)
    (hx : x.n = p.r) :
    z.r = p.r ∧ z.c = p.c ∧ ∀ l < p.r, ∀ i, z.get l i = ∑ j ∈ range p.c, affineT (x.get l) (y.get l) i j * p.get l j := by
  unfold affineTransform at h
  split_ifs at h with h0
  rw [← hxy, bdim_self] at h
  simp only [bind, Except.bind] at h
  rw [hx, bdim_self] at h
  cases h
  refine ⟨rfl, rfl, fun l hl i => ?_⟩
  simp only
  rw [bix_of_lt hl, bix_of_lt hl]

theorem optics_spec (h : Spec.Accepted a) {O : Optics} (hO : a.optics = .ok O) : OpticsSpec a O := by
  unfold optics at hO
  have hsr : a.Iso → a.s.r = a.NLayers := fun hi => by
    rcases h.sourceRows with h' | h'
    · exact absurd h' (iso_iff.1 hi)
    · exact h'
  have hL : 0 < a.NLayers := h.layers
  split_ifs at hO with hf
  · have hp : ∀ l < a.NLayers, Spec.peak a l = a.fArr.get l := fun l hl => peak_of_pos h hf hl
    have hsc : ∀ l < a.NLayers, a.scale l = Spec.scale a l := fun l hl => by
      unfold Args.scale Spec.scale; rw [hp l hl]
    rcases h1 : affineTransform a.s ⟨a.NLayers, a.scale⟩ ⟨a.NLayers, a.translation⟩ with e | s1
    · rw [h1] at hO; cases hO
    rw [h1] at hO; simp only [bind, Except.bind] at hO
    rcases h2 : A2.bin (fun x y : ℝ => x / y) s1 (A1.col ⟨a.NLayers, a.scale⟩) with e | s2
    · rw [h2] at hO; cases hO
    rw [h2] at hO; simp only at hO
    rcases h3 : A2.bin (fun x y : ℝ => x * y) s2 (A1.col ⟨a.NLayers, fun k => 1 - a.omega.get k⟩) with e | s3
    · rw [h3] at hO; cases hO
    rw [h3] at hO; cases hO
    have htau : ∀ k ≤ a.NLayers, a.tau0 k = Spec.bdryStar a k := by
      intro k hk
      unfold Args.tau0 Spec.bdryStar
      by_cases hk0 : k = 0
      · simp [hk0]
      · rw [if_neg hk0]
        unfold cumsum
        rw [show k - 1 + 1 = k by omega]
        refine sum_congr rfl fun j hj => ?_
        rw [mem_range] at hj
        simp only
        rw [thick_eq, hsc j (by omega)]
    refine ⟨hsc, htau, fun k hk => ?_, fun l hl => ?_, fun l hl k ho => ?_, fun hi => ?_, fun hi l hl t => ?_⟩
    · simp only; rw [thick_eq, hsc k hk]
    · simp only; rw [hsc l hl]; unfold Spec.omegaStar; rw [hp l hl]; ring
    · simp only; unfold Spec.legStar; rw [legFix_eq hl ho, hp l hl]; ring
    · have e1 := (affine_ok h1 rfl (hsr hi).symm).1
      have e2 := (bin_ok h2).1
      have e3 := (bin_ok h3).1
      simp only [A1.col] at e2 e3
      rw [e1, hsr hi, bdim_self] at e2
      injection e2 with e2
      rw [← e2, bdim_self] at e3
      injection e3 with e3
      exact e3.symm
    · obtain ⟨e1, c1, g1⟩ := affine_ok h1 rfl (hsr hi).symm
      obtain ⟨e2, c2, g2⟩ := bin_ok h2
      obtain ⟨e3, c3, g3⟩ := bin_ok h3
      simp only [A1.col] at e2 e3 c2 c3 g2 g3
      have r1 : s1.r = a.NLayers := e1.trans (hsr hi)
      rw [r1, bdim_self] at e2
      have r2 : s2.r = a.NLayers := by injection e2 with e2; exact e2.symm
      rw [bdim_one_right] at c2 c3
      have cc1 : s1.c = a.s.c := c1
      have cc2 : s2.c = a.s.c := by injection c2 with c2; rw [← c2]; exact cc1
      have hbeta : Spec.tauStar a l t = a.scale l * t + a.translation l := by
        unfold Spec.tauStar translation
        rw [htau l hl.le, hsc l hl]
        unfold bdry
        ring
      have hsp := scale_pos h hl
      have hval : ∀ k ∈ range a.s.c, s3.get l k
          = (∑ j ∈ range a.s.c, affineT (a.scale l) (a.translation l) k j * a.s.get l j) / a.scale l
            * (1 - a.omega.get l) := by
        intro k hk
        rw [mem_range] at hk
        rw [g3, g2, r2, cc2, r1, cc1, bix_of_lt hl, bix_of_lt hl, bix_of_lt hk, bix_of_lt hk,
          g1 l (by rw [hsr hi]; exact hl)]
      rw [sum_congr rfl fun k hk => by rw [hval k hk]]
      rw [hbeta]
      have := affineT_sum (a := a.scale l) (by rw [hsc l hl]; exact hsp.ne') (a.translation l) t a.s.c (a.s.get l)
      unfold Spec.source
      rw [if_pos (by rw [hsr hi]; exact hl), ← this, mul_sum, mul_sum, ← hsc l hl]
      have hs0 : a.scale l ≠ 0 := by rw [hsc l hl]; exact hsp.ne'
      refine sum_congr rfl fun k _ => ?_
      field_simp
  · have hp : ∀ l, Spec.peak a l = 0 := peak_of_zero h hf
    rcases h3 : A2.bin (fun x y : ℝ => x * y) a.s (A1.col ⟨a.NLayers, fun k => 1 - a.omega.get k⟩) with e | s3
    · rw [h3] at hO; cases hO
    rw [h3] at hO; cases hO
    have hsc : ∀ l, Spec.scale a l = 1 := fun l => by simp [Spec.scale, hp]
    have htau : ∀ k ≤ a.NLayers, Spec.bdryStar a k = bdry a.tauArr.get k := by
      intro k _
      unfold Spec.bdryStar
      induction k with
      | zero => simp [bdry]
      | succ k ih => rw [sum_range_succ, ih (by omega), hsc]; ring
    refine ⟨fun l _ => (hsc l).symm, fun k hk => (htau k hk).symm, fun k _ => ?_, fun l _ => ?_, fun l hl k ho => ?_,
      fun hi => ?_, fun hi l hl t => ?_⟩
    · simp only; rw [thick_eq, hsc]; ring
    · simp [Spec.omegaStar, hp, hsc]
    · simp only; rw [legFix_eq hl ho]; simp [Spec.legStar, hp]; ring
    · have e3 := (bin_ok h3).1
      simp only [A1.col] at e3
      rw [hsr hi, bdim_self] at e3
      injection e3 with e3
      exact e3.symm
    · obtain ⟨e3, c3, g3⟩ := bin_ok h3
      simp only [A1.col] at e3 c3 g3
      have : Spec.tauStar a l t = t := by
        unfold Spec.tauStar; rw [htau l hl.le, hsc]; ring
      rw [this, hsc, one_mul]
      unfold Spec.source
      rw [if_pos (by rw [hsr hi]; exact hl), mul_sum]
      refine sum_congr rfl fun k hk => ?_
      rw [mem_range] at hk
      rw [g3, hsr hi, bix_of_lt hl, bix_of_lt hk]; ring

end Args
end Pydisort

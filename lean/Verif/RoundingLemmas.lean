import Verif.Spec.Float
import Mathlib.Data.Int.LeastGreatest
import Mathlib.Algebra.Order.Floor.Ring
import Mathlib.Algebra.Order.Field.Power
import Mathlib.Tactic.Linarith
import Mathlib.Tactic.Positivity
import Mathlib.Tactic.Ring
import Mathlib.Tactic.FieldSimp
import Mathlib.Tactic.NormNum
import Mathlib.Algebra.Order.Archimedean.Real.Basic

/-!
# Lemmas: rounding
-/

namespace Pydisort
open Spec

variable {F : Format}

theorem Spec.Format.one_lt (F : Format) : (1 : ℤ) < 2 ^ F.p :=
  lt_of_lt_of_le (by norm_num) (pow_le_pow_right₀ (by norm_num) F.two_le)

theorem rep_zpow {e : ℤ} (h : F.emin ≤ e) : F.Rep ((2 : ℝ) ^ e) := ⟨1, e, by simpa using F.one_lt, h, by simp⟩

theorem emin_neg (F : Format) : F.emin ≤ -(F.p : ℤ) - 1 := by have := F.emin_le; have := F.two_le; omega

theorem rep_zero : F.Rep 0 := ⟨0, F.emin, by simp, le_rfl, by simp⟩

theorem rep_one : F.Rep 1 := by
  have := rep_zpow (F := F) (e := 0) (by have := emin_neg F; omega)
  simpa using this

theorem rep_two : F.Rep 2 := by
  have := rep_zpow (F := F) (e := 1) (by have := emin_neg F; omega)
  simpa using this

theorem rep_neg {x : ℝ} (h : F.Rep x) : F.Rep (-x) := by
  obtain ⟨m, e, hm, he, rfl⟩ := h
  exact ⟨-m, e, by rwa [abs_neg], he, by push_cast; ring⟩

/-- Numbers of the format are multiples of the smallest one. -/
theorem rep_multiple {x : ℝ} (h : F.Rep x) : ∃ k : ℤ, x = k * (2 : ℝ) ^ F.emin := by
  obtain ⟨m, e, -, he, rfl⟩ := h
  obtain ⟨n, rfl⟩ := Int.le.dest he
  refine ⟨m * 2 ^ n, ?_⟩
  rw [zpow_add₀ (by norm_num), zpow_natCast]
  push_cast; ring

namespace Spec.Rounding
variable (r : Rounding F)

theorem zero : r.rnd 0 = 0 := r.fix _ rep_zero
theorem one : r.rnd 1 = 1 := r.fix _ rep_one
theorem two : r.rnd 2 = 2 := r.fix _ rep_two

theorem nonneg {x : ℝ} (h : 0 ≤ x) : 0 ≤ r.rnd x := by rw [← r.zero]; exact r.mono h
theorem nonpos {x : ℝ} (h : x ≤ 0) : r.rnd x ≤ 0 := by rw [← r.zero]; exact r.mono h
theorem le_one {x : ℝ} (h : x ≤ 1) : r.rnd x ≤ 1 := by rw [← r.one]; exact r.mono h

theorem le_of_rep {x y : ℝ} (hy : F.Rep y) (h : x ≤ y) : r.rnd x ≤ y := by rw [← r.fix _ hy]; exact r.mono h
theorem rep_le {x y : ℝ} (hy : F.Rep y) (h : y ≤ x) : y ≤ r.rnd x := by rw [← r.fix _ hy]; exact r.mono h

/-- Rounding of the negative. -/
noncomputable def flip : Rounding F where
  rnd x := -r.rnd (-x)
  mono x y h := neg_le_neg (r.mono (neg_le_neg h))
  rep x := rep_neg (r.rep _)
  fix x h := by rw [r.fix _ (rep_neg h), neg_neg]

/-- With gradual underflow a difference is zero only if the numbers are equal. -/
theorem sub_pos {x y : ℝ} (hx : F.Rep x) (hy : F.Rep y) (h : x < y) : (2 : ℝ) ^ F.emin ≤ r.rnd (y - x) := by
  refine r.rep_le (rep_zpow le_rfl) ?_
  obtain ⟨k, rfl⟩ := rep_multiple hx
  obtain ⟨m, rfl⟩ := rep_multiple hy
  have hp : (0 : ℝ) < (2 : ℝ) ^ F.emin := by positivity
  have h1 : (k : ℝ) < m := lt_of_mul_lt_mul_right h hp.le
  have h2 : (k : ℝ) + 1 ≤ m := by exact_mod_cast h1
  nlinarith

/-- A number below one stays away from one by half a unit in the last place. -/
theorem _root_.Pydisort.rep_below {x : ℝ} (hx : F.Rep x) (h : x < 1) : (2 : ℝ) ^ (-(F.p : ℤ)) ≤ 1 - x := by
  obtain ⟨m, e, hm, he, rfl⟩ := hx
  have hp2 : (2 : ℝ) ^ (-(F.p : ℤ)) ≤ 1 / 2 := by
    have h1 : (2 : ℝ) ^ (-(F.p : ℤ)) ≤ (2 : ℝ) ^ (-1 : ℤ) := zpow_le_zpow_right₀ (by norm_num) (by have := F.two_le; omega)
    refine h1.trans (le_of_eq (by norm_num))
  by_cases h2 : (m : ℝ) * (2 : ℝ) ^ e ≤ 1 / 2
  · linarith
  · push Not at h2
    have he0 : (0 : ℝ) < (2 : ℝ) ^ e := by positivity
    have hm0 : 0 < m := by
      by_contra hc
      push Not at hc
      have : (m : ℝ) ≤ 0 := by exact_mod_cast hc
      nlinarith
    have hen : e < 0 := by
      by_contra hc
      push Not at hc
      have h3 : (1 : ℝ) ≤ (2 : ℝ) ^ e := one_le_zpow₀ (by norm_num) hc
      have h4 : (1 : ℝ) ≤ m := by exact_mod_cast hm0
      nlinarith
    have hep : -(F.p : ℤ) ≤ e := by
      by_contra hc
      push Not at hc
      have h3 : (2 : ℝ) ^ e ≤ (2 : ℝ) ^ (-(F.p : ℤ) - 1) := zpow_le_zpow_right₀ (by norm_num) (by omega)
      have h4 : (m : ℝ) < (2 : ℝ) ^ (F.p : ℤ) := by
        rw [zpow_natCast]
        have := (abs_lt.1 hm).2
        exact_mod_cast this
      have h5 : (m : ℝ) * (2 : ℝ) ^ e < (2 : ℝ) ^ (F.p : ℤ) * (2 : ℝ) ^ (-(F.p : ℤ) - 1) :=
        mul_lt_mul h4 h3 he0 (by positivity)
      rw [← zpow_add₀ (by norm_num), show (F.p : ℤ) + (-(F.p : ℤ) - 1) = -1 by ring] at h5
      norm_num at h5
      linarith
    refine (zpow_le_zpow_right₀ (by norm_num) hep).trans ?_
    obtain ⟨n, hn⟩ : ∃ n : ℕ, e = -(n : ℤ) := ⟨e.natAbs, by omega⟩
    subst hn
    have h6 : (2 : ℝ) ^ (-(n : ℤ)) * 2 ^ n = 1 := by
      rw [zpow_neg, zpow_natCast]; exact inv_mul_cancel₀ (by positivity)
    have h7 : (m : ℝ) < 2 ^ n := by
      have : (m : ℝ) * (2 : ℝ) ^ (-(n : ℤ)) * 2 ^ n < 1 * 2 ^ n := mul_lt_mul_of_pos_right h (by positivity)
      rwa [mul_assoc, h6, mul_one, one_mul] at this
    have h8 : (m : ℝ) + 1 ≤ 2 ^ n := by
      have : m < 2 ^ n := by exact_mod_cast h7
      exact_mod_cast this
    nlinarith [mul_le_mul_of_nonneg_right h8 he0.le]

theorem one_sub {x : ℝ} (hx : F.Rep x) (h : x < 1) : (2 : ℝ) ^ (-(F.p : ℤ)) ≤ r.rnd (1 - x) :=
  r.rep_le (rep_zpow (by have := emin_neg F; omega)) (rep_below hx h)

/-- The next number above one. -/
theorem _root_.Pydisort.rep_gap {y : ℝ} (hy : F.Rep y) (h : 1 < y) : 1 + (2 : ℝ) ^ (1 - (F.p : ℤ)) ≤ y := by
  obtain ⟨m, e, hm, he, rfl⟩ := hy
  have he0 : (0 : ℝ) < (2 : ℝ) ^ e := by positivity
  have hm0 : 0 < m := by
    by_contra hc
    push Not at hc
    have : (m : ℝ) ≤ 0 := by exact_mod_cast hc
    nlinarith
  have hm1 : (1 : ℝ) ≤ m := by exact_mod_cast hm0
  rcases le_or_gt 1 e with h1 | h1
  · have h2 : (2 : ℝ) ^ (1 : ℤ) ≤ (2 : ℝ) ^ e := zpow_le_zpow_right₀ (by norm_num) h1
    have h3 : (2 : ℝ) ^ (1 - (F.p : ℤ)) ≤ (2 : ℝ) ^ (0 : ℤ) := zpow_le_zpow_right₀ (by norm_num) (by have := F.two_le; omega)
    rw [zpow_one] at h2
    rw [zpow_zero] at h3
    nlinarith
  · obtain ⟨n, hn⟩ : ∃ n : ℕ, e = -(n : ℤ) := ⟨e.natAbs, by omega⟩
    subst hn
    have h6 : (2 : ℝ) ^ (-(n : ℤ)) * 2 ^ n = 1 := by
      rw [zpow_neg, zpow_natCast]; exact inv_mul_cancel₀ (by positivity)
    have h7 : (2 : ℝ) ^ n < m := by
      have : 1 * 2 ^ n < (m : ℝ) * (2 : ℝ) ^ (-(n : ℤ)) * 2 ^ n := mul_lt_mul_of_pos_right h (by positivity)
      rwa [mul_assoc, h6, mul_one, one_mul] at this
    have h8 : (2 : ℤ) ^ n < m := by exact_mod_cast h7
    have h9 : (2 : ℝ) ^ n + 1 ≤ m := by exact_mod_cast h8
    have h10 : n < F.p := (pow_lt_pow_iff_right₀ (by norm_num : (1 : ℤ) < 2)).1 (h8.trans ((abs_lt.1 hm).2))
    have h11 : (2 : ℝ) ^ (1 - (F.p : ℤ)) ≤ (2 : ℝ) ^ (-(n : ℤ)) := zpow_le_zpow_right₀ (by norm_num) (by omega)
    nlinarith [mul_le_mul_of_nonneg_right h9 he0.le]

theorem err_pos {x : ℝ} (hx : 0 < x) : |r.rnd x - x| ≤ (2 : ℝ) ^ (1 - (F.p : ℤ)) * x + (2 : ℝ) ^ F.emin := by
  obtain ⟨e, he1, he2⟩ := exists_mem_Ico_zpow hx (y := 2) (by norm_num)
  set q : ℤ := max (e - F.p + 1) F.emin with hq
  have hq0 : (0 : ℝ) < (2 : ℝ) ^ q := by positivity
  set k : ℤ := ⌊x / (2 : ℝ) ^ q⌋ with hk
  have hk1 : (k : ℝ) * (2 : ℝ) ^ q ≤ x := by
    have := Int.floor_le (x / (2 : ℝ) ^ q)
    rwa [← hk, le_div_iff₀ hq0] at this
  have hk2 : x < (k + 1 : ℝ) * (2 : ℝ) ^ q := by
    have := Int.lt_floor_add_one (x / (2 : ℝ) ^ q)
    rwa [← hk, div_lt_iff₀ hq0] at this
  have hk0 : 0 ≤ k := Int.floor_nonneg.2 (div_pos hx hq0).le
  have hkp : k < 2 ^ F.p := by
    have h1 : x < (2 : ℝ) ^ F.p * (2 : ℝ) ^ q := by
      refine he2.trans_le ?_
      rw [← zpow_natCast, ← zpow_add₀ (by norm_num)]
      exact zpow_le_zpow_right₀ (by norm_num) (by have := le_max_left (e - F.p + 1) F.emin; omega)
    have h2 : (k : ℝ) < (2 : ℝ) ^ F.p := lt_of_mul_lt_mul_right (hk1.trans_lt h1) hq0.le
    exact_mod_cast h2
  have l1 : (k : ℝ) * (2 : ℝ) ^ q ≤ r.rnd x :=
    r.rep_le ⟨k, q, by rwa [abs_of_nonneg hk0], le_max_right _ _, rfl⟩ hk1
  have l2 : r.rnd x ≤ (k + 1 : ℝ) * (2 : ℝ) ^ q := by
    refine r.le_of_rep ?_ hk2.le
    rcases (Int.add_one_le_iff.2 hkp).lt_or_eq with h | h
    · exact ⟨k + 1, q, by rwa [abs_of_nonneg (by omega)], le_max_right _ _, by push_cast; ring⟩
    · refine ⟨1, q + F.p, by simpa using F.one_lt, by have := le_max_right (e - F.p + 1) F.emin; omega, ?_⟩
      have : (k + 1 : ℝ) = 2 ^ F.p := by exact_mod_cast h
      rw [this, zpow_add₀ (by norm_num), zpow_natCast]; push_cast; ring
  have h3 : |r.rnd x - x| ≤ (2 : ℝ) ^ q := abs_le.2 ⟨by linarith, by linarith⟩
  refine h3.trans ?_
  have hu : (0 : ℝ) < (2 : ℝ) ^ (1 - (F.p : ℤ)) := by positivity
  have hη : (0 : ℝ) < (2 : ℝ) ^ F.emin := by positivity
  rcases max_choice (e - F.p + 1) F.emin with h | h
  · rw [hq, h, show e - (F.p : ℤ) + 1 = (1 - (F.p : ℤ)) + e by ring, zpow_add₀ (by norm_num)]
    nlinarith
  · rw [hq, h]
    nlinarith

/-- The rounding error. -/
theorem err (x : ℝ) : |r.rnd x - x| ≤ (2 : ℝ) ^ (1 - (F.p : ℤ)) * |x| + (2 : ℝ) ^ F.emin := by
  rcases lt_trichotomy x 0 with h | h | h
  · have := r.flip.err_pos (neg_pos.2 h)
    rw [abs_of_neg h]
    refine le_of_eq_of_le ?_ this
    change |r.rnd x - x| = |-r.rnd (- -x) - -x|
    rw [neg_neg, ← abs_neg]; congr 1; ring
  · rw [h, r.zero]
    simp only [sub_self, abs_zero, mul_zero, zero_add]
    positivity
  · rw [abs_of_pos h]; exact r.err_pos h

end Spec.Rounding

/-! ### Roundings exist -/

theorem exists_down (F : Format) (x : ℝ) : ∃ y, F.Rep y ∧ y ≤ x ∧ ∀ z, F.Rep z → z ≤ x → z ≤ y := by
  have hp : (0 : ℝ) < (2 : ℝ) ^ F.emin := by positivity
  obtain ⟨k, ⟨hk1, hk2⟩, hk3⟩ := Int.exists_greatest_of_bdd (P := fun k : ℤ => F.Rep (k * (2 : ℝ) ^ F.emin) ∧ (k : ℝ) * (2 : ℝ) ^ F.emin ≤ x)
    ⟨⌊x / (2 : ℝ) ^ F.emin⌋, fun z hz => Int.le_floor.2 ((le_div_iff₀ hp).2 hz.2)⟩ (by
      obtain ⟨n, hn⟩ := pow_unbounded_of_one_lt (-x / (2 : ℝ) ^ F.emin) (show (1 : ℝ) < 2 by norm_num)
      refine ⟨-2 ^ n, ⟨-1, F.emin + n, by simpa using F.one_lt, by omega, ?_⟩, ?_⟩
      · rw [zpow_add₀ (by norm_num), zpow_natCast]; push_cast; ring
      · rw [div_lt_iff₀ hp] at hn
        push_cast; linarith)
  refine ⟨_, hk1, hk2, fun z hz hzx => ?_⟩
  obtain ⟨m, rfl⟩ := rep_multiple hz
  have : (m : ℝ) ≤ k := by exact_mod_cast hk3 m ⟨hz, hzx⟩
  exact mul_le_mul_of_nonneg_right this hp.le

/-- The largest number of the format that is not larger. -/
noncomputable def down (F : Format) (x : ℝ) : ℝ := (exists_down F x).choose
theorem down_rep (F : Format) (x : ℝ) : F.Rep (down F x) := (exists_down F x).choose_spec.1
theorem down_le (F : Format) (x : ℝ) : down F x ≤ x := (exists_down F x).choose_spec.2.1
theorem le_down {x z : ℝ} (hz : F.Rep z) (h : z ≤ x) : z ≤ down F x := (exists_down F x).choose_spec.2.2 z hz h
/-- The smallest number of the format that is not smaller. -/
noncomputable def up (F : Format) (x : ℝ) : ℝ := -down F (-x)
theorem up_rep (F : Format) (x : ℝ) : F.Rep (up F x) := rep_neg (down_rep F _)
theorem le_up (F : Format) (x : ℝ) : x ≤ up F x := by have := down_le F (-x); unfold up; linarith
theorem up_le {x z : ℝ} (hz : F.Rep z) (h : x ≤ z) : up F x ≤ z := by
  have := le_down (rep_neg hz) (neg_le_neg h); unfold up; linarith

open Classical in
/-- Rounding to the nearest number; of two that are equally near it takes the lower one if it satisfies `even`. -/
noncomputable def nearest (F : Format) (even : ℝ → Prop) : Rounding F where
  rnd x := if x - down F x < up F x - x ∨ (x - down F x = up F x - x ∧ even (down F x)) then down F x else up F x
  mono x y hxy := by
    beta_reduce
    rcases eq_or_ne (down F x) (down F y) with hd | hd
    · rcases eq_or_ne (up F x) (up F y) with hu | hu
      · rw [← hd, ← hu]
        split_ifs with h1 h2 h2
        · exact le_rfl
        · exact (down_le F x).trans (le_up F x)
        · exfalso
          apply h1
          rcases h2 with h2 | h2
          · left; linarith
          · rcases hxy.lt_or_eq with h3 | h3
            · left; linarith [h2.1]
            · subst h3; right; exact h2
        · exact le_rfl
      · have h1 : up F x ≤ y := by
          by_contra hc
          push Not at hc
          exact hu (le_antisymm (up_le (up_rep F y) (hxy.trans (le_up F y))) (up_le (up_rep F x) hc.le))
        have h2 : up F x ≤ down F y := le_down (up_rep F x) h1
        have h3 : (if x - down F x < up F x - x ∨ (x - down F x = up F x - x ∧ even (down F x)) then down F x else up F x) ≤ up F x := by
          split_ifs
          · exact (down_le F x).trans (le_up F x)
          · exact le_rfl
        have h4 : down F y ≤ (if y - down F y < up F y - y ∨ (y - down F y = up F y - y ∧ even (down F y)) then down F y else up F y) := by
          split_ifs
          · exact le_rfl
          · exact (down_le F y).trans (le_up F y)
        exact h3.trans (h2.trans h4)
    · have h1 : x ≤ down F y := by
        by_contra hc
        push Not at hc
        exact hd (le_antisymm (le_down (down_rep F x) ((down_le F x).trans hxy)) (le_down (down_rep F y) hc.le))
      have h2 : up F x ≤ down F y := up_le (down_rep F y) h1
      have h3 : (if x - down F x < up F x - x ∨ (x - down F x = up F x - x ∧ even (down F x)) then down F x else up F x) ≤ up F x := by
        split_ifs
        · exact (down_le F x).trans (le_up F x)
        · exact le_rfl
      have h4 : down F y ≤ (if y - down F y < up F y - y ∨ (y - down F y = up F y - y ∧ even (down F y)) then down F y else up F y) := by
        split_ifs
        · exact le_rfl
        · exact (down_le F y).trans (le_up F y)
      exact h3.trans (h2.trans h4)
  rep x := by
    beta_reduce
    split_ifs
    · exact down_rep F x
    · exact up_rep F x
  fix x hx := by
    beta_reduce
    have h1 : down F x = x := le_antisymm (down_le F x) (le_down hx le_rfl)
    have h2 : up F x = x := le_antisymm (up_le hx le_rfl) (le_up F x)
    rw [h1, h2]
    split_ifs <;> rfl

/-- A number that is nearer than any other one is the result. -/
theorem nearest_eq {even : ℝ → Prop} {x z : ℝ} (hz : F.Rep z) (h : ∀ y, F.Rep y → y ≠ z → |x - z| < |x - y|) : (nearest F even).rnd x = z := by
  classical
  change (if x - down F x < up F x - x ∨ (x - down F x = up F x - x ∧ even (down F x)) then down F x else up F x) = z
  have hd := down_le F x
  have hu := le_up F x
  rcases le_total z x with hzx | hzx
  · have e : down F x = z := by
      by_contra hc
      have h1 := h _ (down_rep F x) hc
      have h2 := le_down hz hzx
      rw [abs_of_nonneg (by linarith), abs_of_nonneg (by linarith)] at h1
      linarith
    by_cases hue : up F x = z
    · rw [e, hue]; split_ifs <;> rfl
    · have h1 := h _ (up_rep F x) hue
      rw [abs_of_nonneg (by linarith), abs_sub_comm, abs_of_nonneg (by linarith)] at h1
      rw [if_pos (Or.inl (by rw [e]; linarith)), e]
  · have e : up F x = z := by
      by_contra hc
      have h1 := h _ (up_rep F x) hc
      have h2 := up_le hz hzx
      rw [abs_sub_comm, abs_of_nonneg (by linarith), abs_sub_comm, abs_of_nonneg (by linarith)] at h1
      linarith
    by_cases hde : down F x = z
    · rw [e, hde]; split_ifs <;> rfl
    · have h1 := h _ (down_rep F x) hde
      rw [abs_sub_comm, abs_of_nonneg (by linarith), abs_of_nonneg (by linarith)] at h1
      rw [if_neg ?_, e]
      rintro (h2 | h2)
      · rw [e] at h2; linarith
      · have := h2.1; rw [e] at this; linarith

end Pydisort

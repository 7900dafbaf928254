import Verif.Spec.Linear
import Verif.FieldLemmas

/-! Helper lemmas: multiplying all sources by a positive number. -/

namespace Pydisort
open Finset

/-- Other rescaling factor and source polynomial. -/
def AsmIn.mod (I : AsmIn) (x : ℝ) (s' : Mat) : AsmIn :=
  { I with
    rescale := x
    s := s' }

section
variable {c : ℝ} {a : Args}

theorem A2.map_bin {f : ℝ → ℝ → ℝ} (hf : ∀ x y, f (c * x) y = c * f x y) (x y : A2 ℝ) :
    A2.bin f (x.map (c * ·)) y = (A2.bin f x y).map (A2.map (c * ·)) := by
  unfold A2.bin A2.map
  rcases bdim x.r y.r with e | r
  · rfl
  rcases bdim x.c y.c with e | k
  · rfl
  simp only [bind, Except.bind, pure, Except.pure, Except.map, hf]

theorem affine_times (p : A2 ℝ) (x y : A1 ℝ) :
    affineTransform (p.map (c * ·)) x y = (affineTransform p x y).map (A2.map (c * ·)) := by
  unfold affineTransform A2.map
  by_cases h : ¬ ∃ k < x.n, x.get k ≠ 0
  · rw [if_pos h, if_pos h]; rfl
  rw [if_neg h, if_neg h]
  rcases bdim x.n y.n with e | n
  · rfl
  simp only [bind, Except.bind, pure, Except.pure]
  rcases bdim n p.r with e | r
  · rfl
  simp only [Except.map, Except.ok.injEq, A2.mk.injEq, true_and]
  funext l i
  rw [mul_sum]
  exact sum_congr rfl fun j _ => by ring

theorem BCv.allZero_times (hc : c ≠ 0) (b : BCv) : (b.times c).AllZero ↔ b.AllZero := by
  cases b <;> simp [BCv.times, BCv.AllZero, A1.map, A2.map, hc]

theorem BCv.times_ite (hc : c ≠ 0) (b : BCv) [Decidable (b.times c).AllZero] [Decidable b.AllZero] :
    (if (b.times c).AllZero then BCv.scalar 0 else b.times c) = (if b.AllZero then BCv.scalar 0 else b).times c := by
  by_cases h : b.AllZero
  · rw [if_pos h, if_pos ((BCv.allZero_times hc b).2 h)]; simp [BCv.times]
  · rw [if_neg h, if_neg fun h' => h ((BCv.allZero_times hc b).1 h')]

theorem BCv.len_times (b : BCv) : (b.times c).len = b.len := by cases b <;> rfl
theorem BCv.hasShape_times (b : BCv) (r k : ℤ) : (b.times c).HasShape r k = b.HasShape r k := by cases b <;> rfl

theorem npMax_times (hc : 0 < c) (v : A1 ℝ) : npMax (v.map (c * ·)) = (npMax v).map (c * ·) := by
  unfold npMax
  by_cases h : (range v.n).Nonempty
  · rw [dif_pos h, dif_pos (show (range (v.map (c * ·)).n).Nonempty from h)]
    simp only [Except.map, Except.ok.injEq]
    refine le_antisymm (Finset.sup'_le _ _ fun k hk => ?_) ?_
    · exact mul_le_mul_of_nonneg_left (Finset.le_sup' v.get hk) hc.le
    · obtain ⟨k, hk, he⟩ := Finset.exists_mem_eq_sup' h v.get
      rw [he]
      exact Finset.le_sup' (v.map (c * ·)).get hk
  · rw [dif_neg h, dif_neg (show ¬ (range (v.map (c * ·)).n).Nonempty from h)]
    rfl

theorem BCv.max_times (hc : 0 < c) (b : BCv) : (b.times c).max = b.max.map (c * ·) := by
  cases b with
  | scalar x => rfl
  | vec v => exact npMax_times hc v
  | mat v => exact npMax_times hc ⟨v.r * v.c, fun k => v.get (k / v.c) (k % v.c)⟩

theorem BCv.div_times (hc : c ≠ 0) (b : BCv) (d : ℝ) : (b.times c).div (c * d) = b.div d := by
  cases b <;> simp [BCv.times, BCv.div, A1.map, A2.map, mul_div_mul_left _ _ hc]

theorem nsc_times (hc : c ≠ 0) : (Spec.brighter c a).nsc = a.nsc := by
  unfold Args.nsc
  have : (∀ i < (Spec.brighter c a).s.r, ∀ j < (Spec.brighter c a).s.c, (Spec.brighter c a).s.get i j = 0) ↔
      ∀ i < a.s.r, ∀ j < a.s.c, a.s.get i j = 0 := by
    simp [Spec.brighter, A2.map, hc]
  by_cases h : ∀ i < a.s.r, ∀ j < a.s.c, a.s.get i j = 0
  · rw [if_pos h, if_pos (this.2 h)]
  · rw [if_neg h, if_neg fun h' => h (this.1 h')]; rfl

theorem iso_times (hc : c ≠ 0) : (Spec.brighter c a).Iso = a.Iso := by
  unfold Args.Iso; rw [nsc_times hc]

theorem beam_times (hc : 0 < c) : (Spec.brighter c a).Beam = a.Beam := by
  unfold Args.Beam
  exact propext (mul_pos_iff_of_pos_left hc)

theorem bpos_times (hc : c ≠ 0) : (Spec.brighter c a).bpos' = a.bpos'.times c := by
  classical
  unfold Args.bpos'
  exact BCv.times_ite hc _
theorem bneg_times (hc : c ≠ 0) : (Spec.brighter c a).bneg' = a.bneg'.times c := by
  classical
  unfold Args.bneg'
  exact BCv.times_ite hc _

theorem validate_times (hc : 0 < c) : (Spec.brighter c a).validate = a.validate := by
  have h1 : (Spec.brighter c a).checks1 = a.checks1 := by
    unfold Args.checks1; rw [iso_times hc.ne']; rfl
  have h2 : (Spec.brighter c a).checks2 = a.checks2 := by
    have hI : (¬ (Spec.brighter c a).I0 < 0) = ¬ a.I0 < 0 := by
      change (¬ c * a.I0 < 0) = _
      exact propext (not_congr ⟨fun h' => by by_contra h2; exact absurd (mul_nonneg hc.le (not_lt.mp h2)) (not_le.mpr h'),
        fun h' => mul_neg_of_pos_of_neg hc h'⟩)
    unfold Args.checks2
    rw [hI, beam_times hc, bpos_times hc.ne', bneg_times hc.ne', BCv.len_times, BCv.len_times, BCv.hasShape_times,
      BCv.hasShape_times]
    rfl
  unfold Args.validate
  rw [h1, h2]
  rfl

/-- Multiply the source polynomial. -/
def Optics.times (c : ℝ) (O : Optics) : Optics := { O with s := O.s.map (c * ·) }

theorem optics_times : (Spec.brighter c a).optics = a.optics.map (Optics.times c) := by
  unfold Args.optics
  by_cases h : ∃ k < a.fArr.n, 0 < a.fArr.get k
  · rw [if_pos h, if_pos (show ∃ k < (Spec.brighter c a).fArr.n, 0 < (Spec.brighter c a).fArr.get k from h)]
    change (do
      let s1 ← affineTransform (a.s.map (c * ·)) ⟨a.NLayers, a.scale⟩ ⟨a.NLayers, a.translation⟩
      let s2 ← A2.bin (fun x y => x / y) s1 (A1.col ⟨a.NLayers, a.scale⟩)
      let s3 ← A2.bin (fun x y => x * y) s2 (A1.col ⟨a.NLayers, fun k => 1 - a.omega.get k⟩)
      return (⟨a.scale, a.tau0, fun k => a.scale k * a.thick k,
        fun k => (1 - a.fArr.get k) / a.scale k * a.omega.get k,
        fun l k => (a.legFix l k - a.fArr.get l) / (1 - a.fArr.get l) * (2 * (k : ℝ) + 1), s3⟩ : Optics) : Py Optics) = _
    rw [affine_times]
    rcases affineTransform a.s ⟨a.NLayers, a.scale⟩ ⟨a.NLayers, a.translation⟩ with e | s1
    · rfl
    simp only [Except.map, bind, Except.bind, pure, Except.pure]
    rw [A2.map_bin (fun x y => by ring)]
    rcases A2.bin (fun x y => x / y) s1 (A1.col ⟨a.NLayers, a.scale⟩) with e | s2
    · rfl
    simp only [Except.map]
    rw [A2.map_bin (fun x y => by ring)]
    rcases A2.bin (fun x y => x * y) s2 (A1.col ⟨a.NLayers, fun k => 1 - a.omega.get k⟩) with e | s3
    · rfl
    rfl
  · rw [if_neg h, if_neg (show ¬ ∃ k < (Spec.brighter c a).fArr.n, 0 < (Spec.brighter c a).fArr.get k from h)]
    change (do
      let s3 ← A2.bin (fun x y => x * y) (a.s.map (c * ·)) (A1.col ⟨a.NLayers, fun k => 1 - a.omega.get k⟩)
      return (⟨fun _ => 1, fun k => if k = 0 then 0 else a.tauArr.get (k - 1), a.thick, a.omega.get,
        fun l k => a.legFix l k * (2 * (k : ℝ) + 1), s3⟩ : Optics) : Py Optics) = _
    rw [A2.map_bin (fun x y => by ring)]
    rcases A2.bin (fun x y => x * y) a.s (A1.col ⟨a.NLayers, fun k => 1 - a.omega.get k⟩) with e | s3
    · rfl
    rfl

theorem isoMax_times (hc : 0 < c) (O : Optics) (p n : ℝ) :
    (Spec.brighter c a).isoMax (O.times c) (c * p) (c * n) = c * a.isoMax O p n := by
  unfold Args.isoMax
  rw [nsc_times hc.ne']
  change max (max (max (max (c * a.I0) (c * p)) (c * n)) (c * O.s.get 0 0))
    (∑ k ∈ range a.nsc, c * O.s.get (O.s.r - 1) k * O.tau0 a.NLayers ^ k) = _
  rw [mul_max_of_nonneg _ _ hc.le, mul_max_of_nonneg _ _ hc.le, mul_max_of_nonneg _ _ hc.le,
    mul_max_of_nonneg _ _ hc.le, mul_sum]
  simp only [mul_assoc]

theorem rescaleFactor_times (hc : 0 < c) (O : Optics) :
    (Spec.brighter c a).rescaleFactor (O.times c) = (a.rescaleFactor O).map (c * ·) := by
  unfold Args.rescaleFactor
  rw [bpos_times hc.ne', bneg_times hc.ne', BCv.max_times hc, BCv.max_times hc]
  rcases a.bpos'.max with e | p
  · rfl
  rcases a.bneg'.max with e | n
  · rfl
  simp only [Except.map, bind, Except.bind, pure, Except.pure, Except.ok.injEq]
  by_cases h : a.Iso
  · rw [if_pos h, if_pos (by rw [iso_times hc.ne']; exact h), isoMax_times hc]
  · rw [if_neg h, if_neg (by rw [iso_times hc.ne']; exact h)]
    change max (max (c * a.I0) _) _ = _
    rw [mul_max_of_nonneg _ _ hc.le, mul_max_of_nonneg _ _ hc.le]

/-- The arguments passed on differ only in the rescaling factor and, without an isotropic source, in the
(unused) source polynomial. -/
theorem asmIn_times (hc : 0 < c) {mu W : Vec} {O : Optics} {r : ℝ} (hr : r ≠ 0) :
    ∃ s', (a.Iso → s' = (a.asmIn mu W O r).s) ∧
      (Spec.brighter c a).asmIn mu W (O.times c) (c * r) = (a.asmIn mu W O r).mod (c * r) s' := by
  have hd : (Spec.brighter c a).rescaleDiv (c * r) = c * a.rescaleDiv r := by
    unfold Args.rescaleDiv
    rw [if_pos (Or.inr hr), if_pos (Or.inr (mul_ne_zero hc.ne' hr))]
  have hI : (Spec.brighter c a).I0 = c * a.I0 := rfl
  refine ⟨((Spec.brighter c a).asmIn mu W (O.times c) (c * r)).s, fun hi => ?_, ?_⟩
  · funext l k
    unfold Args.asmIn
    simp only
    change c * O.s.get l k / _ = _
    rw [if_pos hi, if_pos (by rw [iso_times hc.ne']; exact hi), mul_div_mul_left _ _ hc.ne']
  · have hi : ((Spec.brighter c a).asmIn mu W (O.times c) (c * r)).iso = (a.asmIn mu W O r).iso := by
      unfold Args.asmIn
      simp only [decide_eq_decide, iso_times hc.ne']
    have hb : ((Spec.brighter c a).asmIn mu W (O.times c) (c * r)).beam = (a.asmIn mu W O r).beam := by
      unfold Args.asmIn
      simp only [decide_eq_decide, beam_times hc]
    unfold Args.asmIn at hi hb ⊢
    simp only at hi hb
    simp only [hd, hI, mul_div_mul_left _ _ hc.ne', bpos_times hc.ne', bneg_times hc.ne', BCv.div_times hc.ne',
      BCv.len_times, nsc_times hc.ne', hi, hb]
    rfl

theorem ntIn_times (hc : 0 < c) {mu : Vec} {O : Optics} {r : ℝ} (hr : r ≠ 0) :
    (Spec.brighter c a).ntIn mu (O.times c) (c * r) = a.ntIn mu O r := by
  have hd : (Spec.brighter c a).rescaleDiv (c * r) = c * a.rescaleDiv r := by
    unfold Args.rescaleDiv
    rw [if_pos (Or.inr hr), if_pos (Or.inr (mul_ne_zero hc.ne' hr))]
  have hI : (Spec.brighter c a).I0 = c * a.I0 := rfl
  unfold Args.ntIn
  rw [hd, hI, mul_div_mul_left _ _ hc.ne']
  rfl

end

/-! ### The unused source polynomial -/

theorem solveCoeffs_s (I : CoefIn) (h : I.iso = false) (s' : Mat) (j : CoefState) (junk : ℕ → Vec) :
    solveCoeffs { I with s := s' } j junk = solveCoeffs I j junk := by
  have hb : ∀ m st, coefBody { I with s := s' } junk m st = coefBody I junk m st := by
    intro m st
    have hr : ∀ bn bp R X r, ({ I with s := s' } : CoefIn).rhs m bn bp R X r = I.rhs m bn bp R X r := by
      intro bn bp R X r
      unfold CoefIn.rhs
      simp only [h, Bool.false_eq_true, and_false, if_false]
      rfl
    unfold coefBody
    simp only [hr]
    rfl
  unfold solveCoeffs
  rw [show coefBody { I with s := s' } junk = coefBody I junk from by funext m st; exact hb m st]

theorem solveAll_s (E : Ext) (J : Junk) (I : AsmIn) (s' : Mat) (x : ℝ) (h : I.iso = true → s' = I.s) :
    solveAll E J (I.mod x s') = solveAll E J I := by
  rcases Bool.eq_false_or_eq_true I.iso with hi | hi
  · rw [h hi]; rfl
  · have hg : (I.mod x s').genIn = I.genIn := rfl
    have hc : ∀ out, (I.mod x s').coefIn out = { I.coefIn out with s := s' } := fun _ => rfl
    have hm : ∀ G, (I.mod x s').gim G = I.gim G := fun _ => rfl
    unfold solveAll
    simp only [hg, hc, hm]
    rcases genSol E J.gen I.genIn with e | out
    · simp only [bind, Except.bind]
    · have key := solveCoeffs_s (I.coefIn out) hi s' J.coef J.rhs
      simp only [bind, Except.bind]
      rw [key]

section
variable {I : AsmIn} {s' : Mat} {x : ℝ} (h : I.iso = true → s' = I.s)

theorem mod_facts (S : Sols) (tau : A1 ℝ) (anti : Bool) :
    (I.mod x s').checkTau tau = I.checkTau tau ∧ (I.mod x s').u0Raw S tau anti = I.u0Raw S tau anti ∧
    (I.mod x s').N = I.N ∧ (I.mod x s').umAnti S = I.umAnti S ∧ (I.mod x s').umPlain S = I.umPlain S ∧
    (I.mod x s').fluxQuad = I.fluxQuad ∧ (I.mod x s').fluxDownRaw S tau anti = I.fluxDownRaw S tau anti ∧
    (I.mod x s').beam = I.beam ∧ (I.mod x s').direct = I.direct ∧ (I.mod x s').directScaled = I.directScaled ∧
    (I.mod x s').NFourier = I.NFourier ∧ (I.mod x s').phi0 = I.phi0 ∧ (I.mod x s').layer = I.layer ∧
    (I.mod x s').rescale = x :=
  ⟨rfl, rfl, rfl, rfl, rfl, rfl, rfl, rfl, rfl, rfl, rfl, rfl, rfl, rfl⟩

include h

theorem addIso_s (S : Sols) (tau : A1 ℝ) (anti : Bool) (r0 r : ℕ) (m : A2 ℝ) :
    (I.mod x s').addIso S tau anti r0 r m = I.addIso S tau anti r0 r m := by
  rcases Bool.eq_false_or_eq_true I.iso with hi | hi
  · rw [h hi]; rfl
  · unfold AsmIn.addIso
    rw [if_neg (show ¬ (I.mod x s').iso = true by
      rw [show (I.mod x s').iso = I.iso from rfl, hi]; exact Bool.false_ne_true),
      if_neg (show ¬ I.iso = true by rw [hi]; exact Bool.false_ne_true)]

theorem um0_s (S : Sols) (tau : A1 ℝ) (anti : Bool) : (I.mod x s').um0 S tau anti = I.um0 S tau anti := by
  rcases Bool.eq_false_or_eq_true I.iso with hi | hi
  · rw [h hi]; rfl
  · unfold AsmIn.um0
    rw [if_neg (show ¬ (I.mod x s').iso = true by
      rw [show (I.mod x s').iso = I.iso from rfl, hi]; exact Bool.false_ne_true),
      if_neg (show ¬ I.iso = true by rw [hi]; exact Bool.false_ne_true)]
    rfl

end
end Pydisort

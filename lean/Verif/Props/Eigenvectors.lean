import Verif.EigSame
import Verif.GaussUnique
import Verif.Spec.Libraries
import Mathlib.Data.Fin.Tuple.Sort
import Verif.Witness

/-!
# C138: nothing depends on the libraries beyond their contracts

`np.linalg.eig` may order and scale the eigenvectors in any way, and choose any basis for a repeated eigenvalue. There is only one Gauss-Legendre rule.
-/

namespace Pydisort
open Finset Spec

variable {E E' : Ext} {a : Args}

theorem WellPosed.ext (hw : WellPosed E a) (he : EigContract E') (hg : E'.leggauss (nHalf a) = E.leggauss (nHalf a)) : WellPosed E' a := by
  have hn : node E' a = node E a := by unfold node; rw [hg]
  have hwt : weight E' a = weight E a := by unfold weight; rw [hg]
  refine ⟨hw.accepted, ?_, he, hw.peak, by rw [hn, hwt]; exact hw.dissipates, by rw [hn, hwt]; exact hw.beam, by rw [hn, hwt]; exact hw.surface, hw.bottomBC,
    hw.topBC, hw.sourceShape, hw.degree, by rw [hn]; exact hw.angles⟩
  obtain ⟨g1, g2, g3⟩ := hw.gauss
  exact ⟨by rw [hg]; exact g1, by rw [hg]; exact g2, by rw [hg]; exact g3⟩

/-- **C138.** Let two routines for eigenvalues and eigenvectors both return, for every diagonalisable matrix, some basis of eigenvectors in some order. Then a
well-posed call with either returns, and all functions returned, the antiderivatives, the corrected intensities and the estimate of the Fourier error included,
give the same for all arguments. -/
theorem C138_any_eigenvectors (hw : WellPosed E a) (he : EigContract E') (hg : E'.leggauss (nHalf a) = E.leggauss (nHalf a)) (hr : Rescalable a) (J J' : Junk) :
    ∃ R R', pydisort E J a = .ok R ∧ pydisort E' J' a = .ok R' ∧ SameResults R R' ∧
      ∀ tau phi anti, SameOutcome Eq (R.fourierError tau phi anti) (R'.fourierError tau phi anti) := by
  have hw' := WellPosed.ext hw he hg
  obtain ⟨R, h⟩ := pydisort_isOk hw J
  obtain ⟨R', h'⟩ := pydisort_isOk hw' J'
  obtain ⟨hI, hnt, ho, hS⟩ := evalAgree_ext hw hw' hg hr h h'
  obtain ⟨hN, hL, hF, hd, _⟩ := solved_facts h hw.sound.toNumerics
  have hN0 : 0 < R.I.N := by
    have := hw.accepted.streams.1
    rw [hN]; unfold nHalf; omega
  have hF0 : 0 < R.I.NFourier := by
    rw [hF]
    unfold nFourier
    split_ifs with hf
    · exact Nat.one_pos
    · have := (hw.accepted.modes (by simpa using hf)).1
      omega
  have hs : SameResults R R' := sameResults_of_eval (D := R.I.bcData) hN0 hd.L hF0 hI hS ho hnt
  refine ⟨R, R', h, h', hs, fun tau phi anti => ?_⟩
  unfold Solved.fourierError
  refine SameOutcome.bind (hs.u tau phi anti) fun _ _ _ => ?_
  rw [hI]
  exact AsmIn.fourierError_same hS hN0 hd.L hF0 tau phi anti

/-- There is only one Gauss-Legendre rule with increasing nodes. -/
theorem C138_gauss_rule_unique {n : ℕ} (h : GaussContract E n) (h' : GaussContract E' n) (ht : Tidy E n) (ht' : Tidy E' n) : E'.leggauss n = E.leggauss n := by
  have key := gauss_unique h h' ht.increasing ht'.increasing
  refine Prod.ext (funext fun i => ?_) (funext fun i => ?_) <;> rcases lt_or_ge i n with hi | hi
  · exact (key i hi).1
  · rw [(ht.beyond i hi).1, (ht'.beyond i hi).1]
  · exact (key i hi).2
  · rw [(ht.beyond i hi).2, (ht'.beyond i hi).2]

/-- **C138.** No result depends on the external routines beyond their contracts: `eig` returns some eigenvector basis, `leggauss` returns, with increasing nodes, a
rule that is exact up to degree `2 N - 1`. -/
theorem C138_any_libraries (hw : WellPosed E a) (he : EigContract E') (hg : GaussContract E' (nHalf a)) (ht : Tidy E (nHalf a)) (ht' : Tidy E' (nHalf a)) (hr : Rescalable a)
    (J J' : Junk) : ∃ R R', pydisort E J a = .ok R ∧ pydisort E' J' a = .ok R' ∧ SameResults R R' ∧
      ∀ tau phi anti, SameOutcome Eq (R.fourierError tau phi anti) (R'.fourierError tau phi anti) :=
  C138_any_eigenvectors hw he (C138_gauss_rule_unique hw.gauss hg ht ht') hr J J'

open Classical in
/-- The nodes put in increasing order. -/
noncomputable def tidied (E : Ext) : Ext where
  eig := E.eig
  leggauss n := (fun i => if h : i < n then (E.leggauss n).1 (Tuple.sort (fun k : Fin n => (E.leggauss n).1 k) ⟨i, h⟩) else 0,
    fun i => if h : i < n then (E.leggauss n).2 (Tuple.sort (fun k : Fin n => (E.leggauss n).1 k) ⟨i, h⟩) else 0)

theorem tidied_gauss {n : ℕ} (h : GaussContract E n) : GaussContract (tidied E) n := by
  set s := Tuple.sort (fun k : Fin n => (E.leggauss n).1 k) with hs
  have e1 : ∀ i (hi : i < n), ((tidied E).leggauss n).1 i = (E.leggauss n).1 (s ⟨i, hi⟩) := fun i hi => by simp [tidied, hi, hs]
  have e2 : ∀ i (hi : i < n), ((tidied E).leggauss n).2 i = (E.leggauss n).2 (s ⟨i, hi⟩) := fun i hi => by simp [tidied, hi, hs]
  refine ⟨fun i hi => by rw [e1 i hi]; exact h.node _ (s ⟨i, hi⟩).2, fun i hi => by rw [e2 i hi]; exact h.weight _ (s ⟨i, hi⟩).2, fun p hp => ?_⟩
  rw [← h.exact p hp, ← Fin.sum_univ_eq_sum_range (fun i => (E.leggauss n).2 i * p.eval ((E.leggauss n).1 i)) n,
    ← Fin.sum_univ_eq_sum_range (fun i => ((tidied E).leggauss n).2 i * p.eval (((tidied E).leggauss n).1 i)) n,
    ← Equiv.sum_comp s (fun i : Fin n => (E.leggauss n).2 i * p.eval ((E.leggauss n).1 i))]
  exact sum_congr rfl fun i _ => by rw [e1 i i.2, e2 i i.2]

theorem tidied_tidy {n : ℕ} (h : GaussContract E n) : Tidy (tidied E) n := by
  refine ⟨fun i j hij hj => ?_, fun i hi => by simp [tidied, not_lt.2 hi]⟩
  have hi : i < n := hij.trans hj
  set f : Fin n → ℝ := fun k => (E.leggauss n).1 k with hf
  have hinj : Function.Injective f := fun x y hxy => Fin.ext (gauss_injOn h (by simp) (by simp) hxy)
  have hm : StrictMono (f ∘ Tuple.sort f) := (Tuple.monotone_sort f).strictMono_of_injective (hinj.comp (Tuple.sort f).injective)
  have := hm (show (⟨i, hi⟩ : Fin n) < ⟨j, hj⟩ from hij)
  simpa [tidied, hi, hj, hf] using this

/-- Another routine: eigenvectors twice as long and with the opposite sign. -/
noncomputable def stretched : Ext where
  eig n A := ((refExt.eig n A).1, fun i j => -2 * (refExt.eig n A).2 i j)
  leggauss := refExt.leggauss

theorem stretched_eig : EigContract stretched := by
  intro n A hA
  obtain ⟨h1, h2⟩ := refExt_eig n A hA
  refine ⟨?_, fun i hi j hj => ?_⟩
  · have : toM n (stretched.eig n (toM n A)).2 = (-2 : ℝ) • toM n (refExt.eig n (toM n A)).2 := rfl
    rw [this, Matrix.det_smul]
    exact mul_ne_zero (pow_ne_zero _ (by norm_num)) h1
  · show ∑ k ∈ range n, A i k * (-2 * (refExt.eig n (toM n A)).2 k j) = (refExt.eig n (toM n A)).1 j * (-2 * (refExt.eig n (toM n A)).2 i j)
    rw [show (refExt.eig n (toM n A)).1 j * (-2 * (refExt.eig n (toM n A)).2 i j) = -2 * ((refExt.eig n (toM n A)).1 j * (refExt.eig n (toM n A)).2 i j) by ring,
      ← h2 i hi j hj, mul_sum]
    exact sum_congr rfl fun k _ => by ring

/-- The hypotheses are met for every number of streams. -/
example {n : ℕ} (hn : 0 < n) : ∃ x, WellPosed refExt (demo n x) ∧ EigContract stretched ∧ stretched.leggauss (nHalf (demo n x)) = refExt.leggauss (nHalf (demo n x)) ∧ Rescalable (demo n x) := by
  obtain ⟨x, hx⟩ := demo_wellPosed hn
  exact ⟨x, hx, stretched_eig, rfl, demo_rescalable x⟩

theorem demo_wellPosed_of {n : ℕ} (hn : 0 < n) (he : EigContract E) (hE : GaussContract E n) : ∃ x, WellPosed E (demo n x) := by
  obtain ⟨x, h0, h1, hb⟩ := exists_beamRegular (demo n 1) (node E (demo n 1)) (weight E (demo n 1))
  have hg : GaussContract E (nHalf (demo n x)) := by rw [demo_nHalf]; exact hE
  refine ⟨x, demo_accepted hn h0 h1, hg, he, ?_, ?_, hb, ?_, trivial, trivial, Or.inr rfl, Or.inr (by simp [demo]),
    by simp [demo]⟩
  · intro l hl; rw [demo_peak hl]; norm_num
  · refine dissipates_of_nLeg_le hg ?_ (demo_accepted hn h0 h1).omega ?_ ?_
    · rw [demo_nHalf]
      simp [nLeg, demo]
    · intro l hl; rw [demo_peak hl]; norm_num
    · intro l _ k _
      unfold leg
      split_ifs with h
      · exact le_rfl
      · exact pow_le_one₀ (by norm_num) (by norm_num)
  · exact passive_lambertian hg (by rw [demo_nHalf]; exact hn) (by norm_num) rfl

/-- The hypotheses of `C138_any_libraries` are met for every number of streams. -/
example {n : ℕ} (hn : 0 < n) : ∃ x, WellPosed (tidied refExt) (demo n x) ∧ EigContract (tidied stretched) ∧ GaussContract (tidied stretched) (nHalf (demo n x))
    ∧ Tidy (tidied refExt) (nHalf (demo n x)) ∧ Tidy (tidied stretched) (nHalf (demo n x)) ∧ Rescalable (demo n x) := by
  have hr := refExt_gauss hn
  have hs : GaussContract stretched n := ⟨hr.node, hr.weight, hr.exact⟩
  obtain ⟨x, hx⟩ := demo_wellPosed_of (E := tidied refExt) hn refExt_eig (tidied_gauss hr)
  refine ⟨x, hx, stretched_eig, ?_, ?_, ?_, demo_rescalable x⟩ <;> rw [demo_nHalf]
  · exact tidied_gauss hs
  · exact tidied_tidy hr
  · exact tidied_tidy hs

end Pydisort

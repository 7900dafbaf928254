import Verif.Props.Eigenvectors
import Verif.Props.Transfer
import Verif.Props.Validation

/-!
# C140: the streams are symmetric about 60 degrees
-/

namespace Pydisort
open Finset Spec

variable {E : Ext} {J : Junk} {a : Args} {R : Solved}

/-- The rule reflected at the origin. -/
def mirroredRule (E : Ext) : Ext where
  eig := E.eig
  leggauss n := (fun i => -(E.leggauss n).1 (n - 1 - i), fun i => (E.leggauss n).2 (n - 1 - i))

theorem mirroredRule_gauss {n : ℕ} (h : GaussContract E n) : GaussContract (mirroredRule E) n := by
  refine ⟨fun i hi => ?_, fun i hi => h.weight _ (by omega), fun p hp => ?_⟩
  · have := h.node (n - 1 - i) (by omega)
    simp only [mirroredRule]
    constructor <;> linarith
  · have e := h.exact (p.comp (-Polynomial.X)) (by
      refine Polynomial.natDegree_comp_le.trans ?_
      rw [Polynomial.natDegree_neg, Polynomial.natDegree_X, mul_one]
      exact hp)
    simp only [Polynomial.eval_comp, Polynomial.eval_neg, Polynomial.eval_X] at e
    rw [intervalIntegral.integral_comp_neg (fun x => p.eval x), neg_neg] at e
    rw [← e, ← sum_range_reflect]
    refine sum_congr rfl fun i hi => ?_
    have hi := mem_range.1 hi
    simp only [mirroredRule]
    rw [show n - 1 - (n - 1 - i) = i by omega]

theorem leggauss_mirror {n : ℕ} (h : GaussContract E n) (ht : Tidy E n) {i : ℕ} (hi : i < n) :
    (E.leggauss n).1 (n - 1 - i) = -(E.leggauss n).1 i ∧ (E.leggauss n).2 (n - 1 - i) = (E.leggauss n).2 i := by
  have := gauss_unique h (mirroredRule_gauss h) ht.increasing (fun i j hij hj => by
    have := ht.increasing (n - 1 - j) (n - 1 - i) (by omega) (by omega)
    simp only [mirroredRule]
    linarith) i hi
  simp only [mirroredRule] at this
  exact ⟨by linarith [this.1], this.2⟩

/-- **C140.** `Gauss_Legendre_quad` returns a rule that is symmetric about the middle of the interval. -/
theorem C140_rule_symmetric {n : ℕ} (hn : 0 < n) (h : GaussContract E n) (ht : Tidy E n) (c d : ℝ) :
    ∃ x w, gaussLegendreQuad E n c d = .ok (x, w) ∧ x.n = n ∧ w.n = n ∧
      ∀ i < n, x.get (n - 1 - i) - (c + d) / 2 = (c + d) / 2 - x.get i ∧ w.get (n - 1 - i) = w.get i := by
  unfold gaussLegendreQuad
  rw [if_neg hn.ne']
  refine ⟨_, _, rfl, rfl, rfl, fun i hi => ?_⟩
  obtain ⟨e1, e2⟩ := leggauss_mirror h ht hi
  simp only [transformInterval, transformWeights, A1.map, e1, e2, and_true]
  ring

/-- **C140.** So the directions pydisort returns: for every upward stream with cosine `μ` there are those with cosines `1 - μ` and `-μ`. -/
theorem C140_streams_symmetric (h : pydisort E J a = .ok R) (hg : GaussContract E (nHalf a)) (ht : Tidy E (nHalf a)) :
    R.muArr.n = 2 * nHalf a ∧ ∀ i < nHalf a, R.muArr.get (nHalf a - 1 - i) = 1 - R.muArr.get i ∧ R.muArr.get (nHalf a + i) = -R.muArr.get i := by
  obtain ⟨h1, h2⟩ := mu_arr_returned h
  refine ⟨h1, fun i hi => ?_⟩
  rw [h2 _ (by omega), h2 _ (by omega), h2 _ (by omega)]
  unfold stream
  rw [if_pos (by omega), if_pos hi, if_neg (by omega), show nHalf a + i - nHalf a = i by omega]
  unfold node
  rw [(leggauss_mirror hg ht hi).1]
  exact ⟨by ring, rfl⟩

/-- **C140.** One of the streams is at exactly 60 degrees if and only if their number in a hemisphere is odd. -/
theorem C140_middle_stream (hg : GaussContract E (nHalf a)) : (∃ i < nHalf a, node E a i = 1 / 2) ↔ Odd (nHalf a) := by
  refine ⟨fun ⟨i, hi, e⟩ => ?_, fun ho => ?_⟩
  · obtain ⟨k, hk, e'⟩ := gauss_node_mem (tidied_gauss hg) hg hi
    have e0 : ((tidied E).leggauss (nHalf a)).1 k = 0 := by
      rw [← e']
      unfold node at e
      linarith
    have e1 := (leggauss_mirror (tidied_gauss hg) (tidied_tidy hg) hk).1
    rw [e0, neg_zero, ← e0] at e1
    have := gauss_injOn (tidied_gauss hg) (by simp; omega) (by simpa using hk) e1
    exact ⟨k, by omega⟩
  obtain ⟨m, hm⟩ := ho
  have e := (leggauss_mirror (tidied_gauss hg) (tidied_tidy hg) (i := m) (by omega)).1
  rw [show nHalf a - 1 - m = m by omega] at e
  obtain ⟨k, hk, e'⟩ := gauss_node_mem hg (tidied_gauss hg) (i := m) (by omega)
  refine ⟨k, hk, ?_⟩
  unfold node
  rw [← e']
  linarith

/-- **C140.** Hence a beam at 60 degrees cannot be combined with the intensity corrections if `NQuad / 2` is odd: the call is refused, whatever the atmosphere and even if there is no beam. -/
theorem C140_sixty_degrees_refused (hacc : Accepted a) (hg : GaussContract E (nHalf a)) (ho : Odd (nHalf a)) (hnt : a.NTcor = true) (hmu : a.mu0 = 1 / 2) :
    pydisort E J a = .error (.valueError "Some quadrature angles come too close to `mu0`. Perturb `NQuad` or `mu0` to rectify this error.") := by
  obtain ⟨i, hi, e⟩ := (C140_middle_stream hg).2 ho
  have hq : a.quad E = .error (.valueError "Some quadrature angles come too close to `mu0`. Perturb `NQuad` or `mu0` to rectify this error.") := by
    unfold Args.quad gaussLegendreQuad
    rw [if_neg (show ¬ a.N = 0 by change ¬ nHalf a = 0; omega)]
    simp only [bind, Except.bind]
    rw [if_pos]
    refine ⟨hnt, i, hi, ?_⟩
    have : (transformInterval ⟨a.N, (E.leggauss a.N).1⟩ 0 1 (-1) 1).get i = 1 / 2 := by
      rw [← e]
      unfold node
      simp only [transformInterval, A1.map]
      change ((E.leggauss (nHalf a)).1 i - -1) * (1 - 0) / (1 - -1) + 0 = _
      ring
    rw [this, hmu]
    norm_num
  unfold pydisort prepare
  rw [Args.validate_iff.2 hacc]
  simp only [bind, Except.bind]
  rw [hq]

/-- Every odd number of streams occurs: with corrections the call is refused for a beam at 60 degrees, although all documented requirements are met. -/
example {n : ℕ} (ho : Odd n) (J : Junk) : Accepted { demo n (1 / 2) with NTcor := true } ∧
    ∃ msg, pydisort refExt J { demo n (1 / 2) with NTcor := true } = .error (.valueError msg) := by
  have hn := ho.pos
  have hN : nHalf { demo n (1 / 2) with NTcor := true } = n := by simp [nHalf, demo]
  have hacc : Accepted { demo n (1 / 2) with NTcor := true } := { demo_accepted hn (by norm_num) (by norm_num : (1 / 2 : ℝ) ≤ 1) with }
  exact ⟨hacc, _, C140_sixty_degrees_refused hacc (by rw [hN]; exact refExt_gauss hn) (by rw [hN]; exact ho) rfl rfl⟩

/-- The other hypotheses are met with every number of streams. -/
example {n : ℕ} (hn : 0 < n) (J : Junk) : ∃ x R, pydisort (tidied refExt) J (demo n x) = .ok R ∧ GaussContract (tidied refExt) n ∧ Tidy (tidied refExt) n := by
  obtain ⟨x, hx⟩ := demo_wellPosed_of (E := tidied refExt) hn refExt_eig (tidied_gauss (refExt_gauss hn))
  obtain ⟨R, h⟩ := pydisort_isOk hx J
  exact ⟨x, R, h, tidied_gauss (refExt_gauss hn), tidied_tidy (refExt_gauss hn)⟩

end Pydisort

import Verif.Subroutines.Actinic
import Verif.Props.Estimate

/-!
# C39: diffuse actinic fluxes

The downward claim is false: the part of the scattered beam that delta-M scaling left in the beam is added in the code's internal
units (line 367 of `_assemble_intensity_and_fluxes.py` uses the divided `I0` and no `rescale_factor`), whereas `u0` itself is
in the caller's units.
-/

namespace Pydisort
open Finset Spec

noncomputable section

variable {E : Ext} {J : Junk} {a : Args} {R : Solved}

/-- Solid-angle integral over one hemisphere, `2π Σ_i w_i v_i`. -/
def Spec.hemiActinic (a : Args) (w : Vec) (v : ℕ → ℝ) : ℝ := 2 * Real.pi * ∑ i ∈ range (nHalf a), w i * v i

theorem nHalf_pos (h : Accepted a) : 0 < nHalf a := by
  have := h.streams; unfold nHalf; omega

theorem actWeights_ok (h : pydisort E J a = .ok R) : actWeights E R.u0 = .ok ⟨nHalf a, weight E a⟩ := by
  obtain ⟨hacc, O, r, hO, hr, hI, _⟩ := pydisort_ok h
  have hN : R.I.N = nHalf a := by rw [hI]; rfl
  obtain ⟨A, h1, h2, _⟩ := R.I.u0_plain R.S (tau := ⟨1, fun _ => 0⟩)
    (checkTau_of_inRange h fun _ _ => ⟨le_rfl, (bottom_pos hacc).le⟩)
  unfold actWeights Solved.u0
  rw [h1]
  simp only [bind, Except.bind]
  rw [h2, hN, show 2 * nHalf a / 2 = nHalf a by omega]
  unfold gaussLegendreQuad
  rw [if_neg (nHalf_pos hacc).ne']
  simp only [pure, Except.pure]
  congr 1
  unfold weight
  simp [transformWeights, A1.map]
  norm_num

/-- **C39, upward.** The upward actinic flux is the quadrature of `u0` over the upward hemisphere. -/
theorem C39_actinic_up (h : pydisort E J a = .ok R) {tau : A1 ℝ} (ht : InRange a tau) :
    ∃ A, R.u0 tau false = .ok A ∧
      Returns1 (fluxActUp E R.u0 tau false) tau.n (fun t => hemiActinic a (weight E a) (fun i => A.get i t)) := by
  obtain ⟨hacc, O, r, hO, hr, hI, _⟩ := pydisort_ok h
  have hN : R.I.N = nHalf a := by rw [hI]; rfl
  obtain ⟨A, h1, h2, h3, _⟩ := R.I.u0_plain R.S (checkTau_of_inRange h ht)
  refine ⟨A, h1, ?_⟩
  unfold fluxActUp
  rw [actWeights_ok h]
  simp only [bind, Except.bind]
  rw [show R.u0 tau false = .ok A from h1]
  simp only [hemiSum]
  rw [if_pos (by rw [h2, hN]; omega)]
  refine ⟨_, rfl, h3, fun t _ => ?_⟩
  simp only [hemiActinic, Nat.zero_add]
  rw [mul_sum]
  exact sum_congr rfl fun i _ => by ring

/-- What the downward function returns: the reclassified part is divided by the rescale factor (`mu0 = 0`, possible without a
beam, is excluded because of the division). -/
theorem C39_actinic_down_returned (h : pydisort E J a = .ok R) (hS : Sound E a) (hl : Lit a) (_hmu : a.mu0 ≠ 0) {tau : A1 ℝ}
    (ht : InRange a tau) (lay : ℕ → ℕ) (hlay : ∀ t < tau.n, lay t < a.tauArr.n ∧ InLayer a (lay t) (tau.get t)) :
    ∃ A, R.u0 tau false = .ok A ∧
      Returns1 (fluxActDown E R.u0 R.u0Reclass tau false) tau.n (fun t => hemiActinic a (weight E a) (fun i => A.get (nHalf a + i) t)
        + a.I0 / R.I.rescale * (Real.exp (-tauStar a (lay t) (tau.get t) / a.mu0) - Real.exp (-tau.get t / a.mu0))) := by
  obtain ⟨hacc, O, r, hO, hr, hI, _⟩ := pydisort_ok h
  have hs := Args.optics_spec hacc hO
  have hN : R.I.N = nHalf a := by rw [hI]; rfl
  have hr0 := rescale_pos_of_lit h hl
  have hI0 : R.I.I0 = a.I0 / R.I.rescale := by
    rw [hI] at hr0 ⊢
    change a.I0 / a.rescaleDiv r = a.I0 / r
    unfold Args.rescaleDiv
    rw [if_pos (Or.inr (show r ≠ 0 from hr0.ne'))]
  have hmu0 : R.I.mu0 = a.mu0 := by rw [hI]; rfl
  obtain ⟨A, h1, h2, h3, _⟩ := R.I.u0_plain R.S (checkTau_of_inRange h ht)
  refine ⟨A, h1, ?_⟩
  unfold fluxActDown
  rw [actWeights_ok h]
  simp only [bind, Except.bind, Solved.u0Reclass]
  rw [show R.u0 tau false = .ok A from h1]
  simp only [hemiSum, pure, Except.pure]
  rw [if_pos (by rw [h2, hN]; omega)]
  simp only
  have hsum : ∀ t, ∑ i ∈ range (nHalf a), 2 * Real.pi * weight E a i * A.get (nHalf a + i) t
      = hemiActinic a (weight E a) (fun i => A.get (nHalf a + i) t) := fun t => by
    unfold hemiActinic
    rw [mul_sum]
    exact sum_congr rfl fun i _ => by ring
  unfold AsmIn.actReclass
  by_cases hc : ∃ k < R.I.NLayers, R.I.scale k ≠ 1
  · rw [if_pos hc, if_neg (by simp)]
    obtain ⟨z, z1, z2, z3⟩ := A1.bin_same (fun x y : ℝ => x + y)
      (x := ⟨A.c, fun t => ∑ i ∈ range (nHalf a), 2 * Real.pi * weight E a i * A.get (nHalf a + i) t⟩)
      (y := tau.map fun t => R.I.I0 * Real.exp (-R.I.scaledTau t / R.I.mu0) - R.I.I0 * Real.exp (-t / R.I.mu0)) h3
    refine ⟨z, z1, by rw [z2]; exact h3, fun t htt => ?_⟩
    rw [z3 t (by rw [← h3] at htt; exact htt)]
    simp only [A1.map]
    rw [hsum, hI0, hmu0, scaledTau_of h (hlay t htt).1 (hlay t htt).2]
    ring
  · rw [if_neg hc]
    push Not at hc
    unfold A1.bin
    rw [bdim_one_right]
    refine ⟨_, rfl, h3, fun t htt => ?_⟩
    simp only [bind, Except.bind]
    rw [bix_of_lt (by rw [← h3] at htt; exact htt), hsum]
    have hsc : ∀ k < a.tauArr.n, scale a k = 1 := fun k hk => by
      rw [← hs.scale k hk]
      have := hc k (by rw [hI]; exact hk)
      rw [hI] at this; exact this
    have : tauStar a (lay t) (tau.get t) = tau.get t := by
      obtain ⟨hd, e1, e2⟩ := depthOK_of h
      rw [← scaledTau_of h (hlay t htt).1 (hlay t htt).2]
      unfold AsmIn.scaledTau
      rw [if_neg (by push Not; exact hc)]
    rw [this, sub_self, mul_zero]

/-- **C39, the part that is true downward.** If the rescale factor is one, or there is no beam, or no layer is delta-M scaled, the
downward actinic flux is the quadrature of `u0` plus the reclassified part of the beam in the caller's units. Missing: the general
case, see `C39_false`; what is returned then is in `C39_actinic_down_returned`. -/
theorem C39_actinic_down_partial (h : pydisort E J a = .ok R) (hS : Sound E a) (hl : Lit a) (hmu : a.mu0 ≠ 0)
    (hc : R.I.rescale = 1 ∨ a.I0 = 0 ∨ ∀ l < a.tauArr.n, ∀ t, tauStar a l t = t) {tau : A1 ℝ}
    (ht : InRange a tau) (lay : ℕ → ℕ) (hlay : ∀ t < tau.n, lay t < a.tauArr.n ∧ InLayer a (lay t) (tau.get t)) :
    ∃ A, R.u0 tau false = .ok A ∧
      Returns1 (fluxActDown E R.u0 R.u0Reclass tau false) tau.n (fun t => hemiActinic a (weight E a) (fun i => A.get (nHalf a + i) t)
        + a.I0 * (Real.exp (-tauStar a (lay t) (tau.get t) / a.mu0) - Real.exp (-tau.get t / a.mu0))) := by
  obtain ⟨A, hA, F, h1, h2, h3⟩ := C39_actinic_down_returned h hS hl hmu ht lay hlay
  refine ⟨A, hA, F, h1, h2, fun t htt => ?_⟩
  rw [h3 t htt]
  beta_reduce
  rcases hc with hc | hc | hc
  · rw [hc, div_one]
  · rw [hc, zero_div]
  · rw [hc _ (hlay t htt).1, sub_self, mul_zero, mul_zero]

theorem rescale_ge_I0 (h : pydisort E J a = .ok R) : a.I0 ≤ R.I.rescale := by
  obtain ⟨hacc, O, r, hO, hr, hI, _⟩ := pydisort_ok h
  rw [hI]
  change a.I0 ≤ r
  unfold Args.rescaleFactor at hr
  rcases h1 : a.bpos'.max with e | mp
  · rw [h1] at hr; cases hr
  rcases h2 : a.bneg'.max with e | mn
  · rw [h1] at hr; simp only [bind, Except.bind] at hr; rw [h2] at hr; cases hr
  rw [h1] at hr; simp only [bind, Except.bind] at hr; rw [h2] at hr; simp only [pure, Except.pure] at hr
  injection hr with hr
  rw [← hr]
  split_ifs
  · exact le_max_of_le_left (le_max_of_le_left (le_max_of_le_left (le_max_of_le_left le_rfl)))
  · exact le_max_of_le_left (le_max_of_le_left le_rfl)

/-- **C39 is false**: for every number of streams there is a well-posed problem in which the downward actinic flux at a depth is
not the quadrature plus the reclassified beam (the witness has a beam of intensity 2). -/
theorem C39_false {n : ℕ} (hn : 0 < n) (J : Junk) : ∃ a R A F, pydisort refExt J a = .ok R ∧ WellPosed refExt a ∧ Lit a ∧
    InLayer a 0 1 ∧ R.u0 ⟨1, fun _ => 1⟩ false = .ok A ∧ fluxActDown refExt R.u0 R.u0Reclass ⟨1, fun _ => 1⟩ false = .ok F ∧
    F.get 0 ≠ hemiActinic a (weight refExt a) (fun i => A.get (nHalf a + i) 0)
      + a.I0 * (Real.exp (-tauStar a 0 1 / a.mu0) - Real.exp (-1 / a.mu0)) := by
  obtain ⟨x, hx⟩ := demo_wellPosed hn
  have hh : nHalf (demo n x) = n := demo_nHalf x
  have hw : WellPosed refExt (under (demo n x) ⟨2, .scalar 1, .vec ⟨n, fun _ => 1⟩, ⟨2, 2, fun _ _ => 0⟩⟩) :=
    wellPosed_under hx zero_le_two (fun _ => one_pos) trivial (Or.inr (Or.inr hh.symm)) trivial trivial rfl
  set a := under (demo n x) ⟨2, .scalar 1, .vec ⟨n, fun _ => 1⟩, ⟨2, 2, fun _ _ => 0⟩⟩ with ha
  have hI0 : a.I0 = 2 := rfl
  have hl : Lit a := Or.inl (by rw [hI0]; exact two_pos)
  obtain ⟨R, h⟩ := pydisort_isOk hw J
  have hmu : 0 < a.mu0 := (hw.accepted.beamDir (by rw [hI0]; exact two_pos)).1.1
  have hin : InLayer a 0 1 := by constructor <;> simp [bdry, ha, under, demo]
  have hL : 0 < a.tauArr.n := hw.accepted.layers
  have ht : InRange a ⟨1, fun _ => 1⟩ := fun _ _ => ⟨zero_le_one, by norm_num [ha, under, demo]⟩
  obtain ⟨A, hA, F, h1, h2, h3⟩ := C39_actinic_down_returned h hw.sound hl hmu.ne' ht (fun _ => 0) (fun _ _ => ⟨hL, hin⟩)
  refine ⟨a, R, A, F, h, hw, hl, hin, hA, h1, ?_⟩
  rw [h3 0 one_pos]
  beta_reduce
  intro hc
  have hr := rescale_ge_I0 h
  rw [hI0] at hr hc
  have hst : tauStar a 0 1 = 15 / 16 := by
    have h8 : peak a 0 = 1 / 8 := demo_peak (n := n) (x := x) (l := 0) (by simp [demo])
    have : a.omega.get 0 = 1 / 2 := by simp [ha, under, demo]
    simp [tauStar, bdryStar, bdry, scale, h8, this]
    norm_num
  have hlt : Real.exp (-1 / a.mu0) < Real.exp (-tauStar a 0 1 / a.mu0) := by
    rw [hst]
    apply Real.exp_lt_exp.2
    rw [div_lt_div_iff_of_pos_right hmu]
    norm_num
  have hd : 0 < Real.exp (-tauStar a 0 1 / a.mu0) - Real.exp (-1 / a.mu0) := sub_pos.2 hlt
  have := add_left_cancel hc
  have h4 := mul_right_cancel₀ hd.ne' this
  rw [div_eq_iff (by linarith)] at h4
  linarith

/-- The hypotheses of the partial theorem are met: in `demo` without internal source all sources are at most one. -/
example {n : ℕ} (hn : 0 < n) (J : Junk) : ∃ a R, pydisort refExt J a = .ok R ∧ Sound refExt a ∧ Lit a ∧ a.mu0 ≠ 0 ∧ 0 < a.I0
    ∧ R.I.rescale = 1 := by
  obtain ⟨x, hx⟩ := demo_wellPosed hn
  have hw : WellPosed refExt (under (demo n x) ⟨1, .scalar 1, .scalar 1, ⟨2, 2, fun _ _ => 0⟩⟩) :=
    wellPosed_under hx zero_le_one (fun _ => one_pos) trivial trivial trivial trivial rfl
  obtain ⟨R, h⟩ := pydisort_isOk hw J
  refine ⟨_, R, h, hw.sound, Or.inl one_pos, (hw.accepted.beamDir one_pos).1.1.ne', one_pos, ?_⟩
  obtain ⟨hacc, O, r, hO, hr, hI, _⟩ := pydisort_ok h
  rw [hI]
  change r = 1
  unfold Args.rescaleFactor at hr
  have hni : ¬ (under (demo n x) ⟨1, .scalar 1, .scalar 1, ⟨2, 2, fun _ _ => 0⟩⟩).Iso := fun hi =>
    Args.iso_iff.1 hi fun _ _ _ _ => rfl
  simp only [if_neg hni] at hr
  simp [Args.bpos', Args.bneg', under, BCv.AllZero, BCv.max, bind, Except.bind, pure, Except.pure] at hr
  exact hr.symm

end
end Pydisort

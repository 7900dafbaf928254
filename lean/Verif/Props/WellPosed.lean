import Verif.Uniqueness
import Verif.Witness

/-!
# C65, C66: well-posed problems are solved, and by the only solution

Specification used: `Spec.WellPosed`, `Spec.Dissipates`, `Spec.PassiveSurface`, `Spec.IsSolution`.
-/

namespace Pydisort
open Finset Spec

variable {E : Ext} {J : Junk} {a : Args} {R : Solved}

/-- **C65.** A well-posed problem is solved: no exception is raised, whatever the uninitialised memory holds. -/
theorem C65_well_posed_call_returns (h : WellPosed E a) : ∀ J, ∃ R, pydisort E J a = .ok R :=
  pydisort_isOk h

/-- **C65, evaluation.** The returned `u0`, `flux_up`, … can be evaluated at every depth of the atmosphere. -/
theorem C65_u0_can_be_evaluated (h : WellPosed E a) (hres : Rescalable a) : ∀ J, ∃ R, pydisort E J a = .ok R ∧
    ∀ tau, InRange a tau → ∃ A, R.u0 tau false = .ok A ∧ A.r = 2 * nHalf a ∧ A.c = tau.n := by
  intro J
  obtain ⟨R, hR⟩ := pydisort_isOk h J
  refine ⟨R, hR, fun tau ht => ?_⟩
  obtain ⟨u, hu, _⟩ := C01_u0_solves_transfer_equation hR h.sound hres
  obtain ⟨A, hA, h1, h2, _⟩ := hu tau ht
  exact ⟨A, hA, h1, h2⟩

/-- The hypotheses are met for every number of streams. -/
example {n : ℕ} (hn : 0 < n) : ∃ x, WellPosed refExt (demo n x) ∧ Rescalable (demo n x) := by
  obtain ⟨x, h⟩ := demo_wellPosed hn
  exact ⟨x, h, demo_rescalable x⟩

/-- **C65, when it applies.** With at most as many Legendre coefficients as streams per hemisphere, scattering
dissipates energy as soon as the albedos, phase function coefficients and forward peaks are physical. -/
theorem C65_scattering_dissipates (hg : GaussContract E (nHalf a)) (hacc : Accepted a) (hN : nLeg a ≤ nHalf a)
    (hpk : ∀ l < a.tauArr.n, peak a l < 1) : Dissipates a (node E a) (weight E a) := by
  refine dissipates_of_nLeg_le hg hN hacc.omega (fun l hl => ⟨(Args.peak_range hacc l).1, hpk l hl⟩) ?_
  intro l hl k hk
  unfold leg
  split_ifs with h0
  · exact le_rfl
  · have : k < a.leg.c := by
      have h1 := hacc.legCols
      have h2 := hacc.nLeg.1
      unfold nLeg at hk
      omega
    exact (hacc.legVal l hl k this (by omega)).2.le

example {n : ℕ} (hn : 0 < n) : GaussContract refExt (nHalf (demo n 1)) ∧ Accepted (demo n 1)
    ∧ nLeg (demo n 1) ≤ nHalf (demo n 1) ∧ ∀ l < (demo n 1).tauArr.n, peak (demo n 1) l < 1 := by
  refine ⟨by rw [demo_nHalf]; exact refExt_gauss hn, demo_accepted hn one_pos le_rfl, ?_, ?_⟩
  · rw [demo_nHalf]; simp [nLeg, demo]
  · intro l hl; rw [demo_peak hl]; norm_num

/-- **C66.** The boundary value problem of every mode has at most one solution. -/
theorem C66_solution_unique (hacc : Accepted a) (hg : GaussContract E (nHalf a))
    (hd : Dissipates a (node E a) (weight E a)) (hsurf : PassiveSurface a (node E a) (weight E a))
    {m : ℕ} (hm : m < nFourier a) {rho : ℝ → ℝ → ℝ} (hrho : ∀ M, a.bdrf[m]? = some M → Represents M rho)
    {V W : ℝ → ℕ → ℝ} (hV : IsSolution a (node E a) (weight E a) rho m V)
    (hW : IsSolution a (node E a) (weight E a) rho m W) :
    ∀ t, 0 ≤ t → t ≤ bottom a → ∀ i < 2 * nHalf a, V t i = W t i :=
  solution_unique hacc hg hd hsurf hm hrho hV hW

/-- **C66.** Whatever solves the boundary value problem is what the code computes: `u0` returns the solution of mode
zero, and `u` the Fourier series of the solutions of all modes. -/
theorem C66_code_returns_the_solution (h : pydisort E J a = .ok R) (hw : WellPosed E a) (hres : Rescalable a)
    {rho : ℕ → ℝ → ℝ → ℝ} (hrho : ∀ m < nFourier a, ∀ M, a.bdrf[m]? = some M → Represents M (rho m)) {V : ℕ → ℝ → ℕ → ℝ}
    (hV : ∀ m < nFourier a, IsSolution a (node E a) (weight E a) (rho m) m (V m)) : IsModes a R V := by
  obtain ⟨U, hU, _⟩ := C02_modes_solve_transfer_equation h hw.sound hres
  have key : ∀ m < nFourier a, ∀ t, 0 ≤ t → t ≤ bottom a → ∀ i < 2 * nHalf a, U m t i = V m t i := fun m hm =>
    solution_unique hw.accepted hw.gauss hw.dissipates hw.surface hm (hrho m hm)
      (modes_isSolution h hw.sound hres hw.bottomBC hw.topBC hrho hU hm) (hV m hm)
  have hF : 0 < nFourier a := by
    have := (pydisort_ok h).1
    obtain ⟨hacc, O, r, hO, _⟩ := pydisort_ok h
    have := (asm_good (r := 0) hacc (Args.optics_spec hacc hO) hw.sound.toNumerics).F
    rw [← nFourier_eq]; exact this
  constructor
  · intro tau ht
    obtain ⟨A, hA, h1, h2, h3⟩ := hU.u0 tau ht
    refine ⟨A, hA, h1, h2, fun i hi t htt => ?_⟩
    rw [h3 i hi t htt]
    exact key 0 hF _ (ht t htt).1 (ht t htt).2 i hi
  · intro tau phi ht
    obtain ⟨A, hA, h1, h2, h3, h4⟩ := hU.u tau phi ht
    refine ⟨A, hA, h1, h2, h3, fun i hi t htt p hp => ?_⟩
    rw [h4 i hi t htt p hp]
    exact sum_congr rfl fun m hm => by rw [key m (mem_range.1 hm) _ (ht t htt).1 (ht t htt).2 i hi]

/-- The hypotheses are met, for every number of streams. -/
example {n : ℕ} (hn : 0 < n) (J : Junk) : ∃ (x : ℝ) (R : Solved) (V : ℕ → ℝ → ℕ → ℝ), pydisort refExt J (demo n x) = .ok R ∧ WellPosed refExt (demo n x)
    ∧ Rescalable (demo n x) ∧ (∀ (m : ℕ) (M : BDRFMode), (demo n x).bdrf[m]? = some M → Represents M (fun _ _ => 1 / 3))
    ∧ ∀ m < nFourier (demo n x), IsSolution (demo n x) (node refExt (demo n x)) (weight refExt (demo n x))
        (fun _ _ => 1 / 3) m (V m) := by
  obtain ⟨x, R, h1, hw, h2, h3⟩ := demo_call hn J
  obtain ⟨U, hU, _⟩ := C02_modes_solve_transfer_equation h1 h2 h3
  exact ⟨x, R, U, h1, hw, h3, demo_rho x, fun m hm =>
    modes_isSolution h1 h2 h3 hw.bottomBC hw.topBC (rho := fun _ _ _ => 1 / 3) (fun m _ => demo_rho x m) hU hm⟩

end Pydisort

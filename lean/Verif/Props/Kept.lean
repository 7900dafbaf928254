import Verif.Kept
import Verif.Props.Azimuth
import Verif.Props.FullExists

/-!
# C118: the equation that the intensity solves when Fourier modes are dropped

Specification used: `Spec.keptPhase`, `Spec.keptRHS`.
-/

namespace Pydisort
open Finset Spec

theorem nFourier_le_nLeg {a : Args} (hacc : Accepted a) : nFourier a ≤ nLeg a := by
  have h1 := hacc.nLeg.1
  unfold nFourier nLeg
  split_ifs with h
  · omega
  · have := hacc.modes (by simpa using h)
    omega

variable {E : Ext} {J : Junk} {a : Args} {R : Solved}

/-- **C118.** Whatever the number of Fourier modes, and whether or not the code neglects scattering in some of them, the intensity solves the transfer equation with what is left of the phase
function. Unlike C75 this does not ask for as many modes as Legendre coefficients, and not that nothing is neglected. -/
theorem C118_kept_transfer_equation (h : pydisort E J a = .ok R) (hS : Sound E a) (hres : Rescalable a) (hf : a.onlyFlux = false)
    (hnt : a.NTcor = false) {F : Fields} (hF : Evaluates a R F) :
    ∀ l < a.tauArr.n, ∀ t, bdry a.tauArr.get l < t → t < bdry a.tauArr.get (l + 1) → ∀ i < 2 * nHalf a, ∀ ph,
      ∃ d, HasDerivAt (fun x => F.u x ph i) d t ∧ stream (nHalf a) (node E a) i * d
        = keptRHS a (node E a) (weight E a) l t (fun j ph' => F.u t ph' j) i ph := by
  obtain ⟨U, hU, hode⟩ := C02_modes_solve_transfer_equation h hS hres
  have hacc := (pydisort_ok h).1
  intro l hl t h1 h2 i hi ph
  have hr := layer_in_range hacc hl h1 h2
  have h3 : ∀ m ∈ range (nFourier a), ∃ d, HasDerivAt (fun x => U m x i) d t ∧
      stream (nHalf a) (node E a) i * d = rteUser a (node E a) (weight E a) m l t (U m t) i := fun m hm =>
    hode m (mem_range.1 hm) l hl t h1 h2 i hi
  choose! d hd he using h3
  refine ⟨∑ m ∈ range (nFourier a), d m * Real.cos (m * (a.phi0 - ph)), ?_, ?_⟩
  · have : HasDerivAt (fun x => ∑ m ∈ range (nFourier a), U m x i * Real.cos (m * (a.phi0 - ph)))
        (∑ m ∈ range (nFourier a), d m * Real.cos (m * (a.phi0 - ph))) t :=
      HasDerivAt.fun_sum fun m hm => (hd m hm).mul_const _
    refine this.congr_of_eventuallyEq ?_
    filter_upwards [Ioo_mem_nhds h1 h2] with x hx
    have hx' := layer_in_range hacc hl hx.1 hx.2
    exact evaluates_series h hf hnt hU hF hx'.1 hx'.2 hi ph
  · rw [mul_sum, show keptRHS a (node E a) (weight E a) l t (fun j ph' => F.u t ph' j) i ph
      = keptRHS a (node E a) (weight E a) l t (fun j φ => ∑ m ∈ range (nFourier a), U m t j * Real.cos (m * (a.phi0 - φ))) i ph from ?_,
      keptRHS_series (nFourier_pos h hS) _ _ l t (fun m => U m t) i ph]
    · exact sum_congr rfl fun m hm => by rw [← he m hm]; ring
    · unfold keptRHS
      beta_reduce
      rw [evaluates_series h hf hnt hU hF hr.1 hr.2 hi ph]
      refine congrArg (fun z => scale a l * (_ - omegaStar a l / (4 * Real.pi) * z - _) - _) ?_
      refine sum_congr rfl fun j hj => ?_
      simp only [evaluates_series h hf hnt hU hF hr.1 hr.2 (mem_range.1 hj)]

/-- **C118, what dropping modes changes.** Between any two directions, the albedo times the phase function is changed by at most `2e-8` per Fourier mode in use and by the size of the
coefficients from number `NFourier` on. -/
theorem C118_dropped_modes (hacc : Accepted a) {l : ℕ} {x y : ℝ} (hx : x ∈ Set.Icc (-1 : ℝ) 1) (hy : y ∈ Set.Icc (-1 : ℝ) 1) (ph ph' : ℝ) :
    |omegaStar a l * phase a l (cosAngle x ph y ph') - omegaStar a l * keptPhase a l x ph y ph'|
      ≤ 2 / 10 ^ 8 * nFourier a + ∑ k ∈ Ico (nFourier a) (nLeg a), |omegaStar a l * ((2 * (k : ℝ) + 1) * legStar a l k)| := by
  classical
  have hN := nFourier_le_nLeg hacc
  rw [← mul_sub, abs_mul]
  refine (mul_le_mul_of_nonneg_left (kept_near_phase hN l hx hy ph ph') (abs_nonneg _)).trans ?_
  rw [mul_sum, range_eq_Ico, ← sum_Ico_consecutive _ (Nat.zero_le _) hN]
  refine add_le_add ((sum_le_card_nsmul _ _ (2 / 10 ^ 8) fun k hk => ?_).trans ?_) (sum_le_sum fun k hk => ?_)
  · have hk' := (mem_Ico.1 hk).2
    split_ifs with h
    · rw [mul_zero]; norm_num
    · have hs : ¬ Significant (omegaStar a l) (nLeg a) (legStar a l) k := fun hs => h ⟨hk', hs⟩
      unfold Significant at hs
      push Not at hs
      have := hs k le_rfl (by omega)
      rw [abs_mul, abs_mul, abs_div, abs_of_pos (by positivity : (0 : ℝ) < 2 * k + 1), abs_of_pos (two_pos : (0 : ℝ) < 2)] at this
      linarith
  · rw [Nat.card_Ico, Nat.sub_zero, nsmul_eq_mul, mul_comm]
  · rw [if_neg fun h => absurd h.1 (not_lt.2 (mem_Ico.1 hk).1), abs_mul, abs_mul, abs_of_pos (by positivity : (0 : ℝ) < 2 * k + 1)]

/-- With the Henyey–Greenstein phase function and sixteen coefficients the code does neglect modes, so that C75 says nothing, and the hypotheses of C118 are met. -/
example (J : Junk) : ∃ (a : Args) (R : Solved) (F : Fields), pydisort refExt J a = .ok R ∧ Sound refExt a ∧ Rescalable a ∧ a.onlyFlux = false ∧ a.NTcor = false ∧ Evaluates a R F
    ∧ 0 < a.I0 ∧ ¬ NothingNeglected a := by
  obtain ⟨x, h0, h1, hb⟩ := demoHG_beam
  have hw := demoHG_wellPosed (n := 16) (by norm_num) h0 h1 (hb 16)
  have hr : Rescalable (demoHG 16 x) := demo_rescalable x
  obtain ⟨R, e⟩ := pydisort_isOk hw J
  obtain ⟨F, f⟩ := evaluates_exists e hw.sound hr
  refine ⟨demoHG 16 x, R, F, e, hw.sound, hr, rfl, rfl, f, one_pos, fun hn => ?_⟩
  have h2 : (0 : ℕ) < (demoHG 16 x).tauArr.n := by simp [demoHG, demo]
  have hl : legStar (demoHG 16 x) 0 15 = (hg 15 - hg 16) / (1 - hg 16) := by
    unfold legStar
    rw [demoHG_peak x h2]
    rfl
  have ho : omegaStar (demoHG 16 x) 0 = (1 - hg 16) * (1 / 2) / (1 - 1 / 2 * hg 16) := by
    unfold omegaStar scale
    rw [demoHG_peak x h2]
    rfl
  have := hn 0 h2 15 (by rw [demoHG_nLeg]; norm_num) fun k' k1 k2 => by
    rw [demoHG_nLeg] at k2
    obtain rfl : k' = 15 := by omega
    rw [hl, ho]
    unfold hg
    rw [abs_of_pos (by norm_num)]
    norm_num
  rw [hl, ho] at this
  unfold hg at this
  norm_num at this

end Pydisort

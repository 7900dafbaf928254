import Verif.PochSuccess
import Verif.Props.Evaluate
import Verif.WitnessNT
import Verif.Props.Emission

/-!
# C136: Fourier modes of high order

`po m k` is what is computed for the quotient `(ℓ-m)!/(ℓ+m)!` of degree `ℓ = m + k` (line 96 of `_solve_for_gen_and_part_sols.py`).
-/

namespace Pydisort
open Finset Spec

variable {E : Ext} {a : Args} {J J' : Junk} {R : Solved} {po : ℕ → ℕ → ℝ}

/-- With the exact quotients the model is that of `Model/Pydisort.lean`. -/
theorem C136_exact : pydisortP GenIn.poch = pydisort := rfl

/-! ## Few Legendre coefficients -/

theorem forRange_lt {σ : Type*} {f g : ℕ → σ → σ} {n : ℕ} (h : ∀ k < n, f k = g k) (s : σ) : forRange n f s = forRange n g s := by
  induction n with
  | zero => rfl
  | succ n ih => show f n (forRange n f s) = g n (forRange n g s); rw [h n n.lt_succ_self, ih fun k hk => h k (hk.trans n.lt_succ_self)]

theorem genSolP_live {I : GenIn} {s : GenState} (h : ∀ m < I.NFourier, ∀ k < I.NLeg - m, po m k = GenIn.poch m k) : genSolP po E s I = genSol E s I := by
  have hX : ∀ m < I.NFourier, ∀ l, I.XrowP po m l = I.Xrow m l := by
    intro m hm l
    have e : ∀ k ∈ range (I.NLeg - m), I.XtempP po m l k = I.Xtemp m l k := fun k hk => by
      unfold GenIn.XtempP GenIn.Xtemp GenIn.scalarFacP GenIn.scalarFac
      rw [h m hm k (mem_range.1 hk)]
    funext i
    unfold GenIn.XrowP GenIn.Xrow GenIn.XposP GenIn.Xpos GenIn.XnegP GenIn.Xneg
    rw [sum_congr rfl fun k hk => congrArg (· * I.alpP m k i) (e k hk), sum_congr rfl fun k hk => congrArg (· * I.alpN m k (i - I.N)) (e k hk)]
  have hb : ∀ m < I.NFourier, genBodyP po I m = genBody I m := by
    intro m hm
    funext l s
    unfold genBodyP genBody
    rw [alphaP_live (h m hm), betaP_live (h m hm), hX m hm]
  unfold genSolP genSol genLoopP genLoop
  rw [forRange_lt fun m hm => by rw [hb m hm]]

theorem pydisortP_live (h : ∀ m < nFourier a, ∀ k, m + k < nLeg a → po m k = GenIn.poch m k) : pydisortP po E J a = pydisort E J a := by
  unfold pydisortP pydisort
  rcases hp : prepare E a with e | p
  · rfl
  obtain ⟨hacc, O, r, _, _, hI⟩ := prepare_ok hp
  have : solveAllP po E J p.1 = solveAll E J p.1 := by
    unfold solveAllP solveAll
    rw [genSolP_live]
    intro m hm k hk
    rw [hI] at hk hm
    have hk' : k < nLeg a - m := hk
    exact h m (by rw [← nFourier_eq]; exact hm) k (by omega)
  simp only [bind, Except.bind]
  rw [this]

set_option exponentiation.threshold 1100 in
theorem factorial_lt_two_pow : (Nat.factorial 170 : ℝ) < 2 ^ 1022 := by norm_num [Nat.factorial]

theorem le_quotient {P : ℝ} {n m k : ℕ} (h : (n.factorial : ℝ) ≤ P) (hn : 2 * m + k ≤ n) : 1 / P ≤ (k.factorial : ℝ) / ((2 * m + k).factorial : ℝ) := by
  have h1 : (1 : ℝ) ≤ (k.factorial : ℝ) := by exact_mod_cast Nat.factorial_pos k
  have h2 : ((2 * m + k).factorial : ℝ) ≤ (n.factorial : ℝ) := by exact_mod_cast Nat.factorial_le hn
  have h3 : (0 : ℝ) < ((2 * m + k).factorial : ℝ) := by exact_mod_cast Nat.factorial_pos _
  exact div_le_div₀ (by linarith) h1 h3 (h2.trans h)

/-- **C136, the part that is true.** If the numbers of Fourier modes and of Legendre coefficients add up to at most 172, everything is as with the exact
quotients. Missing: more coefficients or modes; see `C136_false`. -/
theorem C136_few_modes_partial (hk : KeepsNormal po) (hn : nFourier a + nLeg a ≤ 172) : pydisortP po E J a = pydisort E J a :=
  pydisortP_live fun m hm k hmk => by
    rw [poch_eq, hk m k (le_quotient factorial_lt_two_pow.le (by omega))]

/-- **C136, the part that is true.** With at most 86 Legendre coefficients, everything is as with the exact quotients. Missing: more coefficients; see
`C136_false`. -/
theorem C136_few_coefficients_partial (hk : KeepsNormal po) (hn : nLeg a ≤ 86) : pydisortP po E J a = pydisort E J a :=
  pydisortP_live fun m _ k hmk => by
    rw [poch_eq, hk m k (le_quotient factorial_lt_two_pow.le (by omega))]

/-! ## Modes from order 89 on -/

theorem modes_valP (h : pydisortP po E J a = .ok R) : IsModes a R (fun m t i => R.I.rescale * R.I.val R.S m t i) := by
  obtain ⟨hacc, O, r, hO, hr, hI, _⟩ := pydisortP_ok h
  have hN : R.I.N = nHalf a := by rw [hI]; rfl
  have hp : R.I.phi0 = a.phi0 := by rw [hI]; rfl
  have hF : R.I.NFourier = nFourier a := by rw [hI, ← nFourier_eq (a := a)]; rfl
  have hc : ∀ {tau : A1 ℝ}, InRange a tau → R.I.checkTau tau = .ok () := fun {tau} ht =>
    AsmIn.checkTau_ok fun t hlt => by rw [hI]; exact ht t hlt
  refine ⟨fun tau ht => ?_, fun tau phi ht => ?_⟩
  · rw [← hN]; exact R.I.u0_plain R.S (hc ht)
  · rw [← hN, ← hp, ← hF]; exact R.I.u_plain R.S phi (hc ht)

/-- **C136 (modes from order 89 on are not computed).** Whatever the atmosphere: if nothing is reflected in those modes, they are missing in the intensity that is
returned. -/
theorem C136_high_modes_are_dark (hp : Flushes po) (h : pydisortP po E J a = .ok R) (hres : Rescalable a) (hbp : Azimuthless a.bpos) (hbn : Azimuthless a.bneg)
    (hB : a.bdrf.length ≤ 89) (hf : a.onlyFlux = false) (hn : a.NTcor = false) :
    ∃ U : ℕ → ℝ → ℕ → ℝ, ∀ tau phi, InRange a tau → Returns3 (R.u tau phi false) (2 * nHalf a) tau.n phi.n (fun i t p =>
      ∑ m ∈ range (min 89 (nFourier a)), U m (tau.get t) i * Real.cos (m * (a.phi0 - phi.get p))) := by
  obtain ⟨_, O, r, _, _, _, _, h1, h2⟩ := pydisortP_ok h
  refine ⟨fun m t i => R.I.rescale * R.I.val R.S m t i, fun tau phi ht => ?_⟩
  obtain ⟨A, y1, y2, y3, y4, y5⟩ := (modes_valP h).u tau phi ht
  refine ⟨A, ?_, y2, y3, y4, fun i hi t htt p hpp => ?_⟩
  · unfold Solved.u
    rw [h1, hf, h2 (by simp [Args.NTGate, hn])]
    simpa using y1
  · rw [y5 i hi t htt p hpp]
    refine (sum_subset (range_mono (min_le_right _ _)) fun m hm hm' => ?_).symm
    have hm1 := mem_range.1 hm
    have hm2 : 89 ≤ m := by
      rw [mem_range] at hm'; omega
    rw [val_zero h hres hm1 (by omega) (flushes_zero hp hm2) hbp hbn (hB.trans hm2) _ i hi, zero_mul]

/-! ## The modes that should be there -/

theorem assocLegendre_self_ne {m : ℕ} {x : ℝ} (h : x ^ 2 < 1) : assocLegendre m m x ≠ 0 := by
  have hm : ((Polynomial.X ^ 2 - 1 : Polynomial ℝ) ^ m).Monic := by
    refine Polynomial.Monic.pow ?_ m
    simpa using Polynomial.monic_X_pow_sub_C (1 : ℝ) two_ne_zero
  have hd : ((Polynomial.X ^ 2 - 1 : Polynomial ℝ) ^ m).natDegree = 2 * m := by
    have : (Polynomial.X ^ 2 - 1 : Polynomial ℝ).natDegree = 2 := by
      simpa using Polynomial.natDegree_X_pow_sub_C (R := ℝ) (n := 2) (r := 1)
    rw [Polynomial.natDegree_pow, this, mul_comm]
  set p := (Polynomial.X ^ 2 - 1 : Polynomial ℝ) ^ m with hp
  have e1 : (Polynomial.derivative^[m] (Polynomial.derivative^[m] p)).eval x = ((2 * m).factorial : ℝ) := by
    rw [← Function.iterate_add_apply, ← two_mul]
    have h0 : (Polynomial.derivative^[2 * m] p).natDegree = 0 := by
      have := Polynomial.natDegree_iterate_derivative p (2 * m)
      omega
    rw [Polynomial.eq_C_of_natDegree_eq_zero h0, Polynomial.eval_C, Polynomial.coeff_iterate_derivative, zero_add, ← hd, Polynomial.coeff_natDegree, hm,
      Nat.descFactorial_self]
    simp
  unfold assocLegendre legendreP
  rw [Polynomial.iterate_derivative_C_mul, Polynomial.eval_mul, Polynomial.eval_C, e1]
  have h3 : Real.sqrt (1 - x ^ 2) ≠ 0 := (Real.sqrt_pos.2 (by linarith)).ne'
  have h4 : ((2 * m).factorial : ℝ) ≠ 0 := by exact_mod_cast Nat.factorial_ne_zero _
  have h5 : (m.factorial : ℝ) ≠ 0 := by exact_mod_cast Nat.factorial_ne_zero _
  positivity

/-- A mode that the beam feeds in some layer is not zero. -/
theorem C136_fed_modes_are_lit (h : pydisort E J a = .ok R) (hS : Sound E a) (hres : Rescalable a) {m l i : ℕ} (hm : m < nFourier a) (hm0 : m ≠ 0) (hl : l < a.tauArr.n)
    (hi : i < 2 * nHalf a) (hX : beamSource a m l (stream (nHalf a) (node E a) i) ≠ 0) {U : ℕ → ℝ → ℕ → ℝ} (hU : IsModes a R U) :
    ∃ t, 0 ≤ t ∧ t ≤ a.tauArr.get (a.tauArr.n - 1) ∧ ∃ i < 2 * nHalf a, U m t i ≠ 0 := by
  by_contra hc
  push Not at hc
  obtain ⟨V, hV, ode⟩ := C02_modes_solve_transfer_equation h hS hres
  have hacc := (pydisort_ok h).1
  have hz : ∀ t, 0 ≤ t → t ≤ bottom a → ∀ i < 2 * nHalf a, V m t i = 0 := fun t h0 h1 i hi => by
    rw [C02_modes_unique hV hU m hm t h0 h1 i hi]; exact hc t h0 h1 i hi
  have hlt : bdry a.tauArr.get l < bdry a.tauArr.get (l + 1) := (asm_depthOK (E := E) (r := 0) hacc (Args.optics_spec hacc (pydisort_ok h).2.choose_spec.choose_spec.1)).mono l hl
  obtain ⟨t, t1, t2⟩ := exists_between hlt
  have b1 := (bdry_mem hacc hl.le).1
  have b2 := (bdry_mem hacc (Nat.succ_le_of_lt hl)).2
  obtain ⟨d, hd, he⟩ := ode m hm l hl t t1 t2 i hi
  have hd0 : d = 0 := by
    refine hd.unique ((hasDerivAt_const t (0 : ℝ)).congr_of_eventuallyEq ?_)
    filter_upwards [Ioo_mem_nhds t1 t2] with x hx
    exact hz x (b1.trans hx.1.le) (hx.2.le.trans b2) i hi
  have hu : ∀ j < 2 * nHalf a, V m t j = 0 := hz t (b1.trans t1.le) (t2.le.trans b2)
  rw [hd0, mul_zero] at he
  unfold rteUser rteRHS at he
  rw [if_neg hm0, hu i hi, sum_eq_zero fun j hj => by rw [hu j (mem_range.1 hj), mul_zero]] at he
  have hs := Args.scale_pos hacc hl
  have := Real.exp_pos (-tauStar a l t / a.mu0)
  simp only [sub_zero, zero_sub, mul_neg, zero_eq_neg, mul_eq_zero] at he
  rcases he with he | he | he
  · exact hs.ne' he
  · exact hX he
  · exact this.ne' he

/-! ## The intensity is wrong -/

/-- What double precision computes, apart from rounding. -/
noncomputable def flushed (m k : ℕ) : ℝ :=
  if (k.factorial : ℝ) / ((2 * m + k).factorial : ℝ) < 1 / 2 ^ 1076 then 0 else (k.factorial : ℝ) / ((2 * m + k).factorial : ℝ)

theorem flushed_flushes : Flushes flushed := fun _ _ h => if_pos h

theorem flush_lt : (1 : ℝ) / 2 ^ 1076 ≤ 1 / 2 ^ 1022 :=
  one_div_le_one_div_of_le (pow_pos two_pos _) (pow_le_pow_right₀ one_le_two (by norm_num))

theorem flushed_keeps : KeepsNormal flushed := fun _ _ h => if_neg (not_lt.2 (flush_lt.trans h))

set_option exponentiation.threshold 1100 in
theorem factorial_lt_two_pow' : (Nat.factorial 177 : ℝ) < 2 ^ 1076 := by norm_num [Nat.factorial]

theorem flushed_modeOK (m : ℕ) : ModeOK flushed 90 m := by
  rcases Nat.lt_or_ge m 89 with h | h
  · left
    intro k hk
    rw [poch_eq]
    exact if_neg (not_lt.2 (le_quotient factorial_lt_two_pow'.le (by omega)))
  · exact Or.inr fun k => flushes_zero flushed_flushes h k

/-- An atmosphere with 180 streams, 90 Legendre coefficients and 90 Fourier modes. -/
theorem demo90 : ∃ x, 0 < x ∧ x < 1 ∧ WellPosed refExt (demo 90 x) ∧ ∀ i < 90, node refExt (demo 90 x) i ≠ x := by
  classical
  set bad : Finset ℝ := (range 90).image (node refExt (demo 90 1)) with hbad
  obtain ⟨x, ⟨⟨h0, h1⟩, hx⟩, hb⟩ := exists_beamRegular_in (demo 90 1) (node refExt (demo 90 1)) (weight refExt (demo 90 1))
    (S := Set.Ioo 0 1 \ ↑bad) (fun x hx => ⟨hx.1.1, hx.1.2.le⟩) ((Set.Ioo_infinite zero_lt_one).diff bad.finite_toSet)
  refine ⟨x, h0, h1, ?_, fun i hi he => hx ?_⟩
  · have hn : 0 < 90 := by norm_num
    have hg : GaussContract refExt (nHalf (demo 90 x)) := by rw [demo_nHalf]; exact refExt_gauss hn
    refine ⟨demo_accepted hn h0 h1.le, hg, refExt_eig, ?_, ?_, hb, ?_, trivial, trivial, Or.inr rfl, Or.inr (by simp [demo]),
      by simp [demo]⟩
    · intro l hl; rw [demo_peak hl]; norm_num
    · refine dissipates_of_nLeg_le hg ?_ (demo_accepted hn h0 h1.le).omega ?_ ?_
      · rw [demo_nHalf]
        simp [nLeg, demo]
      · intro l hl; rw [demo_peak hl]; norm_num
      · intro l _ k _
        unfold leg
        split_ifs with h
        · exact le_rfl
        · exact pow_le_one₀ (by norm_num) (by norm_num)
    · exact passive_lambertian hg (by rw [demo_nHalf]; exact hn) (by norm_num) rfl
  · rw [hbad, mem_coe, mem_image]
    exact ⟨i, mem_range.2 hi, he⟩

theorem demo90_source {x : ℝ} (h0 : 0 < x) (h1 : x < 1) (hw : WellPosed refExt (demo 90 x)) :
    beamSource (demo 90 x) 89 0 (stream (nHalf (demo 90 x)) (node refExt (demo 90 x)) 0) ≠ 0 := by
  have hp : peak (demo 90 x) 0 = 1 / 8 := demo_peak (by simp [demo])
  have hL : nLeg (demo 90 x) = 90 := by simp [nLeg, demo]
  have hN : nHalf (demo 90 x) = 90 := demo_nHalf x
  have hom : omegaStar (demo 90 x) 0 = 7 / 15 := by
    unfold omegaStar scale
    rw [hp]; norm_num [demo]
  have hleg : legStar (demo 90 x) 0 89 = ((1 / 2) ^ 89 - 1 / 8) / (7 / 8) := by
    unfold legStar leg
    rw [hp]; norm_num [demo]
  have hle : legStar (demo 90 x) 0 89 < -1 / 14 := by rw [hleg]; norm_num
  have hsig : Significant (omegaStar (demo 90 x) 0) (nLeg (demo 90 x)) (legStar (demo 90 x) 0) 89 := by
    refine ⟨89, le_rfl, by rw [hL]; norm_num, ?_⟩
    rw [hom, hleg, abs_of_neg (by norm_num)]; norm_num
  have hnode := node_pos hw.gauss (i := 0) (by rw [hN]; norm_num)
  unfold beamSource
  rw [if_pos hsig]
  unfold beamX phaseMoment
  rw [hL, show Finset.Ico 89 90 = {89} from by decide, sum_singleton, hom]
  have e : stream (nHalf (demo 90 x)) (node refExt (demo 90 x)) 0 = node refExt (demo 90 x) 0 := by
    unfold stream; rw [if_pos (by rw [hN]; norm_num)]
  rw [e]
  have a1 : assocLegendre 89 89 (node refExt (demo 90 x) 0) ≠ 0 := assocLegendre_self_ne (by nlinarith [hnode.1, hnode.2])
  have a2 : assocLegendre 89 89 (-(demo 90 x).mu0) ≠ 0 := assocLegendre_self_ne (by
    change (-x) ^ 2 < 1; nlinarith)
  have a3 : (((89 - 89).factorial : ℝ) / ((89 + 89).factorial : ℝ)) ≠ 0 :=
    div_ne_zero (by exact_mod_cast Nat.factorial_ne_zero _) (by exact_mod_cast Nat.factorial_ne_zero _)
  have a4 : (demo 90 x).I0 = 1 := rfl
  have hpi := Real.pi_pos.ne'
  rw [a4, if_neg (by norm_num)]
  refine mul_ne_zero (by positivity) (mul_ne_zero (mul_ne_zero (mul_ne_zero (mul_ne_zero (by norm_num) (by linarith)) a3) a1) a2)

/-- **C136 does not hold in general.** There is a well-posed call with 180 streams, 90 Legendre coefficients and 90 Fourier modes which returns with the quotients
of double precision, and whatever is done with subnormal numbers, the intensity is not the one computed with the exact quotients. -/
theorem C136_false : ∃ (E : Ext) (a : Args), WellPosed E a ∧ a.onlyFlux = false ∧ a.NTcor = false ∧ nLeg a = 90 ∧ nFourier a = 90 ∧
    (∃ po, Flushes po ∧ KeepsNormal po ∧ ∀ J, ∃ R, pydisortP po E J a = .ok R) ∧
    ∀ po, Flushes po → ∀ J J' R R', pydisort E J a = .ok R → pydisortP po E J' a = .ok R' →
      ∃ tau phi, InRange a tau ∧ R'.u tau phi false ≠ R.u tau phi false := by
  obtain ⟨x, h0, h1, hw, hx⟩ := demo90
  have hL : nLeg (demo 90 x) = 90 := by simp [nLeg, demo]
  have hF : nFourier (demo 90 x) = 90 := by simp [nFourier, demo]
  refine ⟨refExt, demo 90 x, hw, rfl, rfl, hL, hF, ⟨flushed, flushed_flushes, flushed_keeps, fun J => ?_⟩, fun po hpo J J' R R' h h' => ?_⟩
  · exact pydisortP_isOk hw (fun _ i hi => hx i (by rwa [demo_nHalf] at hi)) (fun m _ => by rw [hL]; exact flushed_modeOK m) J
  · by_contra hc
    push Not at hc
    obtain ⟨V, hV, _⟩ := C02_modes_solve_transfer_equation h hw.sound (demo_rescalable x)
    obtain ⟨t, t0, t1, i, hi, hne⟩ := C136_fed_modes_are_lit h hw.sound (demo_rescalable x) (m := 89) (l := 0) (i := 0) (by rw [hF]; norm_num) (by norm_num)
      (by simp [demo]) (by rw [demo_nHalf]; norm_num) (demo90_source h0 h1 hw) hV
    obtain ⟨_, O, r, _, _, _, _, g1, g2⟩ := pydisortP_ok h'
    have hm1 := modes_valP h'
    have key := cos_series_zero (F := nFourier (demo 90 x)) (c := fun m => V m t i - R'.I.rescale * R'.I.val R'.S m t i) (fun y => by
      have ht : InRange (demo 90 x) ⟨1, fun _ => t⟩ := fun _ _ => ⟨t0, t1⟩
      obtain ⟨A, hA, _, _, _, hA4⟩ := hV.u ⟨1, fun _ => t⟩ ⟨1, fun _ => (demo 90 x).phi0 - y⟩ ht
      obtain ⟨B, hB, _, _, _, hB4⟩ := hm1.u ⟨1, fun _ => t⟩ ⟨1, fun _ => (demo 90 x).phi0 - y⟩ ht
      have hAB := hc ⟨1, fun _ => t⟩ ⟨1, fun _ => (demo 90 x).phi0 - y⟩ ht
      rw [C02_returned_u h rfl rfl, hA] at hAB
      have hu' : R'.u ⟨1, fun _ => t⟩ ⟨1, fun _ => (demo 90 x).phi0 - y⟩ false = .ok B := by
        unfold Solved.u
        rw [g1, g2 (by simp [Args.NTGate, demo])]
        simpa [demo] using hB
      rw [hu'] at hAB; cases hAB
      have e1 := hA4 i hi 0 Nat.one_pos 0 Nat.one_pos
      have e2 := hB4 i hi 0 Nat.one_pos 0 Nat.one_pos
      rw [e1] at e2
      simp only [sub_sub_cancel] at e2
      simp only [sub_mul, sum_sub_distrib]
      exact sub_eq_zero.mpr e2)
    have h89 : V 89 t i - R'.I.rescale * R'.I.val R'.S 89 t i = 0 := key 89 (by rw [hF]; norm_num)
    rw [val_zero h' (demo_rescalable x) (by rw [hF]; norm_num) (by norm_num) (flushes_zero hpo le_rfl) trivial trivial (by simp [demo]) t i hi, sub_zero] at h89
    exact hne h89

/-- The call of `C136_false` meets the hypotheses of `C136_high_modes_are_dark`. -/
example (J : Junk) : ∃ x R, Flushes flushed ∧ pydisortP flushed refExt J (demo 90 x) = .ok R ∧ Rescalable (demo 90 x) ∧ (demo 90 x).bdrf.length ≤ 89 ∧ 89 < nFourier (demo 90 x) := by
  obtain ⟨x, h0, h1, hw, hx⟩ := demo90
  obtain ⟨R, hR⟩ := pydisortP_isOk hw (fun _ i hi => hx i (by rwa [demo_nHalf] at hi)) (fun m _ => by
    rw [show nLeg (demo 90 x) = 90 by simp [nLeg, demo]]; exact flushed_modeOK m) J
  exact ⟨x, R, flushed_flushes, hR, demo_rescalable x, by simp [demo], by simp [nFourier, demo]⟩

/-- Calls with at most 86 coefficients return. -/
example {n : ℕ} (hn : 0 < n) (hn' : n ≤ 86) (J : Junk) : ∃ x R, KeepsNormal flushed ∧ nLeg (demo n x) ≤ 86 ∧ pydisortP flushed refExt J (demo n x) = .ok R := by
  obtain ⟨x, R, hR, _⟩ := demo_call hn J
  have hL : nLeg (demo n x) ≤ 86 := by simpa [nLeg, demo] using hn'
  exact ⟨x, R, flushed_keeps, hL, by rw [C136_few_coefficients_partial flushed_keeps hL]; exact hR⟩

/-- Calls with 172 modes and coefficients altogether. -/
example (J : Junk) : ∃ x R, KeepsNormal flushed ∧ nFourier (demo 86 x) + nLeg (demo 86 x) ≤ 172 ∧ pydisortP flushed refExt J (demo 86 x) = .ok R := by
  obtain ⟨x, R, hR, _⟩ := demo_call (show 0 < 86 by norm_num) J
  have hL : nFourier (demo 86 x) + nLeg (demo 86 x) ≤ 172 := by simp [nLeg, nFourier, demo]
  exact ⟨x, R, flushed_keeps, hL, by rw [C136_few_modes_partial flushed_keeps hL]; exact hR⟩

end Pydisort

import Verif.UnderflowLemmas

/-!
# Property C131: corrected intensities of thick atmospheres
-/

namespace Pydisort
open Finset Spec

variable {E : Ext} {J : Junk} {a : Args} {R : Solved} {ex : ℝ → ℝ} {c : ℝ}

/-- The array returned by `u_corrected`. -/
theorem uCorrectedU_returns (h : pydisort E J a = .ok R) {n : NTIn} (H : NTSpec E a R.I.rescale n)
    {tau phi : A1 ℝ} (ht : InRange a tau) (hne : tau.n ≠ 0) (hN1 : nHalf a ≠ 1 ∨ phi.n = 1) :
    ∃ A B, R.uCorrectedU ex n tau phi false = .ok A ∧ R.uUncorrected tau phi false = .ok B ∧ A.d0 = 2 * nHalf a ∧ A.d1 = tau.n ∧ A.d2 = phi.n ∧
      ∀ i < 2 * nHalf a, ∀ t < tau.n, ∀ p < phi.n, A.get i t p =
        Fl.add (.fin (B.get i t p)) (Fl.mul (.fin R.I.rescale) (n.corrValU ex false i (R.I.layer (tau.get t)) (tau.get t) (phi.get p))) := by
  obtain ⟨hacc, O, r, hO, hr, hI, hsol, hof, hg1, hg2⟩ := pydisort_ok h
  have hN : R.I.N = nHalf a := by rw [hI]; rfl
  have hNpos : 0 < nHalf a := by
    have := hacc.streams.1
    unfold nHalf; omega
  obtain ⟨B, h1, h2, h3, h4, h5⟩ := R.I.u_plain R.S phi (checkTau_of_inRange h ht)
  rw [hN] at h2
  obtain ⟨A, g1, g2, g3, g4, g5⟩ := n.corrU_returns (ex := ex) (by rw [H.N]; exact hNpos) (tau := tau) (phi := phi) false
    (fun t => R.I.layer (tau.get t)) hne (by rw [H.N]; exact hN1)
  rw [H.N] at g2 g5
  unfold Solved.uCorrectedU Solved.uUncorrected
  rw [h1, g1]
  simp only [bind, Except.bind, addSqueezedU]
  rw [if_pos ⟨by omega, by omega, by omega⟩]
  refine ⟨_, B, rfl, rfl, h2, h3, h4, fun i hi t ht p hp => ?_⟩
  simp only
  rw [g5 i hi t ht p hp]

theorem decayProdU_ne_zero (hacc : Accepted a) {r : ℝ} {n : NTIn} (H : NTSpec E a r n) (hex : VanishesBelow ex c) (i : ℕ) {k : ℕ} (hk : k + 1 ≤ a.tauArr.n) :
    n.decayProdU ex i (k + 1) ≠ 0 ↔ bdryStar a (k + 1) / node E a i ≤ c := by
  unfold NTIn.decayProdU
  rw [if_neg (by omega), Nat.add_sub_cancel, NTIn.cumsum_logDecay H.geo i (by rw [H.NLayers]; omega), H.tau0 _ hk, H.mu, Ne, hex, not_lt, neg_div, neg_le_neg_iff]

/-- **C131, when the corrected intensity is a finite number.** Let the exponential function underflow below `-c`. The intensity that `u` returns for stream `i` at a depth in layer `l` is finite
if and only if the optical depth along the stream from the top of the atmosphere to the lower (upward streams, unless `l` is the lowest layer) or upper (downward streams, unless `l` is the uppermost layer) boundary of the layer is at most `c`. -/
theorem C131_finite_iff (h : pydisort E J a = .ok R) (hc : Corrected a) (hg : GaussContract E (nHalf a)) (hex : VanishesBelow ex c) :
    ∃ n, R.nt = some n ∧ ∀ tau phi : A1 ℝ, InRange a tau → tau.n ≠ 0 → (nHalf a ≠ 1 ∨ phi.n = 1) →
      ∃ A, R.uCorrectedU ex n tau phi false = .ok A ∧ A.d0 = 2 * nHalf a ∧ A.d1 = tau.n ∧ A.d2 = phi.n ∧
        ∀ i < 2 * nHalf a, ∀ t < tau.n, ∀ p < phi.n, ∀ l < a.tauArr.n, (l = 0 ∨ a.tauArr.get (l - 1) < tau.get t) → tau.get t ≤ a.tauArr.get l →
          ((A.get i t p).Finite ↔ InReach E a c i l) := by
  obtain ⟨n, hn, H⟩ := ntSpec h hc
  have hacc := (pydisort_ok h).1
  refine ⟨n, hn, fun tau phi ht hne hN1 => ?_⟩
  obtain ⟨A, B, h1, _, h2, h3, h4, h5⟩ := uCorrectedU_returns (ex := ex) h H ht hne hN1
  refine ⟨A, h1, h2, h3, h4, fun i hi t htt p hp l hl hl0 hl1 => ?_⟩
  have hlayer : R.I.layer (tau.get t) = l := (C21_layer_lookup h (ht t htt).2 l).2 ⟨hl, hl0, hl1⟩
  rw [h5 i hi t htt p hp, hlayer, Fl.add_finite, Fl.mul_finite]
  have e : (n.corrValU ex false i l (tau.get t) (phi.get p)).Finite ↔ InReach E a c i l := by
    have key : (n.tmsValU ex false i l (n.st l (tau.get t)) (nuVal (n.muArr i) (phi.get p) (-n.mu0) n.phi0)).Finite ↔ InReach E a c i l := by
      rw [NTIn.tmsValU_finite, H.NLayers, H.N]
      unfold InReach
      split_ifs with hin
      · constructor
        · intro h2 hl2
          exact (decayProdU_ne_zero hacc H hex i hl2.le).1 (h2 (by omega) hl2)
        · intro h2 _ hl2
          exact (decayProdU_ne_zero hacc H hex i hl2.le).2 (h2 hl2)
      · constructor
        · intro h2 hl2
          have h3 := h2 (by omega) (l - 1) (by omega)
          rw [decayProdU_ne_zero hacc H hex _ (by omega), show l - 1 + 1 = l by omega] at h3
          exact h3
        · intro h2 _ q hq
          rw [decayProdU_ne_zero hacc H hex _ (by omega)]
          refine le_trans ?_ (h2 (by omega))
          have hm := (node_pos hg (show i - nHalf a < nHalf a by omega)).1
          have := (bdryStar_step hacc (show q + 1 ≤ l by omega) hl.le).1
          exact (div_le_div_iff_of_pos_right hm).2 (by linarith)
    unfold NTIn.corrValU
    split_ifs
    · exact key
    · rw [Fl.add_finite]
      exact ⟨fun h => key.1 h.1, fun h => ⟨key.2 h, trivial⟩⟩
  exact ⟨fun h => e.1 h.2.2, fun h => ⟨trivial, trivial, e.2 h⟩⟩

/-- **C131, thin atmospheres.** If the exponential function is exact above `-c` and the optical depth of the whole atmosphere along every stream and the beam together is at most `c`, the corrected intensities are those of
exact arithmetic. -/
theorem C131_exact_partial (h : pydisort E J a = .ok R) (hc : Corrected a) (hg : GaussContract E (nHalf a)) (hex : ∀ x, -c ≤ x → ex x = Real.exp x) (hc0 : 0 ≤ c)
    (hT : ∀ i < nHalf a, bdryStar a a.tauArr.n * (1 / node E a i + 1 / a.mu0) ≤ c) :
    ∃ n, R.nt = some n ∧ ∀ tau phi : A1 ℝ, InRange a tau → tau.n ≠ 0 → (nHalf a ≠ 1 ∨ phi.n = 1) →
      ∃ A B, R.uCorrectedU ex n tau phi false = .ok A ∧ R.u tau phi false = .ok B ∧ A.d0 = B.d0 ∧ A.d1 = B.d1 ∧ A.d2 = B.d2 ∧
        ∀ i < 2 * nHalf a, ∀ t < tau.n, ∀ p < phi.n, A.get i t p = .fin (B.get i t p) := by
  obtain ⟨n, hn, H⟩ := ntSpec h hc
  have hacc := (pydisort_ok h).1
  have hm0 := mu0_pos_of h hc
  refine ⟨n, hn, fun tau phi ht hne hN1 => ?_⟩
  obtain ⟨A, B, h1, h1', h2, h3, h4, h5⟩ := uCorrectedU_returns (ex := ex) h H ht hne hN1
  obtain ⟨C, g1, g2, g3, g4, g5⟩ := u_returns h hc.2.1 ht (phi := phi) (fun _ => ⟨hne, hN1⟩)
  obtain ⟨hacc', O, r, hO, hr, hI, hsol, hof, hg1, hg2⟩ := pydisort_ok h
  have hRN : R.I.N = nHalf a := by rw [hI]; rfl
  have hp : R.I.phi0 = a.phi0 := by rw [hI]; rfl
  have hF : R.I.NFourier = nFourier a := by rw [hI, ← nFourier_eq (a := a)]; rfl
  obtain ⟨B', k1, k2, k3, k4, k5⟩ := R.I.u_plain R.S phi (checkTau_of_inRange h ht)
  have hBB : B = B' := by
    have : R.uUncorrected tau phi false = .ok B' := k1
    rw [h1'] at this; exact Except.ok.inj this
  subst hBB
  rw [hRN, hF, hp] at k5
  refine ⟨A, C, h1, g1, h2.trans g2.symm, h3.trans g3.symm, h4.trans g4.symm, fun i hi t htt p hpp => ?_⟩
  rw [h5 i hi t htt p hpp, g5 i hi t htt p hpp, hn, k5 i hi t htt p hpp]
  simp only
  obtain ⟨hl, _, _⟩ := scaledTau_mem h (ht t htt).1 (ht t htt).2
  set l := R.I.layer (tau.get t) with hldef
  obtain ⟨_, hl0, hl1⟩ := (C21_layer_lookup h (ht t htt).2 l).1 rfl
  have hst : n.st l (tau.get t) = tauStar a l (tau.get t) := H.st_eq hl _
  have hsc := Args.scale_pos hacc (show l < a.NLayers from hl)
  have hb0 : bdry a.tauArr.get l ≤ tau.get t := by
    unfold bdry
    split_ifs with h0
    · exact (ht t htt).1
    · exact (hl0.resolve_left h0).le
  have hb1 : tau.get t ≤ bdry a.tauArr.get (l + 1) := by rw [Spec.bdry_succ]; exact hl1
  have hs0 : n.tau0 l ≤ n.st l (tau.get t) := by
    rw [hst, H.tau0 l hl.le]; unfold tauStar
    nlinarith
  have hs1 : n.st l (tau.get t) ≤ n.tau0 (l + 1) := by
    rw [hst, H.tau0 (l + 1) hl, bdryStar_succ]; unfold tauStar
    nlinarith
  have key : ∀ nu, n.tmsValU ex false i l (n.st l (tau.get t)) nu = .fin (n.tmsVal false i l (n.st l (tau.get t)) nu) := by
    intro nu
    have hk : (if i < n.N then i else i - n.N) < nHalf a := by rw [H.N]; split_ifs <;> omega
    refine NTIn.tmsValU_eq H.geo hex hc0 (by rw [H.mu0]; exact hm0) (fun k hk => ?_) (by rw [H.NLayers]; exact hl) rfl (by rw [H.mu]; exact (node_pos hg hk).1) ?_ hs0 hs1 nu
    · have hk' : k < a.tauArr.n := by rw [H.NLayers] at hk; exact hk
      have h6 := H.geo.step k hk
      rw [H.tau0 _ hk', H.tau0 _ hk'.le] at h6
      have h7 := (bdryStar_step hacc (Nat.le_succ k) hk').1
      linarith
    · rw [H.NLayers, H.tau0 _ le_rfl, H.mu, H.mu0]
      exact hT _ hk
  unfold NTIn.corrValU NTIn.corrVal
  rw [key]
  split_ifs with hin
  · rw [add_zero]; rfl
  · rfl

/-- **C131 is false.** Whatever the threshold `c` below which the exponential function underflows, there is a well-posed problem with two layers for which `u` returns infinity or NaN: for the upward stream everywhere in the upper layer and for the downward
stream everywhere in the lower layer. -/
theorem C131_false (J : Junk) (hc : 0 ≤ c) : ∃ (a : Args) (R : Solved) (n : NTIn), pydisort refExt J a = .ok R ∧ WellPosed refExt a ∧ R.nt = some n ∧
    ∀ ex, VanishesBelow ex c → ∀ t ph : ℝ, 0 ≤ t → t ≤ a.tauArr.get 1 → ∃ A, R.uCorrectedU ex n ⟨1, fun _ => t⟩ ⟨1, fun _ => ph⟩ false = .ok A ∧
      (t ≤ a.tauArr.get 0 → ¬ (A.get 0 0 0).Finite) ∧ (a.tauArr.get 0 < t → ¬ (A.get 1 0 0).Finite) := by
  obtain ⟨x, R, hR, _, hx0, hx1, hwp, _⟩ := demoNT_call one_pos (by norm_num) ∅ J
  have hN : nHalf (demoNT 1 x) = 1 := demoNT_nHalf x
  set m1 := node refExt (demoNT 1 x) 0 with hm1
  have hmpos : 0 < m1 := (node_pos hwp.gauss (by rw [hN]; exact one_pos)).1
  set T := m1 * (c + 1) * (16 / 15) with hT
  have hT0 : 0 < T := by positivity
  have hwp' := thickNT_wellPosed one_pos hx0 hx1 hT0 hwp
  obtain ⟨R', hR'⟩ := pydisort_isOk hwp' J
  have hc' : Corrected (thickNT 1 x T) := demoNT_corrected (n := 1) one_pos x
  have hpk : ∀ l < 2, peak (thickNT 1 x T) l = 1 / 8 := fun l hl => demoNT_peak (n := 1) (x := x) hl
  have htau : bdryStar (thickNT 1 x T) 1 = m1 * (c + 1) := by
    unfold bdryStar
    rw [sum_range_one]
    unfold scale
    rw [hpk 0 (by norm_num)]
    have e1 : (thickNT 1 x T).omega.get 0 = 1 / 2 := rfl
    have e2 : bdry (thickNT 1 x T).tauArr.get (0 + 1) = T := by simp [bdry, thickNT]
    rw [e1, e2]; unfold bdry; rw [if_pos rfl, hT]; ring
  have hbig : ¬ bdryStar (thickNT 1 x T) 1 / m1 ≤ c := by
    rw [htau, mul_div_cancel_left₀ _ hmpos.ne']; linarith
  have hN' : nHalf (thickNT 1 x T) = 1 := hN
  have hL : (thickNT 1 x T).tauArr.n = 2 := rfl
  obtain ⟨n, hn, _⟩ := ntSpec hR' hc'
  refine ⟨_, R', n, hR', hwp', hn, fun ex hex t ph ht0 ht1 => ?_⟩
  obtain ⟨n', hn', hall⟩ := C131_finite_iff hR' hc' hwp'.gauss hex
  obtain rfl : n = n' := by rw [hn] at hn'; exact Option.some.inj hn'
  obtain ⟨A, h1, h2, h3, h4, h5⟩ := hall ⟨1, fun _ => t⟩ ⟨1, fun _ => ph⟩ (fun _ _ => ⟨ht0, ht1⟩) one_ne_zero (Or.inr rfl)
  refine ⟨A, h1, fun hle => ?_, fun hlt => ?_⟩
  · rw [h5 0 (by rw [hN']; norm_num) 0 one_pos 0 one_pos 0 (by rw [hL]; norm_num) (Or.inl rfl) hle]
    unfold InReach
    rw [if_pos (by rw [hN']; norm_num)]
    exact fun h => hbig (h (by rw [hL]; norm_num))
  · rw [h5 1 (by rw [hN']; norm_num) 0 one_pos 0 one_pos 1 (by rw [hL]; norm_num) (Or.inr hlt) ht1]
    unfold InReach
    rw [if_neg (by rw [hN']; norm_num), hN']
    exact fun h => hbig (h one_pos)

/-- The hypotheses can be met, with two layers and up to ten million streams per hemisphere; functions that underflow below a threshold and are exact above exist. -/
example (J : Junk) {n : ℕ} (hn : 0 < n) (hn' : n < 10 ^ 7) : ∃ a R, pydisort refExt J a = .ok R ∧ Corrected a ∧ nHalf a = n ∧
    GaussContract refExt (nHalf a) ∧ 1 < a.tauArr.n ∧ ∃ c > 0, (∀ i < nHalf a, bdryStar a a.tauArr.n * (1 / node refExt a i + 1 / a.mu0) ≤ c) ∧
    ∃ ex, VanishesBelow ex c ∧ ∀ x, -c ≤ x → ex x = Real.exp x := by
  classical
  obtain ⟨x, R, hR, _, hx0, hx1, hwp, _⟩ := demoNT_call hn hn' ∅ J
  set f : ℕ → ℝ := fun i => |bdryStar (demoNT n x) (demoNT n x).tauArr.n * (1 / node refExt (demoNT n x) i + 1 / (demoNT n x).mu0)|
  refine ⟨_, R, hR, demoNT_corrected hn x, demoNT_nHalf x, hwp.gauss, by simp [demoNT, demo], 1 + ∑ i ∈ range (nHalf (demoNT n x)), f i, ?_, fun i hi => ?_, ?_⟩
  · have : 0 ≤ ∑ i ∈ range (nHalf (demoNT n x)), f i := sum_nonneg fun i _ => abs_nonneg _
    linarith
  · have h1 := single_le_sum (f := f) (fun i _ => abs_nonneg _) (mem_range.2 hi)
    have h2 := le_abs_self (bdryStar (demoNT n x) (demoNT n x).tauArr.n * (1 / node refExt (demoNT n x) i + 1 / (demoNT n x).mu0))
    linarith
  · refine ⟨fun y => if y < -(1 + ∑ i ∈ range (nHalf (demoNT n x)), f i) then 0 else Real.exp y, fun y => ?_, fun y hy => if_neg (not_lt.2 hy)⟩
    beta_reduce
    split_ifs with h
    · exact iff_of_true rfl h
    · exact iff_of_false (Real.exp_pos _).ne' h

end Pydisort

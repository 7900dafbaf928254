import Verif.CompareLemmas

/-!
# C93: comparing results with reference values (`_compare`)
-/

namespace Pydisort
open Finset Spec

variable {E : Ext} {J : Junk} {a : Args} {R : Solved}

theorem zero_hands {n : ℕ} (hn : 0 < n) {ref : A1 ℝ} (hr : ref.n = n) {y : Py (ND ℝ)} {v : ℕ → ℝ} (h : Hands y [] (fun _ => 0)) (hv : ∀ t < n, v t = 0) :
    ∃ x, y = .ok x ∧ ∃ r, compareFlux ref x = .ok r ∧ Compares n ref.get v r := by
  obtain ⟨x, hx, hs, hv'⟩ := h
  refine ⟨x, hx, compareFlux_ok hn hr (Or.inr ⟨by simpa using hs, fun t ht => ?_⟩)⟩
  rw [hv t ht]
  exact hv' [] .nil

theorem map_ok {α β : Type} {f : α → β} {y : Py α} {b : β} (h : y.map f = .ok b) : ∃ x, y = .ok x ∧ f x = b := by
  rcases y with e | x
  · cases h
  · exact ⟨x, rfl, by simpa [Except.map] using h⟩

/-- C93. For reference values at `n ≥ 1` depths of the atmosphere (and at least one azimuth and one chosen stream) `_compare` returns, and its
arrays and printed numbers are what they are called: the differences between the computed and the reference values, the differences relative to the
reference values, and the largest of each with the depth at which it occurs. `reorder` is any assignment of the streams to the rows of the reference
intensities. -/
theorem C93_compare (h : pydisort E J a = .ok R) {F : Fields} (hF : Evaluates a R F) {ref : Reference} (ht : InRange a ref.tau) (hn : 0 < ref.tau.n)
    (hup : ref.flup.n = ref.tau.n) (hdn : ref.rfldn.n = ref.tau.n) (hdir : ref.rfldir.n = ref.tau.n) (mask : A1 Bool) (reorder : A1 ℕ) :
    (∃ r, compare ref mask reorder (R.fluxUpReturned · false) (R.fluxDownReturned · false) none = .ok r ∧ r.intensity = none ∧
      Compares ref.tau.n ref.flup.get (fun t => F.up (ref.tau.get t)) r.up ∧
      Compares ref.tau.n ref.rfldn.get (fun t => F.diffuse (ref.tau.get t)) r.diffuse ∧
      Compares ref.tau.n ref.rfldir.get (fun t => F.direct (ref.tau.get t)) r.direct) ∧
    (a.onlyFlux = false → (a.NTcor = true → nHalf a ≠ 1 ∨ ref.phi.n = 1) → 0 < ref.phi.n → ref.uu.d0 = 2 * nHalf a → ref.uu.d1 = ref.tau.n →
      ref.uu.d2 = ref.phi.n → reorder.n = 2 * nHalf a → (∀ k < 2 * nHalf a, reorder.get k < 2 * nHalf a) → mask.n = 2 * nHalf a →
      (∃ i < 2 * nHalf a, mask.get i = true) →
      ∃ r s, compare ref mask reorder (R.fluxUpReturned · false) (R.fluxDownReturned · false) (some fun tau phi => R.uReturned false tau phi false) = .ok r ∧
        r.intensity = some s ∧
        Compares ref.tau.n ref.flup.get (fun t => F.up (ref.tau.get t)) r.up ∧
        Compares ref.tau.n ref.rfldn.get (fun t => F.diffuse (ref.tau.get t)) r.diffuse ∧
        Compares ref.tau.n ref.rfldir.get (fun t => F.direct (ref.tau.get t)) r.direct ∧
        ComparesIntensities ref.tau mask ref.uu (fun i t p => F.u (ref.tau.get t) (ref.phi.get p) (reorder.get i)) s) := by
  obtain ⟨_, s1, s2, s3, s4, s5⟩ := C85_shapes h hF ht ref.phi
  obtain ⟨hacc, O, r, _, _, hI, _⟩ := pydisort_ok h
  obtain ⟨x, hx, r1, hr1, c1⟩ := compareFlux_of_hands hn hup s1
  obtain ⟨x2, hx2, r2, hr2, c2⟩ := compareFlux_of_hands hn hdn s2
  have hd : ∃ x, (R.fluxDownReturned ref.tau false).map Prod.snd = .ok x ∧ ∃ r, compareFlux ref.rfldir x = .ok r ∧
      Compares ref.tau.n ref.rfldir.get (fun t => F.direct (ref.tau.get t)) r := by
    by_cases hb : 0 < a.I0
    · exact compareFlux_of_hands hn hdir (s3 hb)
    · have h0 : a.I0 = 0 := le_antisymm (not_lt.1 hb) hacc.beam
      refine zero_hands hn hdir (s4 h0) fun t ht' => ?_
      obtain ⟨C, D, flag, d1, d2, d3, d4, d5⟩ := hF.down ref.tau ht
      have h5 := d5 t ht'
      beta_reduce at h5
      rw [← h5]
      exact fluxDown_dark (I := R.I) d1 (by rw [hI]; simpa [Args.asmIn, Args.Beam] using not_lt.1 hb) _
  obtain ⟨x3, hx3, r3, hr3, c3⟩ := hd
  obtain ⟨y, hy, rfl⟩ := map_ok hx2
  obtain ⟨y', hy', rfl⟩ := map_ok hx3
  obtain rfl : y = y' := by rw [hy] at hy'; exact Except.ok.inj hy'
  refine ⟨⟨⟨r1, r2, r3, none⟩, ?_, rfl, c1, c2, c3⟩, ?_⟩
  · simp only [compare, hx, hr1, hy, hr2, hr3, bind, Except.bind, pure, Except.pure]
  · intro hf hnt hP h0 h1 h2 hro hro' hmn hm1
    obtain ⟨w, hw, ws, wv⟩ := s5 hf fun h' => ⟨hn.ne', hnt h'⟩
    obtain ⟨s, hs, cs⟩ := compareIntensity_ok (x := w) (M := 2 * nHalf a) (by omega) (v := fun i t p => F.u (ref.tau.get t) (ref.phi.get p) i) hn hP ws
      (fun i hi t ht p hp => wv [i, t, p] (.cons hi (.cons ht (.cons hp .nil)))) hro hro' hmn hm1 h0 h1 h2 rfl
    refine ⟨⟨r1, r2, r3, some s⟩, s, ?_, rfl, c1, c2, c3, cs⟩
    simp only [compare, hx, hr1, hy, hr2, hr3, hw, hs, bind, Except.bind, pure, Except.pure]

/-- C93, refusals: an index of `reorder_mu` that names no stream raises `IndexError`; reference intensities with another number of entries than those computed raise `ValueError`. -/
theorem C93_refuses (h : pydisort E J a = .ok R) {F : Fields} (hF : Evaluates a R F) {ref : Reference} (ht : InRange a ref.tau) (hn : 0 < ref.tau.n)
    (hup : ref.flup.n = ref.tau.n) (hdn : ref.rfldn.n = ref.tau.n) (hdir : ref.rfldir.n = ref.tau.n) (mask : A1 Bool) (reorder : A1 ℕ)
    (hf : a.onlyFlux = false) (hnt : a.NTcor = true → nHalf a ≠ 1 ∨ ref.phi.n = 1) :
    ((∃ k < reorder.n, 2 * nHalf a ≤ reorder.get k) →
      compare ref mask reorder (R.fluxUpReturned · false) (R.fluxDownReturned · false) (some fun tau phi => R.uReturned false tau phi false) = .error .indexError) ∧
    ((∀ k < reorder.n, reorder.get k < 2 * nHalf a) → ref.uu.d0 * ref.uu.d1 * ref.uu.d2 ≠ reorder.n * ref.tau.n * ref.phi.n →
      compare ref mask reorder (R.fluxUpReturned · false) (R.fluxDownReturned · false) (some fun tau phi => R.uReturned false tau phi false)
        = .error (.valueError "cannot reshape array")) := by
  obtain ⟨_, s1, s2, s3, s4, s5⟩ := C85_shapes h hF ht ref.phi
  obtain ⟨hacc, O, r, _, _, hI, _⟩ := pydisort_ok h
  obtain ⟨x, hx, r1, hr1, c1⟩ := compareFlux_of_hands hn hup s1
  obtain ⟨x2, hx2, r2, hr2, c2⟩ := compareFlux_of_hands hn hdn s2
  have hd : ∃ x, (R.fluxDownReturned ref.tau false).map Prod.snd = .ok x ∧ ∃ r, compareFlux ref.rfldir x = .ok r ∧
      Compares ref.tau.n ref.rfldir.get (fun t => F.direct (ref.tau.get t)) r := by
    by_cases hb : 0 < a.I0
    · exact compareFlux_of_hands hn hdir (s3 hb)
    · have h0 : a.I0 = 0 := le_antisymm (not_lt.1 hb) hacc.beam
      refine zero_hands hn hdir (s4 h0) fun t ht' => ?_
      obtain ⟨C, D, flag, d1, d2, d3, d4, d5⟩ := hF.down ref.tau ht
      have h5 := d5 t ht'
      beta_reduce at h5
      rw [← h5]
      exact fluxDown_dark (I := R.I) d1 (by rw [hI]; simpa [Args.asmIn, Args.Beam] using not_lt.1 hb) _
  obtain ⟨x3, hx3, r3, hr3, c3⟩ := hd
  obtain ⟨y, hy, rfl⟩ := map_ok hx2
  obtain ⟨y', hy', rfl⟩ := map_ok hx3
  obtain rfl : y = y' := by rw [hy] at hy'; exact Except.ok.inj hy'
  obtain ⟨w, hw, ws, -⟩ := s5 hf fun h' => ⟨hn.ne', hnt h'⟩
  have hN : 2 * nHalf a ≠ 1 := by omega
  have hs' : w.shape = 2 * nHalf a :: [ref.tau.n, ref.phi.n].filter (· ≠ 1) := by rw [ws, List.filter_cons_of_pos (by simpa using hN)]
  constructor
  · intro hbad
    have e : w.take reorder = .error .indexError := by
      unfold ND.take
      rw [hs']
      exact if_pos hbad
    simp only [compare, compareIntensity, hx, hr1, hy, hr2, hr3, hw, e, bind, Except.bind]
  · intro hgood hne
    have e : ∃ y, w.take reorder = .ok y ∧ y.shape = reorder.n :: [ref.tau.n, ref.phi.n].filter (· ≠ 1) := by
      unfold ND.take
      rw [hs']
      simp only
      rw [if_neg (by push Not; exact hgood)]
      exact ⟨_, rfl, rfl⟩
    obtain ⟨z, hz, hzs⟩ := e
    have e2 : z.reshape [ref.uu.d0, ref.uu.d1, ref.uu.d2] = .error (.valueError "cannot reshape array") := by
      refine if_neg ?_
      rw [hzs, List.prod_cons, prod_filter]
      simp only [List.prod_cons, List.prod_nil, mul_one, ← mul_assoc]
      exact hne.symm
    simp only [compare, compareIntensity, hx, hr1, hy, hr2, hr3, hw, hz, e2, bind, Except.bind]

/-- C93, the meaning of the ratio, as far as it is true: if the largest relative difference is less than `ε`, then every flux whose reference value is
positive is computed to relative accuracy `ε`. Missing: reference values that are zero or negative. -/
theorem C93_ratio_partial {n : ℕ} {ref v : ℕ → ℝ} {r : FluxReport} (h : Compares n ref v r) {ε : ℝ} (hε : r.maxRatio < ε) {t : ℕ} (ht : t < n)
    (hp : 0 < ref t) : |ref t - v t| < ε * ref t := by
  have h1 := h.maxRatio.2 ⟨t, ht, rfl⟩
  rw [relative, if_neg hp.ne', div_le_iff₀ hp] at h1
  nlinarith

/-- The same for intensities. -/
theorem C93_ratio_intensity_partial {tau : A1 ℝ} {mask : A1 Bool} {ref : A3 ℝ} {v : ℕ → ℕ → ℕ → ℝ} {r : IntensityReport}
    (h : ComparesIntensities tau mask ref v r) {ε : ℝ} (hε : r.maxRatio < ε) {i t p : ℕ} (hi : i < mask.n) (hm : mask.get i = true) (ht : t < ref.d1)
    (hp : p < ref.d2) (h0 : 0 < ref.get i t p) : |ref.get i t p - v i t p| < ε * ref.get i t p := by
  have h1 := h.largestRatio.1 i hi hm t ht p hp
  rw [relative, if_neg h0.ne', div_le_iff₀ h0] at h1
  nlinarith

/-- C93 is false where the reference is zero: then the ratio is zero whatever the code computes; so the largest ratio is zero in a comparison with
zeros. A value of a test that should be zero is not tested by its ratio. -/
theorem C93_zero_reference {n : ℕ} {ref v : ℕ → ℝ} {r : FluxReport} (h : Compares n ref v r) :
    (∀ t < n, ref t = 0 → r.ratio.get [t] = 0) ∧ ((∀ t < n, ref t = 0) → r.maxRatio = 0) := by
  have h1 : ∀ t < n, ref t = 0 → relative (ref t) (v t) = 0 := fun t _ h0 => if_pos h0
  refine ⟨fun t ht h0 => (h.ratio t ht).trans (h1 t ht h0), fun h0 => ?_⟩
  obtain ⟨t, ht, e⟩ := h.maxRatio.1
  rw [e]; exact h1 t ht (h0 t ht)

/-- C93 is false where the reference is negative: the ratio is then not positive, however large the difference. -/
theorem C93_negative_reference {n : ℕ} {ref v : ℕ → ℝ} {r : FluxReport} (h : Compares n ref v r) (h0 : ∀ t < n, ref t < 0) : r.maxRatio ≤ 0 := by
  obtain ⟨t, ht, e⟩ := h.maxRatio.1
  rw [e, relative, if_neg (h0 t ht).ne]
  exact div_nonpos_of_nonneg_of_nonpos (abs_nonneg _) (h0 t ht).le

/-- Comparing the lit `demo` atmosphere with a reference that is dark everywhere: the printed ratio for the direct flux is zero although the direct
flux at the top is `mu0 > 0`. -/
theorem C93_false {n : ℕ} (hn : 0 < n) (J : Junk) : ∃ a R F, WellPosed refExt a ∧ pydisort refExt J a = .ok R ∧ Evaluates a R F ∧ nHalf a = n ∧
    ∃ ref r, ref.tau.n = 1 ∧ InRange a ref.tau ∧
      (∀ mask reorder, compare ref mask reorder (R.fluxUpReturned · false) (R.fluxDownReturned · false) none = .ok r) ∧
      r.direct.maxRatio = 0 ∧ r.direct.maxDiff = a.mu0 ∧ 0 < a.mu0 := by
  obtain ⟨x, R, hR, hw, hS, hres⟩ := demo_call hn J
  obtain ⟨U, hU, _⟩ := C02_modes_solve_transfer_equation hR hS hres
  have hF := evaluates hR hres hU
  have hin : InRange (demo n x) ⟨1, fun _ => 0⟩ := fun _ _ => ⟨le_rfl, by simp [demo]⟩
  set ref : Reference := ⟨⟨1, fun _ => 0⟩, ⟨0, fun _ => 0⟩, ⟨1, fun _ => 0⟩, ⟨1, fun _ => 0⟩, ⟨1, fun _ => 0⟩, ⟨0, 0, 0, fun _ _ _ => 0⟩⟩ with href
  have hx : 0 < x := ((hw.accepted.beamDir one_pos).1).1
  have hC : ∀ mask reorder, _ := fun mask reorder => (C93_compare hR hF (ref := ref) hin one_pos rfl rfl rfl mask reorder).1
  obtain ⟨r, hr, _, _, _, hc⟩ := hC ⟨0, fun _ => false⟩ ⟨0, fun _ => 0⟩
  refine ⟨_, R, _, hw, hR, hF, demo_nHalf x, ref, r, rfl, hin, fun mask reorder => hr, (C93_zero_reference hc).2 fun _ _ => rfl, ?_, hx⟩
  obtain ⟨d, C, D, flag, e1, _, _, e4, e5⟩ := C10_direct_flux hR hres ⟨1, fun _ => 0⟩ hin
  obtain ⟨C', D', flag', e1', _, _, e4', e5'⟩ := hF.down ⟨1, fun _ => 0⟩ hin
  rw [e1] at e1'; cases e1'
  have h1 := e5 0 Nat.one_pos
  have h2 := e5' 0 Nat.one_pos
  rw [h1] at h2
  obtain ⟨t, ht, e⟩ := hc.maxDiff.1
  rw [e]
  change |0 - (fieldsOf refExt (demo n x) R U).direct 0| = x
  simp only at h2
  rw [zero_sub, abs_neg, ← h2]
  simp [demo, abs_of_pos hx]

/-- The hypotheses of `C93_compare` are met, for any number of streams, reference values, depths of the `demo` atmosphere and azimuths; the streams in
reverse order, without the first one. -/
example {n P K : ℕ} (hn : 0 < n) (hP : 0 < P) (hK : 0 < K) (J : Junk) (tau : ℕ → ℝ) (ht : ∀ k < K, 0 ≤ tau k ∧ tau k ≤ 1) (phi : ℕ → ℝ)
    (up dn dir : ℕ → ℝ) (uu : ℕ → ℕ → ℕ → ℝ) : ∃ x R r, pydisort refExt J (demo n x) = .ok R ∧
    compare ⟨⟨K, tau⟩, ⟨P, phi⟩, ⟨K, up⟩, ⟨K, dn⟩, ⟨K, dir⟩, ⟨2 * n, K, P, uu⟩⟩ ⟨2 * n, fun i => decide (i ≠ 0)⟩ ⟨2 * n, fun i => 2 * n - 1 - i⟩
      (R.fluxUpReturned · false) (R.fluxDownReturned · false) (some fun tau phi => R.uReturned false tau phi false) = .ok r := by
  obtain ⟨x, R, hR, hw, hS, hres⟩ := demo_call hn J
  obtain ⟨U, hU, _⟩ := C02_modes_solve_transfer_equation hR hS hres
  have hin : InRange (demo n x) ⟨K, tau⟩ := fun k hk => ⟨(ht k hk).1, (ht k hk).2.trans (by simp [demo])⟩
  have hN : nHalf (demo n x) = n := demo_nHalf x
  obtain ⟨r, s, hr, _⟩ := (C93_compare hR (evaluates hR hres hU)
    (ref := ⟨⟨K, tau⟩, ⟨P, phi⟩, ⟨K, up⟩, ⟨K, dn⟩, ⟨K, dir⟩, ⟨2 * n, K, P, uu⟩⟩) hin hK rfl rfl rfl ⟨2 * n, fun i => decide (i ≠ 0)⟩
    ⟨2 * n, fun i => 2 * n - 1 - i⟩).2 rfl (fun h => by cases h) hP (by rw [hN]) rfl rfl (by rw [hN])
    (by rw [hN]; intro k hk; change 2 * n - 1 - k < 2 * n; omega) (by rw [hN]) ⟨1, by omega, by simp⟩
  exact ⟨x, R, r, hR, hr⟩

/-- The hypotheses of the refusals are met: reference intensities for one azimuth too many. -/
example {n P K : ℕ} (hn : 0 < n) (hK : 0 < K) (J : Junk) (tau : ℕ → ℝ) (ht : ∀ k < K, 0 ≤ tau k ∧ tau k ≤ 1) (phi : ℕ → ℝ)
    (up dn dir : ℕ → ℝ) (uu : ℕ → ℕ → ℕ → ℝ) : ∃ x R, pydisort refExt J (demo n x) = .ok R ∧
    compare ⟨⟨K, tau⟩, ⟨P, phi⟩, ⟨K, up⟩, ⟨K, dn⟩, ⟨K, dir⟩, ⟨2 * n, K, P + 1, uu⟩⟩ ⟨2 * n, fun i => decide (i ≠ 0)⟩ ⟨2 * n, fun i => 2 * n - 1 - i⟩
      (R.fluxUpReturned · false) (R.fluxDownReturned · false) (some fun tau phi => R.uReturned false tau phi false)
      = .error (.valueError "cannot reshape array") := by
  obtain ⟨x, R, hR, hw, hS, hres⟩ := demo_call hn J
  obtain ⟨U, hU, _⟩ := C02_modes_solve_transfer_equation hR hS hres
  have hin : InRange (demo n x) ⟨K, tau⟩ := fun k hk => ⟨(ht k hk).1, (ht k hk).2.trans (by simp [demo])⟩
  have hN : nHalf (demo n x) = n := demo_nHalf x
  refine ⟨x, R, hR, (C93_refuses hR (evaluates hR hres hU)
    (ref := ⟨⟨K, tau⟩, ⟨P, phi⟩, ⟨K, up⟩, ⟨K, dn⟩, ⟨K, dir⟩, ⟨2 * n, K, P + 1, uu⟩⟩) hin hK rfl rfl rfl ⟨2 * n, fun i => decide (i ≠ 0)⟩
    ⟨2 * n, fun i => 2 * n - 1 - i⟩ rfl (fun h => by cases h)).2 (by rw [hN]; intro k hk; change 2 * n - 1 - k < 2 * n; omega) ?_⟩
  have h0 : 0 < 2 * n * K := by positivity
  change 2 * n * K * (P + 1) ≠ 2 * n * K * P
  intro e
  have := Nat.eq_of_mul_eq_mul_left h0 e
  omega

end Pydisort

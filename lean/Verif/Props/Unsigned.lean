import Verif.Spec.Unsigned
import Verif.Props.Azimuth
import Verif.Props.Validation

/-!
# C134: layer boundaries passed as unsigned integers
-/

namespace Pydisort
open Finset Spec

variable {E : Ext} {J : Junk} {w : ℕ} {tau : A1 ℕ} {a : Args}

theorem subU_int {x y : ℕ} (hy : y < 2 ^ w) : (subU w x y : ℤ) = ((x : ℤ) - y) % 2 ^ w := by
  unfold subU
  push_cast [Nat.cast_sub hy.le]
  rw [show (x : ℤ) + (2 ^ w - y) = x - y + 2 ^ w * 1 by ring, Int.add_mul_emod_self_left]

theorem subU_of_le {x y : ℕ} (hx : x < 2 ^ w) (hyx : y ≤ x) : (subU w x y : ℝ) = (x : ℝ) - y := by
  have h : (subU w x y : ℤ) = x - y := by
    rw [subU_int (hyx.trans_lt hx), Int.emod_eq_of_lt (by omega)]
    have : (x : ℤ) < 2 ^ w := by exact_mod_cast hx
    omega
  exact_mod_cast h

theorem subU_pos_iff {x y : ℕ} (hx : x < 2 ^ w) (hy : y < 2 ^ w) : 0 < subU w x y ↔ y ≠ x := by
  unfold subU
  rcases lt_trichotomy x y with h | h | h
  · rw [Nat.mod_eq_of_lt (by omega)]; omega
  · subst h; rw [show x + (2 ^ w - x) = 2 ^ w by omega, Nat.mod_self]; simp
  · rw [show x + (2 ^ w - y) = (x - y) + 2 ^ w by omega, Nat.add_mod_right, Nat.mod_eq_of_lt (by omega)]; omega

/-- The thicknesses are those of the floats if the depths do not decrease. -/
theorem thickU_eq_float (hb : FitsIn w tau) (hm : ∀ k, k + 1 < tau.n → tau.get k ≤ tau.get (k + 1)) (hn : tau.n ≠ 0) :
    Args.thickU w tau = (a.withDepths (floatDepths tau)).thick := by
  funext k
  unfold Args.thickU Args.thick
  show _ = if k = 0 then ((tau.get (min 0 (tau.n - 1)) : ℕ) : ℝ) else ((tau.get (min (k - 1 + 1) (tau.n - 1)) : ℕ) : ℝ) - (tau.get (min (k - 1) (tau.n - 1)) : ℕ)
  by_cases h0 : k = 0
  · rw [if_pos h0, if_pos h0, Nat.zero_min]
  · obtain ⟨j, rfl⟩ : ∃ j, k = j + 1 := ⟨k - 1, by omega⟩
    rw [if_neg h0, if_neg h0, Nat.add_sub_cancel]
    by_cases hk : j + 1 < tau.n
    · rw [if_pos hk, subU_of_le (hb _ hk) (hm j hk), show min (j + 1) (tau.n - 1) = j + 1 by omega, show min j (tau.n - 1) = j by omega]
    · rw [if_neg hk, show min (j + 1) (tau.n - 1) = tau.n - 1 by omega, show min j (tau.n - 1) = tau.n - 1 by omega, sub_self]

/-- The thicknesses are those of the unwrapped depths. -/
theorem thickU_eq_unwrapped (hb : FitsIn w tau) (hn : tau.n ≠ 0) : Args.thickU w tau = (a.withDepths (unwrapped w tau)).thick := by
  funext k
  unfold Args.thickU Args.thick
  show _ = if k = 0 then (unwrapped w tau).get 0 else (unwrapped w tau).get (k - 1 + 1) - (unwrapped w tau).get (k - 1)
  by_cases h0 : k = 0
  · rw [if_pos h0, if_pos h0]
    simp only [unwrapped]
    rw [show min (0 + 1) tau.n = 1 by omega]
    simp
  · obtain ⟨j, rfl⟩ : ∃ j, k = j + 1 := ⟨k - 1, by omega⟩
    rw [if_neg h0, if_neg h0, Nat.add_sub_cancel]
    simp only [unwrapped]
    by_cases hk : j + 1 < tau.n
    · rw [if_pos hk, show min (j + 1 + 1) tau.n = j + 1 + 1 by omega, show min (j + 1) tau.n = j + 1 by omega, sum_range_succ _ (j + 1), add_sub_cancel_left,
        if_neg h0, Nat.add_sub_cancel, ← subU_int (hb j (by omega))]
      push_cast; rfl
    · rw [if_neg hk, show min (j + 1 + 1) tau.n = tau.n by omega, show min (j + 1) tau.n = tau.n by omega, sub_self]

theorem validateU_eq {g : Vec} (hpos : (∀ k < tau.n, 0 < (floatDepths tau).get k) ↔ ∀ k < tau.n, 0 < g k)
    (ht : Args.thickU w tau = (a.withDepths ⟨tau.n, g⟩).thick) : Args.validateU w tau a = (a.withDepths ⟨tau.n, g⟩).validate := by
  have h1 : Args.checks1U w tau a = (a.withDepths ⟨tau.n, g⟩).checks1 := by
    unfold Args.checks1U
    rw [ht]
    have e : (∀ k < tau.n, 0 < (floatDepths tau).get k) = ∀ k < tau.n, 0 < g k := propext hpos
    show (∀ k < tau.n, 0 < (floatDepths tau).get k, _) :: _ = _
    rw [e]
    rfl
  unfold Args.validateU Args.validate
  rw [h1]
  rfl

theorem tau0U_eq {g : Vec} (ht : Args.thickU w tau = (a.withDepths ⟨tau.n, g⟩).thick) : Args.tau0U w tau a = (a.withDepths ⟨tau.n, g⟩).tau0 := by
  funext k
  unfold Args.tau0U Args.tau0
  rw [ht]
  rfl

/-- **C134, increasing depths.** Unsigned depths that do not decrease give the same outcome as floats. (Missing: depths that decrease somewhere; see `C134_false`.) -/
theorem C134_increasing_partial (hb : FitsIn w tau) (hm : ∀ k, k + 1 < tau.n → tau.get k ≤ tau.get (k + 1)) :
    pydisortU E J w tau a = pydisort E J (a.withDepths (floatDepths tau)) := by
  by_cases hn : tau.n = 0
  · have h1 : Args.validateU w tau a = .error .indexError := if_pos hn
    have h2 : (a.withDepths (floatDepths tau)).validate = .error .indexError := if_pos hn
    unfold pydisortU pydisort prepareU prepare
    rw [h1, h2]
    rfl
  have ht := thickU_eq_float (a := a) hb hm hn
  have hv : Args.validateU w tau a = (a.withDepths (floatDepths tau)).validate := validateU_eq Iff.rfl ht
  have h0 : Args.tau0U w tau a = (a.withDepths (floatDepths tau)).tau0 := tau0U_eq ht
  have hO : Args.opticsU w tau a = (a.withDepths (floatDepths tau)).optics := by
    unfold Args.opticsU Args.optics
    have htr : Args.translationU w tau a = (a.withDepths (floatDepths tau)).translation := by
      funext k
      unfold Args.translationU Args.translation
      rw [h0]
      rfl
    rw [htr, h0, ht]
    by_cases hf : ∃ k < a.fArr.n, 0 < a.fArr.get k
    · have hf' : ∃ k < (a.withDepths (floatDepths tau)).fArr.n, 0 < (a.withDepths (floatDepths tau)).fArr.get k := hf
      rw [if_pos hf, if_pos hf']
      rfl
    · have hf' : ¬ ∃ k < (a.withDepths (floatDepths tau)).fArr.n, 0 < (a.withDepths (floatDepths tau)).fArr.get k := hf
      rw [if_neg hf]
  unfold pydisortU pydisort prepareU prepare
  rw [hv, hO]
  rfl

theorem unwrapped_step (hb : FitsIn w tau) {k : ℕ} (hk : k + 1 < tau.n) :
    (unwrapped w tau).get (k + 1) - (unwrapped w tau).get k = (subU w (tau.get (k + 1)) (tau.get k) : ℝ) := by
  simp only [unwrapped]
  rw [show min (k + 1 + 1) tau.n = k + 1 + 1 by omega, show min (k + 1) tau.n = k + 1 by omega, sum_range_succ _ (k + 1), add_sub_cancel_left,
    if_neg (Nat.succ_ne_zero k), Nat.add_sub_cancel, ← subU_int (hb k (by omega))]
  push_cast; rfl

theorem unwrapped_zero (hn : tau.n ≠ 0) : (unwrapped w tau).get 0 = tau.get 0 := by
  simp only [unwrapped]
  rw [show min (0 + 1) tau.n = 1 by omega]
  simp

theorem unwrapped_ge (hb : FitsIn w tau) {k : ℕ} (hk : k < tau.n) : (tau.get 0 : ℝ) ≤ (unwrapped w tau).get k := by
  induction k with
  | zero => rw [unwrapped_zero (by omega)]
  | succ k ih =>
    have h := unwrapped_step hb hk
    have h2 := ih (by omega)
    have h3 : (0 : ℝ) ≤ subU w (tau.get (k + 1)) (tau.get k) := Nat.cast_nonneg _
    linarith

/-- As long as the depths have not decreased, nothing has wrapped around. -/
theorem unwrapped_eq (hb : FitsIn w tau) {k : ℕ} (hk : k < tau.n) (hm : ∀ j < k, tau.get j ≤ tau.get (j + 1)) : (unwrapped w tau).get k = tau.get k := by
  induction k with
  | zero => exact unwrapped_zero (by omega)
  | succ k ih =>
    have h := unwrapped_step hb hk
    rw [subU_of_le (hb _ hk) (hm k (by omega)), ih (by omega) fun j hj => hm j (by omega)] at h
    linarith

/-- The requirements other than those on the depths do not depend on the depths. -/
theorem accepted_depths {g g' : Vec} {n : ℕ} (h : Accepted (a.withDepths ⟨n, g⟩)) (h0 : 0 < g' 0) (h1 : ∀ k, k + 1 < n → g' k < g' (k + 1)) :
    Accepted (a.withDepths ⟨n, g'⟩) :=
  { layers := h.layers, top := h0, increasing := h1, omegaLen := h.omegaLen, omega := h.omega, legRows := h.legRows, legCols := h.legCols, legVal := h.legVal,
    peakLen := h.peakLen, peak := h.peak, sourceRows := h.sourceRows, streams := h.streams, modes := h.modes, nLeg := h.nLeg, beam := h.beam, beamDir := h.beamDir,
    bottom := h.bottom, topBC := h.topBC, banded := h.banded }

theorem validateU_unwrapped (hb : FitsIn w tau) (hp : ∀ k < tau.n, 0 < tau.get k) (hn : tau.n ≠ 0) :
    Args.validateU w tau a = (a.withDepths (unwrapped w tau)).validate :=
  validateU_eq (g := (unwrapped w tau).get) ⟨fun _ k hk => lt_of_lt_of_le (by exact_mod_cast hp 0 (by omega)) (unwrapped_ge hb hk),
    fun _ k hk => by
      simp only [floatDepths]
      exact_mod_cast hp _ (by omega)⟩ (thickU_eq_unwrapped hb hn)

theorem unwrapped_increasing (hb : FitsIn w tau) {k : ℕ} (hk : k + 1 < tau.n) :
    (unwrapped w tau).get k < (unwrapped w tau).get (k + 1) ↔ tau.get k ≠ tau.get (k + 1) := by
  rw [← subU_pos_iff (hb _ hk) (hb k (by omega)), ← sub_pos, unwrapped_step hb hk]
  exact Nat.cast_pos

/-- **C134, checks.** The order of unsigned depths is not checked: it is enough that neighbours differ. Otherwise the checks are as for the depths 1, 2, .... -/
theorem C134_order_is_not_checked (hb : FitsIn w tau) :
    Args.validateU w tau a = .ok () ↔ (∀ k < tau.n, 0 < tau.get k) ∧ (∀ k, k + 1 < tau.n → tau.get k ≠ tau.get (k + 1))
      ∧ Accepted (a.withDepths ⟨tau.n, fun k => (k : ℝ) + 1⟩) := by
  constructor
  · intro h
    by_cases hn : tau.n = 0
    · unfold Args.validateU at h
      rw [if_pos hn] at h
      cases h
    have hp : ∀ k < tau.n, 0 < tau.get k := by
      unfold Args.validateU at h
      rw [if_neg hn] at h
      rcases runChecks_cases (Args.checks1U w tau a) with h1 | ⟨m, h1⟩
      · have := runChecks_ok.1 h1 (∀ k < tau.n, 0 < (floatDepths tau).get k, "tau values cannot be non-positive.") (List.mem_cons_self)
        intro k hk
        have h2 := this k hk
        simp only [floatDepths, show min k (tau.n - 1) = k by omega] at h2
        exact_mod_cast h2
      · rw [h1] at h; cases h
    rw [validateU_unwrapped hb hp hn, Args.validate_iff] at h
    exact ⟨hp, fun k hk => (unwrapped_increasing hb hk).1 (h.increasing k hk),
      accepted_depths h (by norm_num) fun k _ => by push_cast; linarith⟩
  · rintro ⟨hp, hne, h⟩
    have hn : tau.n ≠ 0 := h.layers.ne'
    rw [validateU_unwrapped hb hp hn, Args.validate_iff]
    exact accepted_depths h (by show 0 < (unwrapped w tau).get 0; rw [unwrapped_zero hn]; exact_mod_cast hp 0 (by omega)) fun k hk => (unwrapped_increasing hb hk).2 (hne k hk)

/-- With a source that is constant within each layer nothing but the thicknesses enters the preparations. -/
theorem opticsU_eq {g : Vec} (ht : Args.thickU w tau = (a.withDepths ⟨tau.n, g⟩).thick) (hc : a.s.c ≤ 1) (hf : ∃ k < a.fArr.n, 0 < a.fArr.get k) :
    Args.opticsU w tau a = (a.withDepths ⟨tau.n, g⟩).optics := by
  have hf' : ∃ k < (a.withDepths ⟨tau.n, g⟩).fArr.n, 0 < (a.withDepths ⟨tau.n, g⟩).fArr.get k := hf
  have haff : ∀ (x b b' : Vec), affineTransform a.s ⟨tau.n, x⟩ ⟨tau.n, b⟩ = affineTransform a.s ⟨tau.n, x⟩ ⟨tau.n, b'⟩ := by
    intro x b b'
    have : ∀ y z z' : ℝ, ∀ i, ∀ j < a.s.c, affineT y z i j = affineT y z' i j := by
      intro y z z' i j hj
      have : j = 0 := by omega
      subst this
      unfold affineT
      rcases i with _ | i
      · simp
      · simp [Nat.choose_eq_zero_of_lt (Nat.succ_pos i)]
    unfold affineTransform
    congr 1
    rcases bdim tau.n tau.n with e | d
    · rfl
    show (bdim d a.s.r >>= _) = (bdim d a.s.r >>= _)
    congr 1
    funext r
    congr 2
    funext l i
    exact sum_congr rfl fun j hj => by rw [this _ _ (b' (bix tau.n (bix d l))) i j (mem_range.1 hj)]
  unfold Args.opticsU Args.optics
  rw [if_pos hf, if_pos hf', haff _ _ (a.withDepths ⟨tau.n, g⟩).translation, tau0U_eq ht, ht]
  rfl

/-- The functions that are returned, with other entries of `tau_arr`. -/
noncomputable def Solved.withTau (R : Solved) (g : Vec) : Solved :=
  { R with I := { R.I with tauArr := g }, nt := R.nt.map fun T => { T with tauArr := g } }

theorem pydisortU_eq (hb : FitsIn w tau) (hp : ∀ k < tau.n, 0 < tau.get k) (hc : a.s.c ≤ 1) (hf : ∃ k < a.fArr.n, 0 < a.fArr.get k) :
    pydisortU E J w tau a = (pydisort E J (a.withDepths (unwrapped w tau))).map fun R => R.withTau (floatDepths tau).get := by
  by_cases hn : tau.n = 0
  · have h1 : Args.validateU w tau a = .error .indexError := if_pos hn
    have h2 : (a.withDepths (unwrapped w tau)).validate = .error .indexError := if_pos hn
    unfold pydisortU pydisort prepareU prepare
    rw [h1, h2]
    rfl
  have hv := validateU_unwrapped (a := a) hb hp hn
  have hO : Args.opticsU w tau a = (a.withDepths (unwrapped w tau)).optics := opticsU_eq (thickU_eq_unwrapped (a := a) hb hn) hc hf
  unfold pydisortU pydisort prepareU prepare
  rw [hv, hO]
  rcases (a.withDepths (unwrapped w tau)).validate with e | ⟨⟩
  · rfl
  have hq : (a.withDepths (floatDepths tau)).quad E = (a.withDepths (unwrapped w tau)).quad E := rfl
  rw [hq]
  rcases (a.withDepths (unwrapped w tau)).quad E with e | q
  · rfl
  rcases (a.withDepths (unwrapped w tau)).optics with e | O
  · rfl
  have hr : (a.withDepths (floatDepths tau)).rescaleFactor O = (a.withDepths (unwrapped w tau)).rescaleFactor O := rfl
  show ((a.withDepths (floatDepths tau)).rescaleFactor O >>= _ >>= _ : Py _) = Except.map _ ((a.withDepths (unwrapped w tau)).rescaleFactor O >>= _ >>= _)
  rw [hr]
  rcases (a.withDepths (unwrapped w tau)).rescaleFactor O with e | r
  · rfl
  have hS : solveAll E J ((a.withDepths (floatDepths tau)).asmIn q.1.get q.2.get O r) = solveAll E J ((a.withDepths (unwrapped w tau)).asmIn q.1.get q.2.get O r) := rfl
  show (solveAll E J ((a.withDepths (floatDepths tau)).asmIn q.1.get q.2.get O r) >>= _ : Py _) = _
  rw [hS]
  show _ = Except.map _ (solveAll E J ((a.withDepths (unwrapped w tau)).asmIn q.1.get q.2.get O r) >>= _)
  rcases solveAll E J ((a.withDepths (unwrapped w tau)).asmIn q.1.get q.2.get O r) with e | S
  · rfl
  show Except.ok _ = Except.ok _
  congr 1
  unfold Solved.withTau
  by_cases hg : (a.withDepths (floatDepths tau)).NTGate
  · have hg' : (a.withDepths (unwrapped w tau)).NTGate := hg
    rw [if_pos hg, if_pos hg']
    rfl
  · have hg' : ¬ (a.withDepths (unwrapped w tau)).NTGate := hg
    rw [if_neg hg, if_neg hg']
    rfl

/-- Depths above a boundary down to which two arrays of boundaries agree lie in the same layers. -/
theorem layer_agree {I : AsmIn} {g : Vec} {k₀ : ℕ} (hk : k₀ < I.NLayers) (hg : ∀ k ≤ k₀, g k = I.tauArr k) {t : ℝ} (ht : t ≤ I.tauArr k₀) :
    ({ I with tauArr := g } : AsmIn).layer t = I.layer t ∧ I.layer t ≤ k₀ := by
  classical
  have h : ∃ k, k < I.NLayers ∧ t ≤ I.tauArr k := ⟨k₀, hk, ht⟩
  have hl : I.layer t = Nat.find h := by unfold AsmIn.layer argmaxTrue; rw [dif_pos h]
  have hle : Nat.find h ≤ k₀ := Nat.find_min' h ⟨hk, ht⟩
  refine ⟨?_, hl ▸ hle⟩
  rw [hl]
  refine argmaxTrue_eq (Nat.find_spec h).1 ?_ fun j hj hc => Nat.find_min h hj ⟨by have := Nat.find_spec h; omega, ?_⟩
  · show t ≤ g _
    rw [hg _ hle]; exact (Nat.find_spec h).2
  · rw [← hg j (by omega)]; exact hc

theorem eval_agree {I : AsmIn} {g : Vec} {k₀ : ℕ} (hk : k₀ < I.NLayers) (hg : ∀ k ≤ k₀, g k = I.tauArr k) {t : ℝ} (ht : t ≤ I.tauArr k₀)
    (h1 : t ≤ I.tauArr (I.NLayers - 1)) (h2 : t ≤ g (I.NLayers - 1)) (S : Sols) (anti : Bool) :
    ({ I with tauArr := g } : AsmIn).u0 S ⟨1, fun _ => t⟩ anti = I.u0 S ⟨1, fun _ => t⟩ anti ∧
    ({ I with tauArr := g } : AsmIn).fluxUp S ⟨1, fun _ => t⟩ anti = I.fluxUp S ⟨1, fun _ => t⟩ anti ∧
    ({ I with tauArr := g } : AsmIn).fluxDown S ⟨1, fun _ => t⟩ anti = I.fluxDown S ⟨1, fun _ => t⟩ anti := by
  obtain ⟨hl, hle⟩ := layer_agree hk hg ht
  have hst : ({ I with tauArr := g } : AsmIn).scaledTau t = I.scaledTau t := by
    unfold AsmIn.scaledTau
    rw [hl]
    simp only [hg _ hle]
  have hck : ({ I with tauArr := g } : AsmIn).checkTau ⟨1, fun _ => t⟩ = I.checkTau ⟨1, fun _ => t⟩ := by
    unfold AsmIn.checkTau
    congr 1
    refine propext ⟨?_, ?_⟩
    · rintro (h | ⟨_, _, h⟩)
      · exact Or.inl h
      · exact absurd h (not_lt.2 h2)
    · rintro (h | ⟨_, _, h⟩)
      · exact Or.inl h
      · exact absurd h (not_lt.2 h1)
  have hu : ∀ m i, ({ I with tauArr := g } : AsmIn).umPlain S m i t = I.umPlain S m i t := fun m i => by
    simp only [AsmIn.umPlain, AsmIn.exponent, hl, hst]
  have ha : ∀ m i, ({ I with tauArr := g } : AsmIn).umAnti S m i t = I.umAnti S m i t := fun m i => by
    simp only [AsmIn.umAnti, AsmIn.exponent, hl, hst]
  have hi : ∀ r0 r1 x, ({ I with tauArr := g } : AsmIn).addIso S ⟨1, fun _ => t⟩ anti r0 r1 x = I.addIso S ⟨1, fun _ => t⟩ anti r0 r1 x := fun r0 r1 x => by
    simp only [AsmIn.addIso, AsmIn.isoPart, A1.map, hl, hst]
  refine ⟨?_, ?_, ?_⟩
  · simp only [AsmIn.u0, hck, hi, AsmIn.u0Raw, hu, ha]
  · simp only [AsmIn.fluxUp, hck, hi, hu, ha]
    rfl
  · simp only [AsmIn.fluxDown, hck, hi, AsmIn.fluxDownRaw, AsmIn.fluxDownAntiBeam, AsmIn.exponent, A1.map, AsmIn.direct, AsmIn.directScaled, hu, ha, hl, hst]
    rfl

/-- **C134, what is solved.** With delta-M scaling and sources that are constant within each layer (the default is none): whatever the order of the unsigned depths, if the call returns, it has solved
the atmosphere whose layers have the thicknesses modulo `2^w`; at the depths above a boundary down to which the depths do not decrease, the returned functions give the values for that atmosphere. -/
theorem C134_wrapped (hb : FitsIn w tau) (hc : a.s.c ≤ 1) (hf : ∃ k < a.fArr.n, 0 < a.fArr.get k) {R : Solved} (h : pydisortU E J w tau a = .ok R) :
    ∃ R', pydisort E J (a.withDepths (unwrapped w tau)) = .ok R' ∧
      ∀ k₀ < tau.n, (∀ k < k₀, tau.get k ≤ tau.get (k + 1)) → ∀ t : ℝ, t ≤ tau.get k₀ → t ≤ tau.get (tau.n - 1) → ∀ anti,
        R.I.u0 R.S ⟨1, fun _ => t⟩ anti = R'.I.u0 R'.S ⟨1, fun _ => t⟩ anti ∧
        R.I.fluxUp R.S ⟨1, fun _ => t⟩ anti = R'.I.fluxUp R'.S ⟨1, fun _ => t⟩ anti ∧
        R.I.fluxDown R.S ⟨1, fun _ => t⟩ anti = R'.I.fluxDown R'.S ⟨1, fun _ => t⟩ anti := by
  have hv : Args.validateU w tau a = .ok () := by
    unfold pydisortU prepareU at h
    rcases h1 : Args.validateU w tau a with e | u
    · rw [h1] at h; cases h
    · rfl
  have hp := ((C134_order_is_not_checked hb).1 hv).1
  rw [pydisortU_eq hb hp hc hf] at h
  rcases h1 : pydisort E J (a.withDepths (unwrapped w tau)) with e | R'
  · rw [h1] at h; cases h
  rw [h1] at h
  cases h
  refine ⟨R', rfl, fun k₀ hk hm t ht htl anti => ?_⟩
  obtain ⟨hacc, O, r, hO, hr, hI, -⟩ := pydisort_ok h1
  have hNL : R'.I.NLayers = tau.n := by rw [hI]; rfl
  have hTA : R'.I.tauArr = (unwrapped w tau).get := by rw [hI]; rfl
  have hk₀ : R'.I.tauArr k₀ = tau.get k₀ := by rw [hTA]; exact unwrapped_eq hb hk hm
  refine eval_agree (k₀ := k₀) (by rw [hNL]; exact hk) (fun k hkk => ?_) (by rw [hk₀]; exact ht) ?_ ?_ R'.S anti
  · rw [hTA, unwrapped_eq hb (by omega) fun j hj => hm j (by omega)]
    simp only [floatDepths]
    rw [show min k (tau.n - 1) = k by omega]
  · rw [hNL, hTA]
    refine ht.trans (le_of_eq (unwrapped_eq hb hk hm).symm |>.trans ?_)
    have hmono : ∀ j, k₀ + j < tau.n → (unwrapped w tau).get k₀ ≤ (unwrapped w tau).get (k₀ + j) := by
      intro j
      induction j with
      | zero => intro _; exact le_rfl
      | succ j ih =>
        intro hj
        have h2 := unwrapped_step (w := w) hb (k := k₀ + j) (by omega)
        have h3 : (0 : ℝ) ≤ subU w (tau.get (k₀ + j + 1)) (tau.get (k₀ + j)) := Nat.cast_nonneg _
        have := ih (by omega)
        rw [← Nat.add_assoc]
        linarith
    have := hmono (tau.n - 1 - k₀) (by omega)
    rwa [show k₀ + (tau.n - 1 - k₀) = tau.n - 1 by omega] at this
  · rw [hNL]
    simp only [floatDepths, min_self]
    exact htl

/-! ## The order of the depths -/

section
variable {n : ℕ}

/-- `demoFull` without internal sources, with the given depths. -/
noncomputable def demoDepths (n : ℕ) (x : ℝ) (g : Vec) : Args := { demoFull n x with tauArr := ⟨2, g⟩, s := ⟨1, 1, fun _ _ => 0⟩ }

theorem demoDepths_accepted (hn : 0 < n) {x : ℝ} (h0 : 0 < x) (h1 : x ≤ 1) {g : Vec} (hg0 : 0 < g 0) (hg1 : g 0 < g 1) : Accepted (demoDepths n x g) :=
  { demoFull_accepted hn h0 h1 with
    top := hg0
    increasing := fun k hk => by
      have hk' : k + 1 < 2 := hk
      obtain rfl : k = 0 := by omega
      exact hg1
    sourceRows := Or.inl fun _ _ _ _ => rfl }

theorem demoDepths_wellPosed (hn : 0 < n) {g : Vec} (hg0 : 0 < g 0) (hg1 : g 0 < g 1) : ∃ x, 0 < x ∧ x ≤ 1 ∧ WellPosed refExt (demoDepths n x g) := by
  obtain ⟨x, h0, h1, hb⟩ := exists_beamRegular (demoDepths n 1 g) (node refExt (demoDepths n 1 g)) (weight refExt (demoDepths n 1 g))
  have hh : nHalf (demoDepths n x g) = n := demo_nHalf x
  refine ⟨x, h0, h1, (C65_physical_problems_are_well_posed (demoDepths_accepted hn h0 h1 hg0 hg1) (by rw [hh]; exact refExt_gauss hn) refExt_eig ?_
    (demoFull_nonneg hn x) hb (demoFull_rho x) ⟨(demoFull_surface hn x).1, (demoFull_surface hn x).2, (demoFull_surface hn x).3⟩ (fun _ _ _ _ => rfl) trivial trivial (Or.inl rfl) (Or.inl fun _ _ _ _ => rfl) (fun h => ?_)).1⟩
  · intro l hl
    rw [show peak (demoDepths n x g) l = 1 / 8 from demo_peak (n := n) (x := x) hl]; norm_num
  · simp [demoDepths, demoFull, demoMild, demo] at h

/-- **C134, negation.** The depths 2, 1 are refused as floats; as unsigned integers of `w` bits they are accepted, and down to the depth 1 the results are those for the depths 2, 2^w + 1. -/
theorem C134_false (hn : 0 < n) (hw : 2 ≤ w) (J : Junk) : ∃ (a : Args) (tau : A1 ℕ) (R R' : Solved), tau.n = 2 ∧ tau.get 0 = 2 ∧ tau.get 1 = 1 ∧ FitsIn w tau
    ∧ pydisort refExt J (a.withDepths (floatDepths tau)) = .error (.valueError "Layer thicknesses cannot be non-positive.")
    ∧ pydisortU refExt J w tau a = .ok R
    ∧ pydisort refExt J (a.withDepths ⟨2, fun k => if k = 0 then 2 else 2 ^ w + 1⟩) = .ok R'
    ∧ ∀ t : ℝ, t ≤ 1 → ∀ anti,
        R.I.u0 R.S ⟨1, fun _ => t⟩ anti = R'.I.u0 R'.S ⟨1, fun _ => t⟩ anti ∧
        R.I.fluxUp R.S ⟨1, fun _ => t⟩ anti = R'.I.fluxUp R'.S ⟨1, fun _ => t⟩ anti ∧
        R.I.fluxDown R.S ⟨1, fun _ => t⟩ anti = R'.I.fluxDown R'.S ⟨1, fun _ => t⟩ anti := by
  have hw4 : (4 : ℕ) ≤ 2 ^ w := by
    calc 4 = 2 ^ 2 := by norm_num
      _ ≤ 2 ^ w := Nat.pow_le_pow_right (by norm_num) hw
  have hw4' : (4 : ℝ) ≤ 2 ^ w := by exact_mod_cast hw4
  obtain ⟨x, h0, h1, hwp⟩ := demoDepths_wellPosed (n := n) hn (g := fun k => if k = 0 then (2 : ℝ) else 2 ^ w + 1) (by norm_num) (by norm_num; linarith)
  obtain ⟨R', hR'⟩ := C65_well_posed_call_returns hwp J
  set tau : A1 ℕ := ⟨2, fun k => if k = 0 then 2 else 1⟩ with htau
  have hb : FitsIn w tau := fun k _ => by
    simp only [htau]
    split_ifs <;> omega
  have hp : ∀ k < tau.n, 0 < tau.get k := fun k _ => by
    simp only [htau]
    split_ifs <;> norm_num
  have hu : unwrapped w tau = ⟨2, fun k => if k = 0 then (2 : ℝ) else 2 ^ w + 1⟩ := by
    unfold unwrapped
    congr 1
    funext k
    simp only [htau]
    have hm : ((1 : ℤ) - 2) % 2 ^ w = 2 ^ w - 1 := by
      have h4 : (4 : ℤ) ≤ 2 ^ w := by exact_mod_cast hw4
      rw [show (1 : ℤ) - 2 = (2 ^ w - 1) + 2 ^ w * (-1) by ring, Int.add_mul_emod_self_left, Int.emod_eq_of_lt (by omega) (by omega)]
    rcases k with _ | k
    · simp
    · rw [show min (k + 1 + 1) 2 = 2 by omega, if_neg (Nat.succ_ne_zero k), sum_range_succ, sum_range_one]
      simp only [if_true, one_ne_zero, if_false, Nat.sub_self, Nat.cast_one, Nat.cast_ofNat, hm]
      push_cast
      ring
  have hcall : pydisort refExt J ((demoDepths n x fun _ => 0).withDepths (unwrapped w tau)) = .ok R' := by rw [hu]; exact hR'
  have hf : ∃ k < (demoDepths n x fun _ => 0).fArr.n, 0 < (demoDepths n x fun _ => 0).fArr.get k := ⟨0, by simp [demoDepths, demoFull, demoMild, demo]⟩
  have hU := pydisortU_eq (E := refExt) (J := J) (a := demoDepths n x fun _ => 0) hb hp le_rfl hf
  rw [hcall] at hU
  obtain ⟨R'', hR'', hev⟩ := C134_wrapped hb le_rfl hf hU
  rw [hcall] at hR''
  cases hR''
  refine ⟨demoDepths n x fun _ => 0, tau, _, R', rfl, rfl, rfl, hb, ?_, hU, hR', fun t ht => hev 0 (by norm_num [htau]) (fun k hk => absurd hk (Nat.not_lt_zero k)) t ?_ ?_⟩
  · refine ((C27_validation (E := refExt) (J := J) (a := (demoDepths n x fun _ => 0).withDepths (floatDepths tau)) (by simp [Args.withDepths, floatDepths, htau])).2.2 _).2
      ⟨1, _, rfl, fun h => ?_, fun j hj q m hq => ?_⟩
    · have := h 0 (by simp [Args.withDepths, floatDepths, htau])
      norm_num [Args.withDepths, floatDepths, htau] at this
    · obtain rfl : j = 0 := by omega
      simp only [requirements, List.getElem?_cons_zero, Option.some.injEq, Prod.mk.injEq] at hq
      rw [← hq.1]
      intro k _
      show (0 : ℝ) < (tau.get _ : ℝ)
      exact_mod_cast hp _ (by simp only [htau]; omega)
  · norm_num [htau]; linarith
  · norm_num [htau]; linarith

/-- The hypotheses of the first theorem are met by depths for which the call returns. -/
example (hn : 0 < n) (hw : 2 ≤ w) (J : Junk) : ∃ (a : Args) (tau : A1 ℕ) (R : Solved), tau.n = 2 ∧ FitsIn w tau ∧ (∀ k, k + 1 < tau.n → tau.get k ≤ tau.get (k + 1))
    ∧ pydisortU refExt J w tau a = .ok R := by
  have hw4 : (4 : ℕ) ≤ 2 ^ w := by
    calc 4 = 2 ^ 2 := by norm_num
      _ ≤ 2 ^ w := Nat.pow_le_pow_right (by norm_num) hw
  obtain ⟨x, -, -, hwp⟩ := demoDepths_wellPosed (n := n) hn (g := fun k => ((min k 1 + 1 : ℕ) : ℝ)) (by norm_num) (by norm_num)
  obtain ⟨R, hR⟩ := C65_well_posed_call_returns hwp J
  have hb : FitsIn w ⟨2, fun k => k + 1⟩ := fun k hk => by
    have : k < 2 := hk
    show k + 1 < _
    omega
  exact ⟨demoDepths n x fun _ => 0, ⟨2, fun k => k + 1⟩, R, rfl, hb, fun _ _ => Nat.le_succ _, (C134_increasing_partial hb fun _ _ => Nat.le_succ _).trans hR⟩

end

end Pydisort

import Verif.EndlessFinite
import Verif.EndlessUnique
import Verif.Props.Thick

/-!
# C127: a last boundary at infinity

Specification used: `Spec.IsDeepMode`, `Spec.Unscaled`, `Spec.ReturnsModes`, `Spec.ReturnsNaN`, `Spec.lowestTop`.
-/

namespace Pydisort
open Finset Spec Filter
open scoped Topology

variable {E : Ext} {a : Args}

/-- **C127, the solution.** Every Fourier mode of the problem without lower end has exactly one solution. -/
theorem C127_one_solution (hw : WellPosed E a) (hns : NoSource a) (hres : Rescalable a) {m : ℕ} (hm : m < nFourier a) :
    (∃ V, IsDeepMode a (node E a) (weight E a) m V) ∧
    ∀ V W, IsDeepMode a (node E a) (weight E a) m V → IsDeepMode a (node E a) (weight E a) m W → ∀ t, 0 ≤ t → ∀ i < 2 * nHalf a, V t i = W t i := by
  refine ⟨?_, fun V W hV hW => deepMode_unique hw hm hV hW⟩
  obtain ⟨O, r, out, C, GC, hO, hr, hsp, _, _, h⟩ := endless_call hw hns noJunk
  obtain ⟨R, X, bneg, bpos, hbn, hC⟩ := h m hm
  obtain ⟨h1, h2⟩ := endU_conditions hw hres hO hr hsp hm hbn hC
  exact ⟨_, endV_isDeepMode hw hns hres hO hr hsp hm h1 h2⟩

/-- **C127.** With infinity as the last entry of `tau_arr` and without delta-M scaling, the call succeeds, and at every depth the returned functions yield the intensity and the fluxes of
the atmosphere whose lowest layer has no lower end. -/
theorem C127_bottom_at_infinity (hw : WellPosed E a) (hns : NoSource a) (hres : Rescalable a) (hu : Unscaled a) (J : Junk) :
    ∃ I V, pydisortLast E J a .pinf = .ok I ∧ (∀ m < nFourier a, IsDeepMode a (node E a) (weight E a) m (V m)) ∧
      ReturnsModes a (node E a) (weight E a) I (fun t => 0 ≤ t) V := by
  obtain ⟨O, r, out, C, GC, hO, hr, hsp, hcall, hGC, h⟩ := endless_call hw hns J
  refine ⟨_, fun m => endV a (a.asm E O r) out C m, hcall, fun m hm => ?_, endF_returns hw hns hres hO hr hsp hGC fun t ht => ⟨ht, Or.inr hu⟩⟩
  obtain ⟨R, X, bneg, bpos, hbn, hC⟩ := h m hm
  obtain ⟨h1, h2⟩ := endU_conditions hw hres hO hr hsp hm hbn hC
  exact endV_isDeepMode hw hns hres hO hr hsp hm h1 h2

/-- Above the lowest layer. -/
theorem endLayer_above (hacc : Accepted a) {t : ℝ} (h0 : 0 ≤ t) (ht : t ≤ lowestTop a) (hn : 1 < a.tauArr.n) : endLayer a t + 1 < a.tauArr.n := by
  obtain ⟨l, hl, h1, h2, h3⟩ := exists_endLayer hacc h0
  rw [h3]
  rcases h1 with h1 | h1
  · by_contra hc
    rw [show l = a.tauArr.n - 1 by omega] at h1
    exact absurd h1 (not_lt.2 ht)
  · omega

theorem endLayer_below (hacc : Accepted a) {t : ℝ} (ht : lowestTop a < t ∨ a.tauArr.n = 1) : endLayer a t = a.tauArr.n - 1 := by
  have hn := hacc.layers
  refine endLayer_eq hacc (by omega) ?_ fun h => by omega
  rcases ht with ht | ht
  · exact Or.inl ht
  · exact Or.inr (by omega)

/-- **C127, delta-M scaling.** If a layer is scaled, the functions returned by the call yield the same above the lowest layer, but NaN at all depths in the lowest layer. -/
theorem C127_scaled (hw : WellPosed E a) (hns : NoSource a) (hres : Rescalable a) (hu : ¬ Unscaled a) (J : Junk) :
    ∃ I V, pydisortLast E J a .pinf = .ok I ∧ (∀ m < nFourier a, IsDeepMode a (node E a) (weight E a) m (V m)) ∧
      ReturnsModes a (node E a) (weight E a) I (fun t => 0 ≤ t ∧ t ≤ lowestTop a ∧ 1 < a.tauArr.n) V ∧
      ReturnsNaN a I (fun t => 0 ≤ t ∧ (lowestTop a < t ∨ a.tauArr.n = 1)) := by
  obtain ⟨O, r, out, C, GC, hO, hr, hsp, hcall, hGC, h⟩ := endless_call hw hns J
  refine ⟨_, fun m => endV a (a.asm E O r) out C m, hcall, fun m hm => ?_,
    endF_returns hw hns hres hO hr hsp hGC fun t ht => ⟨ht.1, Or.inl (endLayer_above hw.accepted ht.1 ht.2.1 ht.2.2)⟩,
    endF_returnsNaN hw hO hu fun t ht => ⟨ht.1, endLayer_below hw.accepted ht.2⟩⟩
  obtain ⟨R, X, bneg, bpos, hbn, hC⟩ := h m hm
  obtain ⟨h1, h2⟩ := endU_conditions hw hres hO hr hsp hm hbn hC
  exact endV_isDeepMode hw hns hres hO hr hsp hm h1 h2

/-- **C127, the depth infinity.** It passes the range check, but the intensity there is NaN. -/
theorem C127_at_infinity (hw : WellPosed E a) (hns : NoSource a) {J : Junk} {I : AsmF} (hI : pydisortLast E J a .pinf = .ok I) :
    ∃ A, I.u0 ⟨1, fun _ => .pinf⟩ = .ok A ∧ A.r = 2 * nHalf a ∧ A.c = 1 ∧ ∀ i < 2 * nHalf a, A.get i 0 = .nan := by
  obtain ⟨O, r, out, C, GC, hO, hr, hsp, hcall, hGC, h⟩ := endless_call hw hns J
  rw [hcall] at hI
  cases hI
  have hacc := hw.accepted
  have hn := hacc.layers
  have hs := Args.optics_spec hacc hO
  have hN : 0 < nHalf a := streams_pos hacc
  have hlay : (endF E a O r out GC).layer .pinf = a.tauArr.n - 1 := by
    refine argmaxTrue_eq (show a.tauArr.n - 1 < a.tauArr.n by omega) ?_ fun j hj h => ?_
    · change Fl.le .pinf (a.tauF .pinf (a.tauArr.n - 1))
      unfold Args.tauF
      rw [if_pos (by omega)]
      exact Or.inr trivial
    · change Fl.le .pinf (a.tauF .pinf j) at h
      unfold Args.tauF at h
      rw [if_neg (by omega)] at h
      rcases h with h | h <;> exact h
  have hum : ∀ i, (endF E a O r out GC).um 0 i .pinf = .nan := by
    intro i
    unfold AsmF.um
    have : (Fl.sum (2 * (endF E a O r out GC).N) fun j => Fl.mul ((endF E a O r out GC).GC 0 ((endF E a O r out GC).layer .pinf) i j) (Fl.exp ((endF E a O r out GC).exponent 0 .pinf j))) = .nan := by
      refine Fl.sum_nan (k := nHalf a) (by change nHalf a < 2 * nHalf a; omega) ?_
      have hst : Fl.sub ((endF E a O r out GC).scaledTau .pinf) .pinf = .nan := by
        unfold AsmF.scaledTau
        by_cases hu : Unscaled a
        · refine (congrArg (fun x => Fl.sub x .pinf) (if_neg fun h => (endF_scaled_any hs).1 h hu)).trans ?_
          rfl
        · refine (congrArg (fun x => Fl.sub x .pinf) (if_pos ((endF_scaled_any hs).2 hu))).trans ?_
          rw [hlay]
          have e : (endF E a O r out GC).tauArr (a.tauArr.n - 1) = .pinf := by
            change a.tauF .pinf (a.tauArr.n - 1) = _
            unfold Args.tauF
            rw [if_pos (by omega)]
          rw [e, show Fl.sub .pinf .pinf = .nan from rfl]
          simp
      unfold AsmF.exponent
      have hno : ¬ nHalf a < (endF E a O r out GC).N := lt_irrefl _
      rw [if_neg hno, hlay]
      have e : (endF E a O r out GC).tau0 (a.tauArr.n - 1 + 1) = .pinf := by
        rw [show a.tauArr.n - 1 + 1 = a.tauArr.n by omega]
        exact tau0F_last hacc hs hO
      rw [e, hst]
      simp [Fl.exp]
    simp only [this, Fl.nan_add]
    split_ifs <;> rfl
  have hc : (endF E a O r out GC).checkTau ⟨1, fun _ => .pinf⟩ = .ok () := by
    unfold AsmF.checkTau
    refine if_neg ?_
    rintro (⟨k, hk, h1⟩ | ⟨k, hk, h1⟩)
    · exact h1
    · change Fl.lt (a.tauF .pinf (a.tauArr.n - 1)) .pinf at h1
      unfold Args.tauF at h1
      rw [if_pos (by omega)] at h1
      exact h1
  refine ⟨_, by unfold AsmF.u0; rw [hc]; rfl, rfl, rfl, fun i hi => ?_⟩
  change Fl.mul (.fin r) ((endF E a O r out GC).um 0 i .pinf) = _
  rw [hum]; simp

theorem isDeepMode_zero {mu w : Vec} {V : ℝ → ℕ → ℝ} : IsDeepMode a mu w 0 V ↔ IsDeepSolution a mu w V :=
  ⟨fun h => ⟨h.cont, h.ode, h.top, h.bounded⟩, fun h => ⟨h.cont, h.ode, h.top, h.bounded⟩⟩

theorem tameBelow_of (hns : NoSource a) : TameBelow a := ⟨0, fun t _ => by
  unfold source
  split_ifs with h
  · refine le_of_eq ?_
    rw [abs_eq_zero]
    exact sum_eq_zero fun k hk => by rw [hns _ h k (mem_range.1 hk), zero_mul]
  · simp⟩

/-- **C127, the limit of thick layers.** The averaged intensities that calls return for an atmosphere whose lowest layer ends at larger and larger depths approach the one returned with
infinity as the last entry of `tau_arr`, whatever lies below, as long as it is not brighter and brighter; likewise the upward flux. -/
theorem C127_limit (hw : WellPosed E a) (hns : NoSource a) (hres : Rescalable a) {bp : ℕ → BCv} {bd : ℕ → List BDRFMode} {T : ℕ → ℝ} (hT : ∀ k, lowestTop a < T k)
    (hlim : Tendsto T atTop atTop) (hwk : ∀ k, WellPosed E (deepened a (T k) (bp k) (bd k))) (hrk : ∀ k, Rescalable (deepened a (T k) (bp k) (bd k)))
    (hsc : NonnegScattering a (node E a)) {rho : ℕ → ℕ → ℝ → ℝ → ℝ} (hrho : ∀ k, SurfaceIs (deepened a (T k) (bp k) (bd k)) (rho k))
    (hsf : ∀ k, FairSurface (deepened a (T k) (bp k) (bd k)) (node E a) (weight E a) (rho k 0)) {B : ℝ} (hB : 0 ≤ B)
    (hem : ∀ k, EmitsBelow (deepened a (T k) (bp k) (bd k)) (node E a) (weight E a) (rho k 0) B) {J : ℕ → Junk} {R : ℕ → Solved}
    (h : ∀ k, pydisort E (J k) (deepened a (T k) (bp k) (bd k)) = .ok (R k)) {F : ℕ → Fields} (hF : ∀ k, Evaluates (deepened a (T k) (bp k) (bd k)) (R k) (F k))
    {J' : Junk} {I : AsmF} (hI : pydisortLast E J' a .pinf = .ok I) {t : ℝ} (h0 : 0 ≤ t) (ht : Unscaled a ∨ (t ≤ lowestTop a ∧ 1 < a.tauArr.n)) :
    (∃ A, I.u0 ⟨1, fun _ => .fin t⟩ = .ok A ∧ ∀ i < 2 * nHalf a, ∃ v, A.get i 0 = .fin v ∧ Tendsto (fun k => (F k).u0 t i) atTop (𝓝 v)) ∧
    ∃ A, I.fluxUp ⟨1, fun _ => .fin t⟩ = .ok A ∧ ∃ v, A.get 0 = .fin v ∧ Tendsto (fun k => (F k).up t) atTop (𝓝 v) := by
  have hacc := hw.accepted
  have hF0 : 0 < nFourier a := by
    obtain ⟨R, hR⟩ := pydisort_isOk hw noJunk
    exact nFourier_pos hR hw.sound
  obtain ⟨V, D, hV, hD, hDt⟩ : ∃ (V : ℕ → ℝ → ℕ → ℝ) (D : ℝ → Prop), IsDeepMode a (node E a) (weight E a) 0 (V 0) ∧ ReturnsModes a (node E a) (weight E a) I D V ∧ D t := by
    by_cases hu : Unscaled a
    · obtain ⟨I', V, hI', hV, hM⟩ := C127_bottom_at_infinity hw hns hres hu J'
      rw [hI] at hI'; cases hI'
      exact ⟨V, _, hV 0 hF0, hM, h0⟩
    · obtain ⟨I', V, hI', hV, hM, _⟩ := C127_scaled hw hns hres hu J'
      rw [hI] at hI'; cases hI'
      exact ⟨V, _, hV 0 hF0, hM, h0, (ht.resolve_left hu).1, (ht.resolve_left hu).2⟩
  obtain ⟨c1, c2, _⟩ := C126_deep_limit hacc (tameBelow_of hns) hT hlim hwk hrk hsc hrho hsf hB hem h hF (isDeepMode_zero.1 hV) t h0
  obtain ⟨A, hA, _, _, hA'⟩ := hD.u0 ⟨1, fun _ => t⟩ fun _ _ => hDt
  obtain ⟨A2, hA2, _, hA2'⟩ := hD.up ⟨1, fun _ => t⟩ fun _ _ => hDt
  exact ⟨⟨A, hA, fun i hi => ⟨_, hA' i hi 0 one_pos, c1 i hi⟩⟩, A2, hA2, _, hA2' 0 one_pos, c2⟩

/-- **C127, finite boundaries.** With the finite number that was replaced as the last boundary, the model used here returns what the exact model returns (as floating-point values, see C125). -/
theorem C127_finite {J : Junk} {R : Solved} (h : pydisort E J a = .ok R) (hns : NoSource a) :
    ∃ I, pydisortLast E J a (.fin (a.tauArr.get (a.tauArr.n - 1))) = .ok I ∧
      (∀ tau, I.u0 tau = (R.I.toF R.S).u0 tau) ∧ (∀ tau phi, I.u tau phi = (R.I.toF R.S).u tau phi) ∧
      (∀ tau, I.fluxUp tau = (R.I.toF R.S).fluxUp tau) ∧ ∀ tau, I.fluxDown tau = (R.I.toF R.S).fluxDown tau := last_fin h hns

/-! ### The hypotheses are met -/

/-- `demoMild` without internal source, with the fraction `f` of scattering into the forward peak. -/
noncomputable def demoEndless (n : ℕ) (x f : ℝ) : Args := { demoMild n x with s := ⟨2, 0, fun _ _ => 1⟩, fArr := ⟨2, fun _ => f⟩ }

theorem demoEndless_wellPosed {n : ℕ} (hn : 0 < n) {f : ℝ} (f0 : 0 ≤ f) (f1 : f ≤ 1 / 8) : ∃ x, 0 < x ∧ x ≤ 1 ∧ WellPosed refExt (demoEndless n x f) := by
  obtain ⟨x, h0, h1, hb⟩ := exists_beamRegular (demoEndless n 1 f) (node refExt (demoEndless n 1 f)) (weight refExt (demoEndless n 1 f))
  have hh : nHalf (demoEndless n x f) = n := demo_nHalf x
  have hacc : Accepted (demoEndless n x f) :=
    { demoMild_accepted hn h0 h1 with
      sourceRows := Or.inr rfl
      peakLen := Or.inr rfl
      peak := fun k _ => by change 0 ≤ f ∧ f ≤ 1; exact ⟨f0, by linarith⟩ }
  refine ⟨x, h0, h1, wellPosed_of hacc (by rw [hh]; exact hn) ?_ ?_ hb (Or.inr ⟨1 / 3, by norm_num, rfl⟩) trivial trivial (Or.inr rfl) rfl⟩
  · intro l hl
    have : peak (demoEndless n x f) l = f := by unfold peak; exact if_pos hl
    rw [this]; linarith
  · rw [hh]; simp [nLeg, demoEndless, demoMild, demo]

/-- The hypotheses of C127 are met with a beam, light from above and below and a reflecting surface, for every number of streams, without scaling and with scaling. -/
example {n : ℕ} (hn : 0 < n) : (∃ x, WellPosed refExt (demoEndless n x 0) ∧ NoSource (demoEndless n x 0) ∧ Rescalable (demoEndless n x 0) ∧ Unscaled (demoEndless n x 0)
      ∧ 0 < (demoEndless n x 0).I0 ∧ 0 < nFourier (demoEndless n x 0))
    ∧ ∃ x, WellPosed refExt (demoEndless n x (1 / 8)) ∧ NoSource (demoEndless n x (1 / 8)) ∧ Rescalable (demoEndless n x (1 / 8)) ∧ ¬ Unscaled (demoEndless n x (1 / 8))
      ∧ 1 < (demoEndless n x (1 / 8)).tauArr.n ∧ NonnegScattering (demoEndless n x (1 / 8)) (node refExt (demoEndless n x (1 / 8))) := by
  constructor
  · obtain ⟨x, h0, h1, hw⟩ := demoEndless_wellPosed hn (f := 0) le_rfl (by norm_num)
    refine ⟨x, hw, fun i _ j hj => absurd hj (Nat.not_lt_zero _), Or.inl (Or.inl one_pos), fun l hl => ?_, one_pos, ?_⟩
    · have : peak (demoEndless n x 0) l = 0 := by unfold peak; exact if_pos hl
      unfold scale
      rw [this]; ring
    · obtain ⟨R, hR⟩ := pydisort_isOk hw noJunk
      exact nFourier_pos hR hw.sound
  · obtain ⟨x, h0, h1, hw⟩ := demoEndless_wellPosed hn (f := 1 / 8) (by norm_num) le_rfl
    refine ⟨x, hw, fun i _ j hj => absurd hj (Nat.not_lt_zero _), Or.inl (Or.inl one_pos), fun h => ?_, Nat.one_lt_two, demoMild_scattering hn x⟩
    have h2 := h 0 (by change 0 < 2; omega)
    have : peak (demoEndless n x (1 / 8)) 0 = 1 / 8 := by unfold peak; exact if_pos (by change 0 < 2; omega)
    unfold scale at h2
    rw [this, show (demoEndless n x (1 / 8)).omega.get 0 = 1 / 2 by simp [demoEndless, demoMild, demo]] at h2
    norm_num at h2

/-- The hypotheses of `C127_limit` are met. -/
example {n : ℕ} (hn : 0 < n) (J : Junk) : ∃ (x : ℝ) (R : ℕ → Solved) (F : ℕ → Fields) (I : AsmF), ∀ a, a = demoEndless n x (1 / 8) → WellPosed refExt a ∧ NoSource a ∧ Rescalable a
    ∧ NonnegScattering a (node refExt a) ∧ pydisortLast refExt J a .pinf = .ok I ∧ ∀ T : ℕ → ℝ, (T = fun k : ℕ => lowestTop a + 1 + (k : ℝ)) →
      Tendsto T atTop atTop ∧ ∀ k, lowestTop a < T k ∧ ∀ b, b = deepened a (T k) (.scalar (1 / ((k : ℝ) + 1))) [.scalar (1 / 3)] →
        WellPosed refExt b ∧ Rescalable b ∧ SurfaceIs b (fun _ _ _ => 1 / 3) ∧ FairSurface b (node refExt a) (weight refExt a) (fun _ _ => 1 / 3)
        ∧ EmitsBelow b (node refExt a) (weight refExt a) (fun _ _ => 1 / 3) 2 ∧ pydisort refExt J b = .ok (R k) ∧ Evaluates b (R k) (F k) := by
  obtain ⟨x, h0, h1, hw⟩ := demoEndless_wellPosed hn (f := 1 / 8) (by norm_num) le_rfl
  have hns : NoSource (demoEndless n x (1 / 8)) := fun i _ j hj => absurd hj (Nat.not_lt_zero _)
  have hsc : NonnegScattering (demoEndless n x (1 / 8)) (node refExt (demoEndless n x (1 / 8))) := demoMild_scattering hn x
  obtain ⟨I, hI⟩ : ∃ I, pydisortLast refExt J (demoEndless n x (1 / 8)) .pinf = .ok I := by
    obtain ⟨O, r, out, C, GC, _, _, _, hI, _⟩ := endless_call hw hns J
    exact ⟨_, hI⟩
  set T : ℕ → ℝ := fun k => lowestTop (demoEndless n x (1 / 8)) + 1 + k with hT
  have hT0 : ∀ k, lowestTop (demoEndless n x (1 / 8)) < T k := fun k => by
    have : (0 : ℝ) ≤ k := Nat.cast_nonneg k
    simp only [hT]; linarith
  have hwk : ∀ k : ℕ, WellPosed refExt (deepened (demoEndless n x (1 / 8)) (T k) (.scalar (1 / ((k : ℝ) + 1))) [.scalar (1 / 3)]) := fun k =>
    { hw with accepted := deepened_accepted hw.accepted (hT0 k) trivial, bottomBC := trivial }
  have hrk : ∀ k : ℕ, Rescalable (deepened (demoEndless n x (1 / 8)) (T k) (.scalar (1 / ((k : ℝ) + 1))) [.scalar (1 / 3)]) := fun k => Or.inl (Or.inl one_pos)
  choose R hR using fun k => pydisort_isOk (hwk k) J
  choose F hF using fun k => evaluates_exists (hR k) (hwk k).sound (hrk k)
  refine ⟨x, R, F, I, ?_⟩
  rintro a rfl
  refine ⟨hw, hns, Or.inl (Or.inl one_pos), hsc, hI, ?_⟩
  rintro T' rfl
  refine ⟨tendsto_atTop_add_const_left _ _ tendsto_natCast_atTop_atTop, fun k => ⟨hT0 k, ?_⟩⟩
  rintro b rfl
  have hsf := demoMild_surface (n := n) (x := x) hn
  refine ⟨hwk k, hrk k, fun m _ => demo_rho (n := n) x m, ⟨hsf.nonneg, hsf.beam, hsf.bounded⟩, fun i hi => ?_, hR k, hF k⟩
  have hh : nHalf (demoMild n x) = n := demo_nHalf x
  have hg : GaussContract refExt (nHalf (demoMild n x)) := by rw [hh]; exact refExt_gauss hn
  have hrefl : reflectance (deepened (demoEndless n x (1 / 8)) (T k) (.scalar (1 / ((k : ℝ) + 1))) [.scalar (1 / 3)]) (node refExt (demoEndless n x (1 / 8)))
      (weight refExt (demoEndless n x (1 / 8))) (fun _ _ => 1 / 3) (node refExt (demoEndless n x (1 / 8)) i) = 1 / 3 := by
    unfold reflectance
    rw [if_pos (by change 0 < 1; exact one_pos)]
    change 2 * ∑ j ∈ range (nHalf (demoMild n x)), weight refExt (demoMild n x) j * node refExt (demoMild n x) j * (1 / 3) = 1 / 3
    rw [← sum_mul, sum_weight_node hg (by rw [hh]; exact hn)]
    norm_num
  rw [hrefl, if_pos (by change 0 < 1; exact one_pos)]
  change |if 0 = 0 then 1 / ((k : ℝ) + 1) else 0| + x * 1 / Real.pi * (1 / 3) ≤ (1 - 1 / 3) * 2
  rw [if_pos rfl]
  have hk : (0 : ℝ) < (k : ℝ) + 1 := by positivity
  have e1 : |1 / ((k : ℝ) + 1)| ≤ 1 := by
    rw [abs_of_pos (by positivity), div_le_one hk]
    linarith [(Nat.cast_nonneg k : (0 : ℝ) ≤ k)]
  have e2 : x * 1 / Real.pi ≤ 1 := by
    rw [mul_one, div_le_one Real.pi_pos]
    linarith [Real.two_le_pi]
  linarith

end Pydisort

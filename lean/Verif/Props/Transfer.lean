import Verif.EvalLemmas
import Verif.Witness
import Verif.CosLemmas

/-!
# C01-C05: the computed field solves the boundary value problem

Specification used: `Spec.rteUser` (the transfer equation), `Spec.bcVal`, `Spec.reflected` (boundary
conditions), `Spec.IsModes` (what the returned functions return), `Spec.Sound` (contracts of NumPy routines and
regularity), `Spec.Rescalable`.
-/

namespace Pydisort
open Finset
open Spec (bdry)

variable {E : Ext} {J : Junk} {a : Args} {R : Solved}

/-- The returned array of direction cosines: upward nodes followed by downward nodes. -/
theorem mu_arr_returned (h : pydisort E J a = .ok R) :
    R.muArr.n = 2 * Spec.nHalf a ∧ ∀ i < 2 * Spec.nHalf a,
      R.muArr.get i = Spec.stream (Spec.nHalf a) (Spec.node E a) i := by
  obtain ⟨_, O, r, _, _, hI, _⟩ := pydisort_ok h
  unfold Solved.muArr Spec.stream
  rw [hI]
  exact ⟨rfl, fun i _ => rfl⟩

/-- **C01.** `u0` solves the discretised transfer equation of mode zero inside every layer. -/
theorem C01_u0_solves_transfer_equation (h : pydisort E J a = .ok R) (hS : Spec.Sound E a)
    (hres : Spec.Rescalable a) :
    ∃ u : ℝ → ℕ → ℝ,
      (∀ tau, Spec.InRange a tau →
        Spec.Returns2 (R.u0 tau false) (2 * Spec.nHalf a) tau.n (fun i t => u (tau.get t) i)) ∧
      ∀ l < a.tauArr.n, ∀ t, bdry a.tauArr.get l < t → t < bdry a.tauArr.get (l + 1) →
        ∀ i < 2 * Spec.nHalf a, ∃ d, HasDerivAt (fun x => u x i) d t ∧
          Spec.stream (Spec.nHalf a) (Spec.node E a) i * d
            = Spec.rteUser a (Spec.node E a) (Spec.weight E a) 0 l t (u t) i := by
  obtain ⟨U, hU⟩ := isField h hS hres
  obtain ⟨hd, e1, e2⟩ := depthOK_of h
  refine ⟨fun t i => U 0 (R.I.layer t) t i, hU.modes.u0, ?_⟩
  intro l hl t h1 h2 i hi
  have hF : 0 < Spec.nFourier a := by
    obtain ⟨hacc, O, r, hO, _⟩ := pydisort_ok h
    have := (asm_good (r := 0) hacc (Args.optics_spec hacc hO) hS.toNumerics).F
    rw [← nFourier_eq]; exact this
  have hlay : ∀ x, bdry a.tauArr.get l < x → x < bdry a.tauArr.get (l + 1) → R.I.layer x = l := by
    intro x hx1 hx2
    exact AsmIn.layer_eq hd (by omega) (Or.inl (by rw [e1]; exact hx1)) (by rw [e1]; exact hx2.le)
  refine ⟨_, (hU.ode 0 hF l hl t i hi).congr_of_eventuallyEq ?_, ?_⟩
  · filter_upwards [Ioo_mem_nhds h1 h2] with x hx
    rw [hlay x hx.1 hx.2]
  · rw [mul_div_cancel₀ _ (stream_ne hS.gauss hi)]
    simp only [hlay t h1 h2]

/-- The hypotheses are met, for every number of streams, by a two-layer problem with all kinds of sources. -/
example {n : ℕ} (hn : 0 < n) (J : Junk) : ∃ x R, pydisort refExt J (demo n x) = .ok R ∧ Spec.Sound refExt (demo n x)
    ∧ Spec.Rescalable (demo n x) := by
  obtain ⟨x, R, h1, _, h2, h3⟩ := demo_call hn J
  exact ⟨x, R, h1, h2, h3⟩

/-- **C02.** The (uncorrected) intensity is a Fourier cosine series in azimuth, and every mode solves the
transfer equation of its order inside every layer. -/
theorem C02_modes_solve_transfer_equation (h : pydisort E J a = .ok R) (hS : Spec.Sound E a)
    (hres : Spec.Rescalable a) :
    ∃ U : ℕ → ℝ → ℕ → ℝ, Spec.IsModes a R U ∧
      ∀ m < Spec.nFourier a, ∀ l < a.tauArr.n, ∀ t, bdry a.tauArr.get l < t → t < bdry a.tauArr.get (l + 1) →
        ∀ i < 2 * Spec.nHalf a, ∃ d, HasDerivAt (fun x => U m x i) d t ∧
          Spec.stream (Spec.nHalf a) (Spec.node E a) i * d
            = Spec.rteUser a (Spec.node E a) (Spec.weight E a) m l t (U m t) i := by
  obtain ⟨U, hU⟩ := isField h hS hres
  obtain ⟨hd, e1, e2⟩ := depthOK_of h
  refine ⟨fun m t i => U m (R.I.layer t) t i, hU.modes, ?_⟩
  intro m hm l hl t h1 h2 i hi
  have hlay : ∀ x, bdry a.tauArr.get l < x → x < bdry a.tauArr.get (l + 1) → R.I.layer x = l := by
    intro x hx1 hx2
    exact AsmIn.layer_eq hd (by omega) (Or.inl (by rw [e1]; exact hx1)) (by rw [e1]; exact hx2.le)
  refine ⟨_, (hU.ode m hm l hl t i hi).congr_of_eventuallyEq ?_, ?_⟩
  · filter_upwards [Ioo_mem_nhds h1 h2] with x hx
    rw [hlay x hx.1 hx.2]
  · rw [mul_div_cancel₀ _ (stream_ne hS.gauss hi)]
    simp only [hlay t h1 h2]

/-- **C02 (uniqueness).** The modes in C02-C05 are determined by what the intensity function returns. -/
theorem C02_modes_unique {U V : ℕ → ℝ → ℕ → ℝ} (hU : Spec.IsModes a R U) (hV : Spec.IsModes a R V) :
    ∀ m < Spec.nFourier a, ∀ t, 0 ≤ t → t ≤ a.tauArr.get (a.tauArr.n - 1) → ∀ i < 2 * Spec.nHalf a,
      U m t i = V m t i := by
  intro m hm t h0 h1 i hi
  have key := cos_series_zero (F := Spec.nFourier a) (c := fun m => U m t i - V m t i) (fun x => by
    obtain ⟨A, hA, _, _, _, hA4⟩ := hU.u ⟨1, fun _ => t⟩ ⟨1, fun _ => a.phi0 - x⟩ (fun _ _ => ⟨h0, h1⟩)
    obtain ⟨B, hB, _, _, _, hB4⟩ := hV.u ⟨1, fun _ => t⟩ ⟨1, fun _ => a.phi0 - x⟩ (fun _ _ => ⟨h0, h1⟩)
    rw [hA] at hB; cases hB
    have e1 := hA4 i hi 0 Nat.one_pos 0 Nat.one_pos
    have e2 := hB4 i hi 0 Nat.one_pos 0 Nat.one_pos
    rw [e1] at e2
    simp only [sub_sub_cancel] at e2
    simp only [sub_mul, sum_sub_distrib]
    exact sub_eq_zero.mpr e2)
  have := key m hm
  linarith [this]

/-- The hypotheses are met. -/
example {n : ℕ} (hn : 0 < n) (J : Junk) : ∃ x R U, pydisort refExt J (demo n x) = .ok R ∧ Spec.Sound refExt (demo n x)
    ∧ Spec.Rescalable (demo n x) ∧ Spec.Azimuthless (demo n x).bneg ∧ Spec.Azimuthless (demo n x).bpos
    ∧ (∀ (m : ℕ) (M : BDRFMode), (demo n x).bdrf[m]? = some M → Spec.Represents M (fun _ _ => 1 / 3))
    ∧ Spec.IsModes (demo n x) R U := by
  obtain ⟨x, R, h1, _, h2, h3⟩ := demo_call hn J
  obtain ⟨U, hU, _⟩ := C02_modes_solve_transfer_equation h1 h2 h3
  exact ⟨x, R, U, h1, h2, h3, trivial, trivial, demo_rho x, hU⟩

/-- The intensity function handed to the caller is the uncorrected one unless corrections were requested. -/
theorem C02_returned_u (h : pydisort E J a = .ok R) (hf : a.onlyFlux = false) (hn : a.NTcor = false)
    (tau phi : A1 ℝ) (anti : Bool) : R.u tau phi anti = R.uUncorrected tau phi anti := by
  obtain ⟨_, O, r, _, _, _, _, h1, _, h2⟩ := pydisort_ok h
  unfold Solved.u
  rw [h1, hf, h2 (by simp [Args.NTGate, hn])]
  simp

/-- **C03.** Top boundary condition: at depth zero the downward modes are the prescribed ones. -/
theorem C03_top_boundary_condition (h : pydisort E J a = .ok R) (hS : Spec.Numerics E a) (hres : Spec.Rescalable a)
    (hb : Spec.Azimuthless a.bneg) {U : ℕ → ℝ → ℕ → ℝ} (hU : Spec.IsModes a R U) :
    ∀ m < Spec.nFourier a, ∀ i < Spec.nHalf a, U m 0 (Spec.nHalf a + i) = Spec.bcVal a.bneg m i := by
  intro m hm i hi
  obtain ⟨V, hV⟩ := isFieldR h hS hres
  obtain ⟨hacc, _⟩ := pydisort_ok h
  have hpos : 0 ≤ a.tauArr.get (a.tauArr.n - 1) := by
    obtain ⟨hd, e1, e2⟩ := depthOK_of h
    have := hd.nonneg (k := R.I.NLayers) le_rfl
    have hL := hacc.layers
    rw [e1, e2] at this
    rwa [show a.tauArr.n = a.tauArr.n - 1 + 1 by omega, Spec.bdry_succ] at this
  rw [C02_modes_unique hU hV.modes m hm 0 le_rfl hpos _ (by omega)]
  have := hV.eq_layer h hm (l := 0) hacc.layers (t := 0) ⟨by simp [bdry], by rw [Spec.bdry_succ]; exact hacc.top.le⟩
    (i := Spec.nHalf a + i) (by omega)
  rw [this]
  exact hV.top hb m hm i hi

/-- **C03, observable form.** `u0(0)` and `u(0, phi)` at the downward streams are the prescribed value. -/
theorem C03_top_intensity (h : pydisort E J a = .ok R) (hS : Spec.Numerics E a) (hres : Spec.Rescalable a)
    (hb : Spec.Azimuthless a.bneg) (phi : A1 ℝ) :
    ∃ A B, R.u0 ⟨1, fun _ => 0⟩ false = .ok A ∧ R.uUncorrected ⟨1, fun _ => 0⟩ phi false = .ok B ∧
      ∀ i < Spec.nHalf a, A.get (Spec.nHalf a + i) 0 = Spec.bcVal a.bneg 0 i ∧
        ∀ p < phi.n, B.get (Spec.nHalf a + i) 0 p = Spec.bcVal a.bneg 0 i := by
  obtain ⟨V, hV⟩ := isFieldR h hS hres
  obtain ⟨hacc, O, r, hO, _⟩ := pydisort_ok h
  have hF : 0 < Spec.nFourier a := by
    have := (asm_good (r := 0) hacc (Args.optics_spec hacc hO) hS).F
    rw [← nFourier_eq]; exact this
  have hpos : 0 ≤ a.tauArr.get (a.tauArr.n - 1) := by
    obtain ⟨hd, e1, e2⟩ := depthOK_of h
    have := hd.nonneg (k := R.I.NLayers) le_rfl
    have hL := hacc.layers
    rw [e1, e2] at this
    rwa [show a.tauArr.n = a.tauArr.n - 1 + 1 by omega, Spec.bdry_succ] at this
  have h3 := C03_top_boundary_condition h hS hres hb hV.modes
  obtain ⟨A, hA, _, _, hA'⟩ := hV.modes.u0 ⟨1, fun _ => 0⟩ (fun _ _ => ⟨le_rfl, hpos⟩)
  obtain ⟨B, hB, _, _, _, hB'⟩ := hV.modes.u ⟨1, fun _ => 0⟩ phi (fun _ _ => ⟨le_rfl, hpos⟩)
  refine ⟨A, B, hA, hB, fun i hi => ⟨?_, fun p hp => ?_⟩⟩
  · rw [hA' _ (by omega) 0 Nat.one_pos]; exact h3 0 hF i hi
  · rw [hB' _ (by omega) 0 Nat.one_pos p hp]
    simp only
    rw [sum_eq_single 0]
    · simp only [Nat.cast_zero, zero_mul, Real.cos_zero, mul_one]; exact h3 0 hF i hi
    · intro m hm hm0
      have := h3 m (mem_range.mp hm) i hi
      change V m _ _ _ = _ at this
      rw [this]
      have hz : Spec.bcVal a.bneg m i = 0 := by
        cases hbn : a.bneg with
        | scalar x => simp [Spec.bcVal, hm0]
        | vec v => simp [Spec.bcVal, hm0]
        | mat v => exact bcVal_zero (b := .mat v) (by rw [hbn] at hb; exact hb) m i
      rw [hz, zero_mul]
    · intro hh; exact absurd (mem_range.mpr hF) hh

/-- **C04.** Bottom boundary condition: at the bottom the upward modes are the prescribed ones plus what the surface
reflects, when every BDRF mode supplied represents the function `rho m`. -/
theorem C04_bottom_boundary_condition (h : pydisort E J a = .ok R) (hS : Spec.Numerics E a) (hres : Spec.Rescalable a)
    (hb : Spec.Azimuthless a.bpos) {rho : ℕ → ℝ → ℝ → ℝ}
    (hrho : ∀ m < Spec.nFourier a, ∀ M, a.bdrf[m]? = some M → Spec.Represents M (rho m))
    {U : ℕ → ℝ → ℕ → ℝ} (hU : Spec.IsModes a R U) :
    ∀ m < Spec.nFourier a, ∀ i < Spec.nHalf a,
      U m (a.tauArr.get (a.tauArr.n - 1)) i = Spec.bcVal a.bpos m i
        + if m < a.bdrf.length then Spec.reflected a (Spec.node E a) (Spec.weight E a) (rho m) m (Spec.node E a i)
            (fun j => U m (a.tauArr.get (a.tauArr.n - 1)) (Spec.nHalf a + j)) else 0 := by
  intro m hm i hi
  obtain ⟨V, hV⟩ := isFieldR h hS hres
  obtain ⟨hacc, _⟩ := pydisort_ok h
  have hL := hacc.layers
  obtain ⟨hd, e1, e2⟩ := depthOK_of h
  have hpos : 0 ≤ a.tauArr.get (a.tauArr.n - 1) := by
    have := hd.nonneg (k := R.I.NLayers) le_rfl
    rw [e1, e2] at this
    rwa [show a.tauArr.n = a.tauArr.n - 1 + 1 by omega, Spec.bdry_succ] at this
  have hin : Spec.InLayer a (a.tauArr.n - 1) (a.tauArr.get (a.tauArr.n - 1)) := by
    refine ⟨?_, by rw [Spec.bdry_succ]⟩
    have := hd.mono (a.tauArr.n - 1) (by omega)
    rw [e1, Spec.bdry_succ] at this
    exact this.le
  have key : ∀ q < 2 * Spec.nHalf a, U m (a.tauArr.get (a.tauArr.n - 1)) q
      = V m (a.tauArr.n - 1) (a.tauArr.get (a.tauArr.n - 1)) q := by
    intro q hq
    rw [C02_modes_unique hU hV.modes m hm _ hpos le_rfl _ hq]
    exact hV.eq_layer h hm (by omega) hin hq
  rw [key i (by omega), hV.bot hb rho hrho m hm i hi]
  congr 1
  split_ifs
  · unfold Spec.reflected
    congr 1
    congr 1
    refine sum_congr rfl fun j hj => ?_
    have := mem_range.mp hj
    simp only
    rw [key (Spec.nHalf a + j) (by omega)]
  · rfl

/-- **C05.** Every mode is continuous on the whole atmosphere, in particular across the interfaces. -/
theorem C05_continuous_across_layers (h : pydisort E J a = .ok R) (hS : Spec.Numerics E a) (hres : Spec.Rescalable a)
    {U : ℕ → ℝ → ℕ → ℝ} (hU : Spec.IsModes a R U) :
    ∀ m < Spec.nFourier a, ∀ i < 2 * Spec.nHalf a,
      ContinuousOn (fun t => U m t i) (Set.Icc 0 (a.tauArr.get (a.tauArr.n - 1))) := by
  intro m hm i hi
  obtain ⟨V, hV⟩ := isFieldR h hS hres
  obtain ⟨hacc, _⟩ := pydisort_ok h
  have hL := hacc.layers
  obtain ⟨hd, e1, e2⟩ := depthOK_of h
  have hle : ∀ {j k : ℕ}, j ≤ k → k ≤ a.tauArr.n → bdry a.tauArr.get j ≤ bdry a.tauArr.get k := by
    intro j k h1 h2
    rw [← e1]; exact hd.le h1 (by omega)
  have hend : ∀ k, 0 < k → k ≤ a.tauArr.n → a.tauArr.get (k - 1) = bdry a.tauArr.get k := by
    intro k hk _; simp [bdry, Nat.pos_iff_ne_zero.mp hk]
  -- agreement with the layer solutions
  have key : ∀ l < a.tauArr.n, ∀ t, Spec.InLayer a l t → U m t i = V m l t i := by
    intro l hl t ht
    have h0 : 0 ≤ t := by
      have := hle (Nat.zero_le l) hl.le
      have h2 : bdry a.tauArr.get 0 = 0 := by simp [bdry]
      linarith [ht.1]
    have h1 : t ≤ a.tauArr.get (a.tauArr.n - 1) := by
      rw [hend _ hL le_rfl]
      exact ht.2.trans (hle (by omega) le_rfl)
    rw [C02_modes_unique hU hV.modes m hm t h0 h1 i hi]
    exact hV.eq_layer h hm hl ht hi
  have main : ∀ k ≤ a.tauArr.n, ContinuousOn (fun t => U m t i) (Set.Icc 0 (bdry a.tauArr.get k)) := by
    intro k
    induction k with
    | zero =>
      intro _
      have : bdry a.tauArr.get 0 = 0 := by simp [bdry]
      rw [this, Set.Icc_self]
      exact continuousOn_singleton _ _
    | succ k ih =>
      intro hk
      have h1 := ih (by omega)
      have h2 : ContinuousOn (fun t => U m t i) (Set.Icc (bdry a.tauArr.get k) (bdry a.tauArr.get (k + 1))) := by
        have hc : ContinuousOn (fun t => V m k t i) (Set.Icc (bdry a.tauArr.get k) (bdry a.tauArr.get (k + 1))) :=
          fun t _ => (hV.odeR m hm k (by omega) t i hi).continuousAt.continuousWithinAt
        exact hc.congr fun t ht => key k (by omega) t ⟨ht.1, ht.2⟩
      have h3 : Set.Icc 0 (bdry a.tauArr.get (k + 1))
          = Set.Icc 0 (bdry a.tauArr.get k) ∪ Set.Icc (bdry a.tauArr.get k) (bdry a.tauArr.get (k + 1)) := by
        have := hle (Nat.zero_le k) (by omega)
        have h0 : bdry a.tauArr.get 0 = 0 := by simp [bdry]
        rw [Set.Icc_union_Icc_eq_Icc (by linarith) (hle (by omega) hk)]
      rw [h3]
      exact h1.union_of_isClosed h2 isClosed_Icc isClosed_Icc
  have := main a.tauArr.n le_rfl
  rwa [← hend _ hL le_rfl] at this

/-- The hypotheses of C03, C04 and C05 are met. -/
example {n : ℕ} (hn : 0 < n) (J : Junk) : ∃ x R U, pydisort refExt J (demo n x) = .ok R ∧ Spec.Sound refExt (demo n x)
    ∧ Spec.Rescalable (demo n x) ∧ Spec.Azimuthless (demo n x).bneg ∧ Spec.Azimuthless (demo n x).bpos
    ∧ (∀ (m : ℕ) (M : BDRFMode), (demo n x).bdrf[m]? = some M → Spec.Represents M (fun _ _ => 1 / 3))
    ∧ Spec.IsModes (demo n x) R U := by
  obtain ⟨x, R, h1, _, h2, h3⟩ := demo_call hn J
  obtain ⟨U, hU, _⟩ := C02_modes_solve_transfer_equation h1 h2 h3
  exact ⟨x, R, U, h1, h2, h3, trivial, trivial, demo_rho x, hU⟩

end Pydisort

import Verif.Props.Neighbours
import Verif.Props.Reciprocity

/-!
# C96: neighbouring layers and the net flux

Specification used: `Spec.above`, `Spec.below`, `Spec.Fields`, `Spec.NonnegScattering`, `Spec.FairSurface`, `Spec.LossySurface`, `Spec.NonnegSources`.
-/

namespace Pydisort
open Finset Spec

variable {E : Ext} {J : Junk} {a : Args} {R : Solved} {k : ℕ} {s' : A2 ℝ}

/-- Inside a layer the net upward flux is continuous and changes by absorption and emission. -/
theorem net_facts (h : pydisort E J a = .ok R) (hS : Sound E a) (hres : Rescalable a) {F : Fields} (hF : Evaluates a R F) {l : ℕ} (hl : l < a.tauArr.n) :
    ContinuousOn (fun t => F.up t - F.diffuse t - F.direct t) (Set.Icc (bdry a.tauArr.get l) (bdry a.tauArr.get (l + 1))) ∧
    ∀ t, bdry a.tauArr.get l < t → t < bdry a.tauArr.get (l + 1) →
      HasDerivAt (fun t => F.up t - F.diffuse t - F.direct t)
        (scale a l * (1 - effAlbedo a l) * (actinic a (weight E a) (F.u0 t) + a.I0 * Real.exp (-tauStar a l t / a.mu0))
          - 4 * Real.pi * (1 - a.omega.get l) * source a l t) t := by
  have hacc := (pydisort_ok h).1
  obtain ⟨U, hU, _⟩ := C02_modes_solve_transfer_equation h hS hres
  have hb0 : 0 ≤ bdry a.tauArr.get l := by
    have := bdry_le hacc (Nat.zero_le l) hl.le
    rwa [bdry_zero] at this
  have hb1 : bdry a.tauArr.get (l + 1) ≤ bottom a := by
    have := bdry_le hacc (show l + 1 ≤ a.tauArr.n by omega) le_rfl
    rwa [bdry_bottom hacc] at this
  have hnet : ∀ t ∈ Set.Icc (bdry a.tauArr.get l) (bdry a.tauArr.get (l + 1)), F.up t - F.diffuse t - F.direct t
      = hemiFlux a (node E a) (weight E a) (fun i => U 0 t i) - hemiFlux a (node E a) (weight E a) (fun i => U 0 t (nHalf a + i))
        - a.I0 * a.mu0 * Real.exp (-tauStar a l t / a.mu0) := by
    intro t ht
    obtain ⟨-, e2, e3, e4⟩ := evaluates_unique hF (evaluates h hres hU) (hb0.trans ht.1) (ht.2.trans hb1)
    rw [e2, e3, e4]
    obtain ⟨x1, x2⟩ := layOf_spec hacc (hb0.trans ht.1) (ht.2.trans hb1)
    simp only [fieldsOf, tauStar_layers hacc x1 hl x2 ht]
    ring
  have hcU : ∀ i < 2 * nHalf a, ContinuousOn (fun t => U 0 t i) (Set.Icc (bdry a.tauArr.get l) (bdry a.tauArr.get (l + 1))) := fun i hi =>
    (C05_continuous_across_layers h hS hres hU 0 (nFourier_pos h hS) i hi).mono (Set.Icc_subset_Icc hb0 hb1)
  refine ⟨?_, ?_⟩
  · refine ContinuousOn.congr ?_ hnet
    unfold hemiFlux tauStar
    refine ContinuousOn.sub (ContinuousOn.sub (continuousOn_const.mul (continuousOn_finset_sum _ fun i hi => ?_))
      (continuousOn_const.mul (continuousOn_finset_sum _ fun i hi => ?_))) (by fun_prop)
    · exact continuousOn_const.mul (hcU i (by have := mem_range.1 hi; omega))
    · exact continuousOn_const.mul (hcU _ (by have := mem_range.1 hi; omega))
  · obtain ⟨up, diffuse, direct, u, hev, hder⟩ := C11_energy_balance h hS hres
    have hud : Evaluates a R ⟨u, up, diffuse, direct, F.u⟩ :=
      ⟨fun tau ht => (hev tau ht).2.2, fun tau ht => (hev tau ht).1, fun tau ht => (hev tau ht).2.1, hF.u⟩
    intro t h1 h2
    have e : actinic a (weight E a) (F.u0 t) = actinic a (weight E a) (u t) := by
      unfold actinic
      congr 1
      refine sum_congr rfl fun i hi => ?_
      rw [(evaluates_unique hF hud (hb0.trans h1.le) (h2.le.trans hb1)).1 i (mem_range.1 hi)]
    rw [e]
    refine (hder l hl t h1 h2).congr_of_eventuallyEq ?_
    filter_upwards [Ioo_mem_nhds h1 h2] with x hx
    obtain ⟨-, e2, e3, e4⟩ := evaluates_unique hF hud (hb0.trans hx.1.le) (hx.2.le.trans hb1)
    rw [e2, e3, e4]

theorem monotoneOn_chain {x : ℕ → ℝ} {g : ℝ → ℝ} {i n : ℕ} (hin : i ≤ n) (hx : ∀ l, i ≤ l → l < n → x l ≤ x (l + 1))
    (hm : ∀ l, i ≤ l → l < n → MonotoneOn g (Set.Icc (x l) (x (l + 1)))) : x i ≤ x n ∧ MonotoneOn g (Set.Icc (x i) (x n)) := by
  induction n, hin using Nat.le_induction with
  | base =>
    refine ⟨le_rfl, fun s hs t ht _ => ?_⟩
    rw [le_antisymm hs.2 hs.1, le_antisymm ht.2 ht.1]
  | succ n hin ih =>
    obtain ⟨hb, h1⟩ := ih (fun l h h' => hx l h (by omega)) (fun l h h' => hm l h (by omega))
    have h2 := hm n hin (Nat.lt_succ_self n)
    have hb' := hx n hin (Nat.lt_succ_self n)
    refine ⟨hb.trans hb', fun s hs t ht hst => ?_⟩
    rcases le_total t (x n) with htl | htl
    · exact h1 ⟨hs.1, hst.trans htl⟩ ⟨ht.1, htl⟩ hst
    · rcases le_total s (x n) with hsl | hsl
      · exact (h1 ⟨hs.1, hsl⟩ ⟨hb, le_rfl⟩ hsl).trans (h2 ⟨le_rfl, hb'⟩ ⟨htl, ht.2⟩ htl)
      · exact h2 ⟨hsl, hs.2⟩ ⟨htl, ht.2⟩ hst

theorem actinic_mono (hg : GaussContract E (nHalf a)) {u v : ℕ → ℝ} (h : ∀ i < 2 * nHalf a, u i ≤ v i) :
    actinic a (weight E a) u ≤ actinic a (weight E a) v := by
  unfold actinic
  refine mul_le_mul_of_nonneg_left (sum_le_sum fun i hi => ?_) (by positivity)
  have hi' := mem_range.1 hi
  refine mul_le_mul_of_nonneg_left (h i hi') ?_
  unfold streamW; split_ifs <;> exact (weight_pos hg (by omega)).le

/-- **C96, above.** Whatever lies below the first `k` layers, together they lose light through it at most: at every depth of the upper part the net
downward flux in the whole atmosphere is at most that in the upper part alone over black ground. -/
theorem C96_what_lies_below_returns_light (hw : WellPosed E a) (hr : Rescalable a) (hr' : Rescalable (above a k)) (hk0 : 0 < k) (hk : k < a.tauArr.n)
    {rho : ℕ → ℝ → ℝ → ℝ} (hrho : SurfaceIs a rho) (hsf : FairSurface a (node E a) (weight E a) (rho 0)) (hsc : NonnegScattering a (node E a))
    (hq : NonnegSources a (node E a)) {J J' : Junk} {R R' : Solved} (h : pydisort E J a = .ok R) (h' : pydisort E J' (above a k) = .ok R')
    {F F' : Fields} (hF : Evaluates a R F) (hF' : Evaluates (above a k) R' F') :
    ∀ t, 0 ≤ t → t ≤ bdry a.tauArr.get k → F.diffuse t + F.direct t - F.up t ≤ F'.diffuse t + F'.direct t - F'.up t := by
  have hacc := hw.accepted
  have hw' : WellPosed E (above a k) := above_wellPosed hw hk0 hk
  obtain ⟨hx0, hxb⟩ := cut_range hacc hk
  have hle := C90_what_lies_below_adds_light hw hr hr' hk0 hk hrho hsf hsc hq h h' hF hF'
  set g : ℝ → ℝ := fun t => (F.up t - F.diffuse t - F.direct t) - (F'.up t - F'.diffuse t - F'.direct t) with hgdef
  have hlay : ∀ l, 0 ≤ l → l < k → MonotoneOn g (Set.Icc (bdry a.tauArr.get l) (bdry a.tauArr.get (l + 1))) := by
    intro l _ hl
    have hl' : l < a.tauArr.n := by omega
    obtain ⟨c1, d1⟩ := net_facts h hw.sound hr hF hl'
    obtain ⟨c2, d2⟩ := net_facts h' hw'.sound hr' hF' (l := l) hl
    have hb0 : 0 ≤ bdry a.tauArr.get l := by
      have := bdry_le hacc (Nat.zero_le l) hl'.le
      rwa [bdry_zero] at this
    have hbk : bdry a.tauArr.get (l + 1) ≤ bdry a.tauArr.get k := bdry_le hacc (by omega) (by omega)
    have hD : ∀ t, bdry a.tauArr.get l < t → t < bdry a.tauArr.get (l + 1) → HasDerivAt g _ t := fun t h1 h2 => (d1 t h1 h2).sub (d2 t h1 h2)
    refine monotoneOn_of_deriv_nonneg (convex_Icc _ _) (c1.sub c2) ?_ ?_
    · intro t ht
      rw [interior_Icc] at ht
      exact (hD t ht.1 ht.2).differentiableAt.differentiableWithinAt
    · intro t ht
      rw [interior_Icc] at ht
      rw [(hD t ht.1 ht.2).deriv]
      have hsrc : source (above a k) l t = source a l t := upper_source (v := 0) hl t
      have hsca : scale (above a k) l = scale a l := upper_scale (v := 0) hl
      have heff : effAlbedo (above a k) l = effAlbedo a l := by
        unfold effAlbedo
        rw [show omegaStar (above a k) l = omegaStar a l from upper_omegaStar (v := 0) hl, show legStar (above a k) l = legStar a l from upper_legStar (v := 0) hl]
        rfl
      have hts : tauStar (above a k) l t = tauStar a l t := upper_tauStar (v := 0) hl t
      rw [hsrc, hsca, heff, hts]
      have x1 := (effAlbedo_range hacc hl' (hw.peak l hl')).2.1
      have x2 := Args.scale_pos hacc hl'
      have hac : actinic a (weight E a) (F'.u0 t) ≤ actinic a (weight E a) (F.u0 t) :=
        actinic_mono hw.gauss (hle t (hb0.trans ht.1.le) (ht.2.le.trans hbk)).1
      change 0 ≤ scale a l * (1 - effAlbedo a l) * (actinic a (weight E a) (F.u0 t) + a.I0 * Real.exp (-tauStar a l t / a.mu0))
            - 4 * Real.pi * (1 - a.omega.get l) * source a l t
          - (scale a l * (1 - effAlbedo a l) * (actinic a (weight E a) (F'.u0 t) + a.I0 * Real.exp (-tauStar a l t / a.mu0))
            - 4 * Real.pi * (1 - a.omega.get l) * source a l t)
      have := mul_nonneg (mul_nonneg x2.le (sub_nonneg.2 x1.le)) (sub_nonneg.2 hac)
      linarith
  have hmono := (monotoneOn_chain (x := fun l => bdry a.tauArr.get l) (Nat.zero_le k)
    (fun l _ hl => bdry_le hacc (Nat.le_succ l) (by omega)) hlay).2
  simp only [bdry_zero] at hmono
  have h00 : 0 ≤ g 0 := by
    obtain ⟨-, x1, -, x3⟩ := hle 0 le_rfl hx0
    have x2 : F.diffuse 0 = F'.diffuse 0 := by
      obtain ⟨U, hU, _⟩ := C02_modes_solve_transfer_equation h hw.sound hr
      obtain ⟨U', hU', _⟩ := C02_modes_solve_transfer_equation h' hw'.sound hr'
      have t1 := (modes_isSolution h hw.sound hr hw.bottomBC hw.topBC hrho hU (nFourier_pos h hw.sound)).top
      have t2 := (modes_isSolution h' hw'.sound hr' hw'.bottomBC hw'.topBC (rho := rho)
        (fun m _ M hM => by rw [show (above a k).bdrf = [] from rfl] at hM; simp at hM) hU' (nFourier_pos h' hw'.sound)).top
      have hbot' : 0 ≤ bottom (above a k) := by
        rw [show bottom (above a k) = bdry a.tauArr.get k from upper_bottom (v := 0) hk0]; exact hx0
      obtain ⟨-, -, e3, -⟩ := evaluates_unique hF (evaluates h hr hU) le_rfl (hx0.trans hxb)
      obtain ⟨-, -, g3, -⟩ := evaluates_unique hF' (evaluates h' hr' hU') le_rfl hbot'
      have l1 := layOf_spec hacc le_rfl (hx0.trans hxb)
      have l2 := layOf_spec hw'.accepted le_rfl hbot'
      have l3 : layOf (above a k) 0 < k := l2.1
      have e : tauStar (above a k) (layOf (above a k) 0) 0 = tauStar a (layOf a 0) 0 := by
        rw [show tauStar (above a k) (layOf (above a k) 0) 0 = tauStar a (layOf (above a k) 0) 0 from upper_tauStar (v := 0) l3 0]
        exact tauStar_layers hacc (by omega) l1.1 l2.2 l1.2
      rw [e3, g3]
      change hemiFlux a (node E a) (weight E a) (fun i => U 0 0 (nHalf a + i))
          + (a.I0 * a.mu0 * Real.exp (-tauStar a (layOf a 0) 0 / a.mu0) - a.I0 * a.mu0 * Real.exp (-0 / a.mu0))
        = hemiFlux a (node E a) (weight E a) (fun i => U' 0 0 (nHalf a + i))
          + (a.I0 * a.mu0 * Real.exp (-tauStar (above a k) (layOf (above a k) 0) 0 / a.mu0) - a.I0 * a.mu0 * Real.exp (-0 / a.mu0))
      rw [e]
      congr 1
      unfold hemiFlux
      congr 1
      refine sum_congr rfl fun i hi => ?_
      have q1 := t1 i (mem_range.1 hi)
      have q2 : U' 0 0 (nHalf a + i) = bcVal a.bneg 0 i := t2 i (mem_range.1 hi)
      beta_reduce
      rw [q1, q2]
    simp only [hgdef]
    linarith
  intro t h0 h1
  have := h00.trans (hmono ⟨le_rfl, hx0⟩ ⟨h0, h1⟩ h0)
  simp only [hgdef] at this
  linarith

/-- **C96, below.** Over a surface that returns at most what it receives, what lies above the last layers sends light down on balance: at every depth
of the lower part the net downward flux in the whole atmosphere is at least that in the lower part alone under the attenuated beam. -/
theorem C96_what_lies_above_sends_light_down (hw : WellPosed E a) (hr : Rescalable a) (hr' : Rescalable (below a k s')) (hk : k < a.tauArr.n)
    (hs : s'.r = a.tauArr.n - k) (hd : s'.c ≤ 21)
    (hsrc : ∀ l < a.tauArr.n - k, ∀ t, ∑ j ∈ range s'.c, s'.get l j * t ^ j = source a (k + l) (t + bdry a.tauArr.get k))
    {rho : ℕ → ℝ → ℝ → ℝ} (hrho : SurfaceIs a rho) (hsf : FairSurface a (node E a) (weight E a) (rho 0))
    (hls : LossySurface a (node E a) (weight E a) (rho 0)) (hsc : NonnegScattering a (node E a))
    (hq : NonnegSources a (node E a)) {J J' : Junk} {R R' : Solved} (h : pydisort E J a = .ok R) (h' : pydisort E J' (below a k s') = .ok R')
    {F F' : Fields} (hF : Evaluates a R F) (hF' : Evaluates (below a k s') R' F') :
    ∀ t, bdry a.tauArr.get k ≤ t → t ≤ bottom a →
      F'.diffuse (t - bdry a.tauArr.get k) + F'.direct (t - bdry a.tauArr.get k) - F'.up (t - bdry a.tauArr.get k)
        ≤ F.diffuse t + F.direct t - F.up t := by
  have hacc := hw.accepted
  have hw' : WellPosed E (below a k s') := below_wellPosed hw hk hs hd
  obtain ⟨hx0, hxb⟩ := cut_range hacc hk
  have hle := C90_what_lies_above_adds_light hw hr hr' hk hs hd hsrc hrho hsf hsc hq h h' hF hF'
  have hsrc' : ∀ l < a.tauArr.n - k, ∀ t, source (below a k s') l t = source a (k + l) (t + bdry a.tauArr.get k) := by
    intro l hl t
    rw [← hsrc l hl t]
    conv_lhs => unfold source
    exact if_pos (show l < s'.r by rw [hs]; exact hl)
  set x := bdry a.tauArr.get k with hx
  set g : ℝ → ℝ := fun t => (F.up t - F.diffuse t - F.direct t) - (F'.up (t - x) - F'.diffuse (t - x) - F'.direct (t - x)) with hgdef
  have hlay : ∀ l, k ≤ l → l < a.tauArr.n → MonotoneOn g (Set.Icc (bdry a.tauArr.get l) (bdry a.tauArr.get (l + 1))) := by
    intro l hkl hl'
    obtain ⟨j, rfl⟩ := Nat.exists_eq_add_of_le hkl
    have hj : j < a.tauArr.n - k := by omega
    obtain ⟨c1, d1⟩ := net_facts h hw.sound hr hF hl'
    obtain ⟨c2, d2⟩ := net_facts h' hw'.sound hr' hF' (l := j) hj
    have y1 : bdry (below a k s').tauArr.get j = bdry a.tauArr.get (k + j) - x := lower_bdry (v := 0) (s' := s') j
    have y2 : bdry (below a k s').tauArr.get (j + 1) = bdry a.tauArr.get (k + j + 1) - x := lower_bdry (v := 0) (s' := s') (j + 1)
    rw [y1, y2] at c2 d2
    have hbk : x ≤ bdry a.tauArr.get (k + j) := bdry_le hacc (by omega) (by omega)
    have hbb : bdry a.tauArr.get (k + j + 1) ≤ bottom a := by
      have := bdry_le hacc (show k + j + 1 ≤ a.tauArr.n by omega) le_rfl
      rwa [bdry_bottom hacc] at this
    have hD : ∀ t, bdry a.tauArr.get (k + j) < t → t < bdry a.tauArr.get (k + j + 1) → HasDerivAt g _ t := fun t h1 h2 =>
      (d1 t h1 h2).sub ((d2 (t - x) (by linarith) (by linarith)).comp_sub_const t x)
    refine monotoneOn_of_deriv_nonneg (convex_Icc _ _) (c1.sub ?_) ?_ ?_
    · exact c2.comp (by fun_prop) fun t ht => ⟨by linarith [ht.1], by linarith [ht.2]⟩
    · intro t ht
      rw [interior_Icc] at ht
      exact (hD t ht.1 ht.2).differentiableAt.differentiableWithinAt
    · intro t ht
      rw [interior_Icc] at ht
      rw [(hD t ht.1 ht.2).deriv]
      have hsr : source (below a k s') j (t - x) = source a (k + j) t := by rw [hsrc' j hj, sub_add_cancel]
      have hsca : scale (below a k s') j = scale a (k + j) := lower_scale (v := 0) (s' := s') hj
      have heff : effAlbedo (below a k s') j = effAlbedo a (k + j) := by
        unfold effAlbedo
        rw [show omegaStar (below a k s') j = _ from lower_omegaStar (v := 0) (s' := s') hj,
          show legStar (below a k s') j = _ from lower_legStar (v := 0) (s' := s') hj]
        rfl
      have hts : tauStar (below a k s') j (t - x) = tauStar a (k + j) t - bdryStar a k := by
        rw [show tauStar (below a k s') j (t - x) = _ from lower_tauStar (v := 0) (s' := s') hj (t - x), sub_add_cancel]
      rw [hsr, hsca, heff, hts]
      have x1 := (effAlbedo_range hacc hl' (hw.peak _ hl')).2.1
      have x2 := Args.scale_pos hacc hl'
      have hac : actinic a (weight E a) (F'.u0 (t - x)) ≤ actinic a (weight E a) (F.u0 t) :=
        actinic_mono hw.gauss (hle t (hbk.trans ht.1.le) (ht.2.le.trans hbb)).1
      have y : Real.exp (-tauStar a (k + j) t / a.mu0)
          = Real.exp (-bdryStar a k / a.mu0) * Real.exp (-(tauStar a (k + j) t - bdryStar a k) / a.mu0) := by
        rw [← Real.exp_add]; congr 1; ring
      change 0 ≤ scale a (k + j) * (1 - effAlbedo a (k + j)) * (actinic a (weight E a) (F.u0 t) + a.I0 * Real.exp (-tauStar a (k + j) t / a.mu0))
            - 4 * Real.pi * (1 - a.omega.get (k + j)) * source a (k + j) t
          - (scale a (k + j) * (1 - effAlbedo a (k + j)) * (actinic a (weight E a) (F'.u0 (t - x))
              + a.I0 * Real.exp (-bdryStar a k / a.mu0) * Real.exp (-(tauStar a (k + j) t - bdryStar a k) / a.mu0))
            - 4 * Real.pi * (1 - a.omega.get (k + j)) * source a (k + j) t)
      rw [y]
      have := mul_nonneg (mul_nonneg x2.le (sub_nonneg.2 x1.le)) (sub_nonneg.2 hac)
      linarith
  have hmono := (monotoneOn_chain (x := fun l => bdry a.tauArr.get l) hk.le
    (fun l _ hl => bdry_le hacc (Nat.le_succ l) (by omega)) hlay).2
  simp only [bdry_bottom hacc, ← hx] at hmono
  have hgb : g (bottom a) ≤ 0 := by
    obtain ⟨U, hU, _⟩ := C02_modes_solve_transfer_equation h hw.sound hr
    obtain ⟨U', hU', _⟩ := C02_modes_solve_transfer_equation h' hw'.sound hr'
    have b1 := (modes_isSolution h hw.sound hr hw.bottomBC hw.topBC hrho hU (nFourier_pos h hw.sound)).bot
    have b2 := (modes_isSolution h' hw'.sound hr' hw'.bottomBC hw'.topBC (rho := rho) hrho hU' (nFourier_pos h' hw'.sound)).bot
    have hbe : bottom (below a k s') = bottom a - x := lower_bottom (v := 0) (s' := s') hacc hk
    obtain ⟨e1, e2, e3, e4⟩ := evaluates_unique hF (evaluates h hr hU) (hx0.trans hxb) le_rfl
    obtain ⟨g1, g2, g3, g4⟩ := evaluates_unique hF' (evaluates h' hr' hU') (sub_nonneg.2 hxb) hbe.ge
    have hstar : ∀ {b : Args}, Accepted b → tauStar b (layOf b (bottom b)) (bottom b) = bdryStar b b.tauArr.n := by
      intro b hb
      have hlast : b.tauArr.n - 1 + 1 = b.tauArr.n := by have := hb.layers; omega
      have hin : InLayer b (b.tauArr.n - 1) (bottom b) := by
        refine ⟨?_, by rw [hlast, bdry_bottom hb]⟩
        have := bdry_lt hb (l := b.tauArr.n - 1) (by omega)
        rw [hlast, bdry_bottom hb] at this
        exact this.le
      obtain ⟨x1, x2⟩ := layOf_spec hb (bottom_pos hb).le le_rfl
      rw [tauStar_layers hb x1 (by omega) x2 hin]
      have := bdryStar_eq b (b.tauArr.n - 1)
      rw [hlast, bdry_bottom hb] at this
      exact this.symm
    have s1 := hstar hacc
    have s2 := hstar hw'.accepted
    have s3 : bdryStar (below a k s') (below a k s').tauArr.n = bdryStar a a.tauArr.n - bdryStar a k := by
      have := lower_bdryStar (a := a) (k := k) (v := 0) (s' := s') (l := a.tauArr.n - k) le_rfl
      rwa [show k + (a.tauArr.n - k) = a.tauArr.n by omega] at this
    have y : Real.exp (-bdryStar a a.tauArr.n / a.mu0)
        = Real.exp (-bdryStar a k / a.mu0) * Real.exp (-(bdryStar a a.tauArr.n - bdryStar a k) / a.mu0) := by
      rw [← Real.exp_add]; congr 1; ring
    have hD : ∀ j < nHalf a, 0 ≤ U 0 (bottom a) (nHalf a + j) - U' 0 (bottom a - x) (nHalf a + j) := by
      intro j hj
      have := (hle (bottom a) hxb le_rfl).1 (nHalf a + j) (by omega)
      rw [e1 _ (by omega), g1 _ (by change nHalf a + j < 2 * nHalf a; omega)] at this
      exact sub_nonneg.2 this
    set mu := node E a with hmu
    set w := weight E a with hwd
    have hwm : ∀ i < nHalf a, 0 < w i * mu i := fun i hi => mul_pos (weight_pos hw.gauss hi) (node_pos hw.gauss hi).1
    suffices hup : ∑ i ∈ range (nHalf a), mu i * w i * (U 0 (bottom a) i - U' 0 (bottom a - x) i)
        ≤ ∑ i ∈ range (nHalf a), mu i * w i * (U 0 (bottom a) (nHalf a + i) - U' 0 (bottom a - x) (nHalf a + i)) by
      have hup' := mul_le_mul_of_nonneg_left hup (show (0 : ℝ) ≤ 2 * Real.pi by positivity)
      simp only [hgdef]
      rw [e2, e3, e4, g2, g3, g4]
      change 2 * Real.pi * ∑ i ∈ range (nHalf a), mu i * w i * U 0 (bottom a) i
          - (2 * Real.pi * ∑ i ∈ range (nHalf a), mu i * w i * U 0 (bottom a) (nHalf a + i)
            + (a.I0 * a.mu0 * Real.exp (-tauStar a (layOf a (bottom a)) (bottom a) / a.mu0) - a.I0 * a.mu0 * Real.exp (-bottom a / a.mu0)))
          - a.I0 * a.mu0 * Real.exp (-bottom a / a.mu0)
        - (2 * Real.pi * ∑ i ∈ range (nHalf a), mu i * w i * U' 0 (bottom a - x) i
          - (2 * Real.pi * ∑ i ∈ range (nHalf a), mu i * w i * U' 0 (bottom a - x) (nHalf a + i)
            + (a.I0 * Real.exp (-bdryStar a k / a.mu0) * a.mu0
                * Real.exp (-tauStar (below a k s') (layOf (below a k s') (bottom a - x)) (bottom a - x) / a.mu0)
              - a.I0 * Real.exp (-bdryStar a k / a.mu0) * a.mu0 * Real.exp (-(bottom a - x) / a.mu0)))
          - a.I0 * Real.exp (-bdryStar a k / a.mu0) * a.mu0 * Real.exp (-(bottom a - x) / a.mu0)) ≤ 0
      rw [s1, ← hbe, s2, s3, y, hbe]
      simp only [mul_sub, sum_sub_distrib] at hup'
      linarith
    rw [hbe] at b2
    have hval : ∀ i < nHalf a, U 0 (bottom a) i - U' 0 (bottom a - x) i
        = if 0 < a.bdrf.length then 2 * ∑ j ∈ range (nHalf a), w j * mu j * rho 0 (mu i) (mu j)
            * (U 0 (bottom a) (nHalf a + j) - U' 0 (bottom a - x) (nHalf a + j)) else 0 := by
      intro i hi
      have c2 : U' 0 (bottom a - x) i = bcVal a.bpos 0 i
          + if 0 < a.bdrf.length then reflected (below a k s') mu w (rho 0) 0 (mu i) (fun j => U' 0 (bottom a - x) (nHalf a + j)) else 0 := b2 i hi
      rw [b1 i hi, c2]
      by_cases hm : 0 < a.bdrf.length
      · rw [if_pos hm, if_pos hm, if_pos hm]
        unfold reflected
        rw [s3]
        change bcVal a.bpos 0 i + ((1 + if (0 : ℕ) = 0 then 1 else 0) * ∑ j ∈ range (nHalf a), w j * mu j * rho 0 (mu i) (mu j) * U 0 (bottom a) (nHalf a + j)
            + a.mu0 * a.I0 / Real.pi * rho 0 (mu i) a.mu0 * Real.exp (-bdryStar a a.tauArr.n / a.mu0))
          - (bcVal a.bpos 0 i + ((1 + if (0 : ℕ) = 0 then 1 else 0) * ∑ j ∈ range (nHalf a), w j * mu j * rho 0 (mu i) (mu j) * U' 0 (bottom a - x) (nHalf a + j)
            + a.mu0 * (a.I0 * Real.exp (-bdryStar a k / a.mu0)) / Real.pi * rho 0 (mu i) a.mu0
              * Real.exp (-(bdryStar a a.tauArr.n - bdryStar a k) / a.mu0))) = _
        rw [y, if_pos rfl, one_add_one_eq_two]
        simp only [mul_sub, sum_sub_distrib]
        ring
      · rw [if_neg hm, if_neg hm, if_neg hm]; ring
    by_cases hm : 0 < a.bdrf.length
    · have hsum : ∑ i ∈ range (nHalf a), mu i * w i * (U 0 (bottom a) i - U' 0 (bottom a - x) i)
          = ∑ j ∈ range (nHalf a), mu j * w j * (U 0 (bottom a) (nHalf a + j) - U' 0 (bottom a - x) (nHalf a + j))
            * (2 * ∑ i ∈ range (nHalf a), w i * mu i * rho 0 (mu i) (mu j)) := by
        have : ∀ i ∈ range (nHalf a), mu i * w i * (U 0 (bottom a) i - U' 0 (bottom a - x) i)
            = ∑ j ∈ range (nHalf a), mu j * w j * (U 0 (bottom a) (nHalf a + j) - U' 0 (bottom a - x) (nHalf a + j))
              * (2 * (w i * mu i * rho 0 (mu i) (mu j))) := by
          intro i hi
          rw [hval i (mem_range.1 hi), if_pos hm, mul_sum, mul_sum]
          exact sum_congr rfl fun j _ => by ring
        rw [sum_congr rfl this, sum_comm]
        exact sum_congr rfl fun j _ => by rw [← mul_sum, ← mul_sum]
      rw [hsum]
      refine sum_le_sum fun j hj => ?_
      have hj' := mem_range.1 hj
      have q := mul_le_mul_of_nonneg_left (hls.1 j hj') (mul_nonneg (hwm j hj').le (hD j hj'))
      rw [mul_one] at q
      rw [mul_comm (mu j) (w j)]
      exact q
    · rw [sum_eq_zero fun i hi => by rw [hval i (mem_range.1 hi), if_neg hm, mul_zero]]
      exact sum_nonneg fun j hj => by
        have hj' := mem_range.1 hj
        rw [mul_comm (mu j) (w j)]
        exact mul_nonneg (hwm j hj').le (hD j hj')
  intro t h0 h1
  have := (hmono ⟨h0, h1⟩ ⟨hxb, le_rfl⟩ h1).trans hgb
  simp only [hgdef] at this
  linarith

/-- **C96, transmission.** If the layers from `k` on emit nothing, then what the whole atmosphere passes on to the ground on balance is at most what its
upper part alone lets through. -/
theorem C96_thicker_transmits_less (hw : WellPosed E a) (hr : Rescalable a) (hr' : Rescalable (above a k)) (hk0 : 0 < k) (hk : k < a.tauArr.n)
    {rho : ℕ → ℝ → ℝ → ℝ} (hrho : SurfaceIs a rho) (hsf : FairSurface a (node E a) (weight E a) (rho 0)) (hsc : NonnegScattering a (node E a))
    (hq : NonnegSources a (node E a)) (hns : ∀ l, k ≤ l → l < a.tauArr.n → ∀ t, InLayer a l t → source a l t = 0)
    {J J' : Junk} {R R' : Solved} (h : pydisort E J a = .ok R) (h' : pydisort E J' (above a k) = .ok R')
    {F F' : Fields} (hF : Evaluates a R F) (hF' : Evaluates (above a k) R' F') :
    ∀ t, bdry a.tauArr.get k ≤ t → t ≤ bottom a →
      F.diffuse t + F.direct t - F.up t ≤ F'.diffuse (bdry a.tauArr.get k) + F'.direct (bdry a.tauArr.get k) := by
  have hacc := hw.accepted
  have hw' : WellPosed E (above a k) := above_wellPosed hw hk0 hk
  obtain ⟨hx0, hxb⟩ := cut_range hacc hk
  have hpos := C71_nonneg h hw.sound hr hw.bottomBC hw.topBC hrho hsf hsc hq hF
  have hlay : ∀ l, k ≤ l → l < a.tauArr.n → MonotoneOn (fun t => F.up t - F.diffuse t - F.direct t) (Set.Icc (bdry a.tauArr.get l) (bdry a.tauArr.get (l + 1))) := by
    intro l hkl hl
    obtain ⟨c1, d1⟩ := net_facts h hw.sound hr hF hl
    have hb0 : 0 ≤ bdry a.tauArr.get l := by
      have := bdry_le hacc (Nat.zero_le l) hl.le
      rwa [bdry_zero] at this
    have hb1 : bdry a.tauArr.get (l + 1) ≤ bottom a := by
      have := bdry_le hacc (show l + 1 ≤ a.tauArr.n by omega) le_rfl
      rwa [bdry_bottom hacc] at this
    refine monotoneOn_of_deriv_nonneg (convex_Icc _ _) c1 ?_ ?_
    · intro t ht
      rw [interior_Icc] at ht
      exact (d1 t ht.1 ht.2).differentiableAt.differentiableWithinAt
    · intro t ht
      rw [interior_Icc] at ht
      rw [(d1 t ht.1 ht.2).deriv, hns l hkl hl t ⟨ht.1.le, ht.2.le⟩, mul_zero, sub_zero]
      have x1 := (effAlbedo_range hacc hl (hw.peak l hl)).2.1
      have x2 := Args.scale_pos hacc hl
      have x3 : 0 ≤ actinic a (weight E a) (F.u0 t) := by
        have := actinic_mono (u := fun _ => 0) hw.gauss (hpos t (hb0.trans ht.1.le) (ht.2.le.trans hb1)).1
        refine le_trans (le_of_eq ?_) this
        unfold actinic; simp
      exact mul_nonneg (mul_nonneg x2.le (by linarith)) (add_nonneg x3 (mul_nonneg hacc.beam (Real.exp_pos _).le))
  have hmono := (monotoneOn_chain (x := fun l => bdry a.tauArr.get l) hk.le
    (fun l _ hl => bdry_le hacc (Nat.le_succ l) (by omega)) hlay).2
  simp only [bdry_bottom hacc] at hmono
  have hcut := C96_what_lies_below_returns_light hw hr hr' hk0 hk hrho hsf hsc hq h h' hF hF' _ hx0 le_rfl
  have hup : 0 ≤ F'.up (bdry a.tauArr.get k) := by
    obtain ⟨U', hU', _⟩ := C02_modes_solve_transfer_equation h' hw'.sound hr'
    have hbe : bottom (above a k) = bdry a.tauArr.get k := upper_bottom (v := 0) hk0
    have hb := (modes_isSolution h' hw'.sound hr' hw'.bottomBC hw'.topBC (rho := rho)
      (fun m _ M hM => by rw [show (above a k).bdrf = [] from rfl] at hM; simp at hM) hU' (nFourier_pos h' hw'.sound)).bot
    obtain ⟨-, g2, -, -⟩ := evaluates_unique hF' (evaluates h' hr' hU') hx0 hbe.ge
    rw [g2]
    refine le_of_eq ?_
    change 0 = 2 * Real.pi * ∑ i ∈ range (nHalf a), node E a i * weight E a i * U' 0 (bdry a.tauArr.get k) i
    rw [sum_eq_zero, mul_zero]
    intro i hi
    have := hb i (mem_range.1 hi)
    rw [hbe, if_neg (by change ¬ 0 < ([] : List BDRFMode).length; simp), add_zero] at this
    rw [this, show bcVal (above a k).bpos 0 i = 0 from bcVal_dark 0 i, mul_zero]
  intro t h0 h1
  have := hmono ⟨le_rfl, hxb⟩ ⟨h0, h1⟩ h0
  simp only at this
  linarith

/-- All three theorems apply, for every number of streams: two layers with beam, illumination from above and below, a reflecting and shining surface, and an
internal source in the upper layer. -/
example {n : ℕ} (hn : 0 < n) (J : Junk) : ∃ (a : Args) (s' : A2 ℝ) (R R₁ R₂ : Solved) (F F₁ F₂ : Fields), nHalf a = n ∧ WellPosed refExt a ∧ Rescalable a
    ∧ Rescalable (above a 1) ∧ Rescalable (below a 1 s') ∧ 1 < a.tauArr.n ∧ s'.r = a.tauArr.n - 1 ∧ s'.c ≤ 21
    ∧ (∀ l < a.tauArr.n - 1, ∀ t, ∑ j ∈ range s'.c, s'.get l j * t ^ j = source a (1 + l) (t + bdry a.tauArr.get 1))
    ∧ SurfaceIs a (fun _ _ _ => 1 / 3) ∧ FairSurface a (node refExt a) (weight refExt a) (fun _ _ => 1 / 3)
    ∧ LossySurface a (node refExt a) (weight refExt a) (fun _ _ => 1 / 3)
    ∧ NonnegScattering a (node refExt a) ∧ NonnegSources a (node refExt a)
    ∧ (∀ l, 1 ≤ l → l < a.tauArr.n → ∀ t, InLayer a l t → source a l t = 0) ∧ source a 0 0 = 1
    ∧ pydisort refExt J a = .ok R ∧ pydisort refExt J (above a 1) = .ok R₁ ∧ pydisort refExt J (below a 1 s') = .ok R₂
    ∧ Evaluates a R F ∧ Evaluates (above a 1) R₁ F₁ ∧ Evaluates (below a 1 s') R₂ F₂ := by
  obtain ⟨x, h0, h1, hw⟩ := demoMild_wellPosed hn
  have hh : nHalf (demoMild n x) = n := demo_nHalf x
  have hg : GaussContract refExt (nHalf (demoMild n x)) := by rw [hh]; exact refExt_gauss hn
  set S : Sources := ⟨1, .scalar 1, .scalar 1, ⟨2, 2, fun l _ => if l = 0 then 1 else 0⟩⟩ with hSd
  set s' : A2 ℝ := ⟨1, 1, fun _ _ => 0⟩ with hs'
  have hw' : WellPosed refExt (under (demoMild n x) S) := wellPosed_under hw zero_le_one (fun _ => one_pos) trivial trivial trivial trivial rfl
  set a := under (demoMild n x) S with ha
  have hr : Rescalable a := Or.inl (Or.inl one_pos)
  have hr₁ : Rescalable (above a 1) := Or.inl (Or.inl one_pos)
  have hr₂ : Rescalable (below a 1 s') := Or.inl (Or.inl (mul_pos one_pos (Real.exp_pos _)))
  have hk : 1 < a.tauArr.n := Nat.one_lt_two
  have hw₁ := above_wellPosed hw' one_pos hk
  have hw₂ := below_wellPosed (s' := s') hw' hk rfl (Nat.le_of_ble_eq_true rfl)
  obtain ⟨R, h⟩ := pydisort_isOk hw' J
  obtain ⟨R₁, h₁⟩ := pydisort_isOk hw₁ J
  obtain ⟨R₂, h₂⟩ := pydisort_isOk hw₂ J
  obtain ⟨F, hF⟩ := evaluates_exists h hw'.sound hr
  obtain ⟨F₁, hF₁⟩ := evaluates_exists h₁ hw₁.sound hr₁
  obtain ⟨F₂, hF₂⟩ := evaluates_exists h₂ hw₂.sound hr₂
  have hsf := demoMild_surface (n := n) (x := x) hn
  have hz : ∀ l, 1 ≤ l → ∀ t, source a l t = 0 := fun l hl t => by
    have : l ≠ 0 := by omega
    simp [source, ha, under, hSd, this]
  have hp : ∀ l t, 0 ≤ t → 0 ≤ source a l t := fun l t ht => by
    rcases l with _ | l
    · simp [source, ha, under, hSd, sum_range_succ]; linarith
    · exact (hz _ (by omega) t).ge
  have hsum : 2 * ∑ i ∈ range (nHalf (demoMild n x)), weight refExt (demoMild n x) i * node refExt (demoMild n x) i * (1 / 3) ≤ 1 := by
    rw [← sum_mul, sum_weight_node hg (by rw [hh]; exact hn)]; norm_num
  refine ⟨a, s', R, R₁, R₂, F, F₁, F₂, hh, hw', hr, hr₁, hr₂, hk, rfl, Nat.le_of_ble_eq_true rfl, fun l _ t => ?_, fun m _ => demo_rho (n := n) x m,
    ⟨hsf.nonneg, hsf.beam, hsf.bounded⟩, ⟨fun j _ => hsum, hsum⟩, demoMild_scattering hn x,
    ⟨(demoMild_sources hn h0 h1).beam, fun l hl t ht => hp l t ?_, fun i _ => ?_, fun i _ => ?_⟩, fun l hl _ t _ => hz l hl t, ?_, h, h₁, h₂, hF, hF₁, hF₂⟩
  · rw [hz _ (by omega)]; simp [hs']
  · have := bdry_le hw'.accepted (Nat.zero_le l) hl.le
    rw [bdry_zero] at this
    exact this.trans ht.1
  · simp [ha, under, hSd, bcVal]
  · simp [ha, under, hSd, bcVal]
  · simp [source, ha, under, hSd, sum_range_succ]

end Pydisort

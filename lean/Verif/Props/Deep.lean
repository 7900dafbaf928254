import Verif.Props.Decay
import Verif.Props.Neighbours

/-!
# C102: what lies beyond an absorbing layer hardly matters

Specification used: `Spec.above`, `Spec.below`, `Spec.absBetween`, `Spec.NonnegScattering`, `Spec.FairSurface`.
-/

namespace Pydisort
open Finset Spec

variable {E : Ext} {a : Args} {k : ℕ} {s' : A2 ℝ} {S₁ S₂ : Sources}

/-- Two solutions whose sources differ within some layers. -/
theorem screen_abs (hacc₁ : Accepted (under a S₁)) (hacc₂ : Accepted (under a S₂)) (hg : GaussContract E (nHalf a)) (hpk : ∀ l < a.tauArr.n, peak a l < 1)
    (hk : NonnegScattering a (node E a)) {rho : ℝ → ℝ → ℝ} (hsf : FairSurface a (node E a) (weight E a) rho) {l₁ l₂ : ℕ}
    (hl12 : l₁ ≤ l₂) (hl2 : l₂ ≤ a.tauArr.n) {ε : ℝ} (hε : 0 ≤ ε) (hc : DifferWithin a (node E a) (weight E a) rho S₁ S₂ l₁ l₂ ε)
    (hbp₁ : Azimuthless S₁.bpos) (hbn₁ : Azimuthless S₁.bneg) (hbp₂ : Azimuthless S₂.bpos) (hbn₂ : Azimuthless S₂.bneg) {V₁ V₂ : ℝ → ℕ → ℝ}
    (hV₁ : IsSolution (under a S₁) (node E a) (weight E a) rho 0 V₁) (hV₂ : IsSolution (under a S₂) (node E a) (weight E a) rho 0 V₂) :
    ∀ t, 0 ≤ t → t ≤ bottom a → ∀ i < 2 * nHalf a, |V₁ t i - V₂ t i| ≤ ε * Real.exp (-absBetween a l₁ l₂ t) := by
  have hb := below_less hc.le
  have ha₁ := accepted_less hacc₂ hacc₁.beam hc.le.beam.le
  have ha₂ := accepted_less hacc₁ hacc₂.beam hc.le.beam.ge
  obtain ⟨s1, s2, s3⟩ := screen_less hc
  obtain ⟨t1, t2, t3⟩ := screen_less (differWithin_symm hc)
  have hle₁ := screen_le (E := E) (a := under a (lessSources a S₁ S₂)) ha₁ hg hpk hk ⟨hsf.nonneg, hsf.beam, hsf.bounded⟩ hb.1.noBeam hl12 hl2 hε hb.1
    s1 s2 s3 (isSolution_less hbp₁ hbn₁ hbp₂ hbn₂ hV₁ hV₂)
  have hle₂ := screen_le (E := E) (a := under a (lessSources a S₂ S₁)) ha₂ hg hpk hk ⟨hsf.nonneg, hsf.beam, hsf.bounded⟩ hb.2.noBeam hl12 hl2 hε hb.2
    t1 t2 t3 (isSolution_less hbp₂ hbn₂ hbp₁ hbn₁ hV₂ hV₁)
  intro t h0 h1 i hi
  have x1 : V₂ t i - V₁ t i ≤ ε * Real.exp (-absBetween a l₁ l₂ t) := hle₁ t h0 h1 i hi
  have x2 : V₁ t i - V₂ t i ≤ ε * Real.exp (-absBetween a l₁ l₂ t) := hle₂ t h0 h1 i hi
  rw [abs_le]
  exact ⟨by linarith, x2⟩

/-! ### Absorption depths of the parts -/

theorem absDepth_upper (hacc : Accepted a) {v : ℕ → ℝ} (hk : k ≤ a.tauArr.n) {t : ℝ} (h1 : t ≤ bdry a.tauArr.get k) :
    absDepth (upperPart a k v) t = absDepth a t := by
  unfold absDepth
  change ∑ j ∈ range k, (1 - a.omega.get j) * max 0 (min (t - bdry a.tauArr.get j) (bdry a.tauArr.get (j + 1) - bdry a.tauArr.get j)) = _
  rw [← sum_range_add_sum_Ico _ hk, left_eq_add]
  refine sum_eq_zero fun j hj => ?_
  obtain ⟨h2, h3⟩ := mem_Ico.1 hj
  have := bdry_le hacc h2 h3.le
  rw [max_eq_left ((min_le_left _ _).trans (by linarith)), mul_zero]

theorem absBetween_upper (hacc : Accepted a) {v : ℕ → ℝ} (hk0 : 0 < k) (hk : k < a.tauArr.n) {t : ℝ} (h1 : t ≤ bdry a.tauArr.get k) :
    absBetween (upperPart a k v) k k t = absBetween a k k t := by
  unfold absBetween
  change max 0 (max (absDepth (upperPart a k v) (bdry a.tauArr.get k) - _) (_ - absDepth (upperPart a k v) (bdry a.tauArr.get k))) = _
  rw [absDepth_upper hacc hk.le h1, absDepth_upper hacc hk.le le_rfl]

theorem absDepth_lower (hacc : Accepted a) {v : ℕ → ℝ} (hk : k ≤ a.tauArr.n) {t : ℝ} (h0 : bdry a.tauArr.get k ≤ t) :
    absDepth (lowerPart a k v s') (t - bdry a.tauArr.get k) = absDepth a t - absDepth a (bdry a.tauArr.get k) := by
  have e : absDepth (lowerPart a k v s') (t - bdry a.tauArr.get k)
      = ∑ j ∈ Ico k a.tauArr.n, (1 - a.omega.get j) * max 0 (min (t - bdry a.tauArr.get j) (bdry a.tauArr.get (j + 1) - bdry a.tauArr.get j)) := by
    rw [sum_Ico_eq_sum_range]
    unfold absDepth
    change ∑ j ∈ range (a.tauArr.n - k), _ = _
    refine sum_congr rfl fun j _ => ?_
    rw [lower_bdry, lower_bdry]
    change (1 - a.omega.get (k + j)) * _ = _
    congr 2
    · rw [add_assoc]
      congr 1 <;> ring
  rw [e]
  unfold absDepth
  rw [← sum_sub_distrib, ← sum_range_add_sum_Ico _ hk, sum_eq_zero (s := range k), zero_add]
  · refine sum_congr rfl fun j hj => ?_
    obtain ⟨h2, h3⟩ := mem_Ico.1 hj
    have := bdry_le hacc h2 h3.le
    rw [max_eq_left (a := (0 : ℝ)) (b := min (bdry a.tauArr.get k - _) _) ((min_le_left _ _).trans (by linarith)), mul_zero, sub_zero]
  · intro j hj
    have hj := mem_range.1 hj
    have := bdry_le hacc (show j + 1 ≤ k from hj) hk
    rw [min_eq_right (by linarith), min_eq_right (by linarith), sub_self]

theorem absBetween_lower (hacc : Accepted a) {v : ℕ → ℝ} (hk : k < a.tauArr.n) {t : ℝ} (h0 : bdry a.tauArr.get k ≤ t) :
    absBetween (lowerPart a k v s') 0 0 (t - bdry a.tauArr.get k) = absBetween a k k t := by
  have e := absDepth_lower (s' := s') (v := v) hacc hk.le (le_refl (bdry a.tauArr.get k))
  rw [sub_self, sub_self] at e
  unfold absBetween
  rw [bdry_zero, e, absDepth_lower hacc hk.le h0, zero_sub, sub_zero, neg_sub]

/-! ### The solutions -/

/-- In the upper part the solutions for the whole and for the part alone differ by what enters at the cut, screened. -/
theorem above_near (hacc : Accepted a) (hg : GaussContract E (nHalf a)) (hpk : ∀ l < a.tauArr.n, peak a l < 1) (hk0 : 0 < k) (hk : k < a.tauArr.n)
    (hsc : NonnegScattering a (node E a)) (hbn : Azimuthless a.bneg) {rho : ℝ → ℝ → ℝ} {V W : ℝ → ℕ → ℝ} {D : ℝ} (hD0 : 0 ≤ D)
    (hV : IsSolution a (node E a) (weight E a) rho 0 V) (hW : IsSolution (above a k) (node E a) (weight E a) (fun _ _ => 0) 0 W)
    (hD : ∀ i < nHalf a, |V (bdry a.tauArr.get k) i| ≤ D) :
    ∀ t, 0 ≤ t → t ≤ bdry a.tauArr.get k → ∀ i < 2 * nHalf a, |W t i - V t i| ≤ D * Real.exp (-absBetween a k k t) := by
  set v : ℕ → ℝ := fun i => V (bdry a.tauArr.get k) i with hv
  have hu : IsSolution (upperPart a k v) (node E a) (weight E a) (fun _ _ => 0) 0 V := upper_isSolution hacc hk0 hk hV (fun i _ => rfl) _
  have hrf : ∀ x, reflectance (upperPart a k v) (node E a) (weight E a) (fun _ _ => 0) x = 0 := fun x => by
    unfold reflectance
    rw [if_neg (by change ¬ 0 < ([] : List BDRFMode).length; simp)]
  have key := screen_abs (E := E) (a := upperPart a k v) (S₁ := ⟨a.I0, .scalar 0, a.bneg, (above a k).s⟩)
    (S₂ := ⟨a.I0, .vec ⟨nHalf a, v⟩, a.bneg, (above a k).s⟩) (rho := fun _ _ => 0) (l₁ := k) (l₂ := k) (V₁ := W) (V₂ := V) (ε := D)
    { upper_accepted (v := v) hacc hk0 hk with bottom := trivial } (upper_accepted hacc hk0 hk) hg
    (fun l hl => by
      have hl' : l < k := hl
      rw [upper_peak hl']; exact hpk l (by omega))
    (fun l hl => by
      have hl' : l < k := hl
      rw [upper_kernel hl']; exact hsc l (by omega))
    ⟨fun _ _ _ _ => le_rfl, fun _ _ => le_rfl, fun i _ => by
      change reflectance (upperPart a k v) (node E a) (weight E a) _ _ ≤ 1
      rw [hrf]; exact zero_le_one⟩
    le_rfl le_rfl hD0
    ⟨⟨rfl, fun l _ t _ => by
        change |source (upperPart a k v) l t - source (upperPart a k v) l t| ≤ D
        rw [sub_self, abs_zero]; exact hD0, fun i _ => by
        change |bcVal a.bneg 0 i - bcVal a.bneg 0 i| ≤ D
        rw [sub_self, abs_zero]; exact hD0, fun i hi => by
        have hi' : i < nHalf a := hi
        change |bcVal (.scalar 0) 0 i - bcVal (.vec ⟨nHalf a, v⟩) 0 i|
          ≤ (1 - reflectance (upperPart a k v) (node E a) (weight E a) (fun _ _ => 0) _) * D
        rw [hrf, bcVal_dark, bcVal_vec hi', zero_sub, abs_neg, sub_zero, one_mul]
        exact hD i hi'⟩, fun _ _ _ _ _ => rfl, fun _ _ _ => rfl, fun h => absurd h (lt_irrefl k)⟩
    trivial hbn trivial hbn ⟨hW.cont, hW.ode, hW.top, hW.bot⟩ hu
  rw [upper_bottom hk0] at key
  intro t h0 h1 i hi
  rw [← absBetween_upper (v := v) hacc hk0 hk h1]
  exact key t h0 h1 i hi

/-- In the lower part the solutions for the whole and for the part alone differ by what enters at the cut, screened. -/
theorem below_near (hacc : Accepted a) (hg : GaussContract E (nHalf a)) (hpk : ∀ l < a.tauArr.n, peak a l < 1) (hk : k < a.tauArr.n)
    (hs : s'.r = a.tauArr.n - k)
    (hsrc : ∀ l < a.tauArr.n - k, ∀ t, source (below a k s') l t = source a (k + l) (t + bdry a.tauArr.get k))
    (hsc : NonnegScattering a (node E a)) {rho : ℝ → ℝ → ℝ} (hsf : FairSurface a (node E a) (weight E a) rho) (hbp : Azimuthless a.bpos)
    {V W : ℝ → ℕ → ℝ} {D : ℝ} (hD0 : 0 ≤ D) (hV : IsSolution a (node E a) (weight E a) rho 0 V)
    (hW : IsSolution (below a k s') (node E a) (weight E a) rho 0 W) (hD : ∀ i < nHalf a, |V (bdry a.tauArr.get k) (nHalf a + i)| ≤ D) :
    ∀ t, bdry a.tauArr.get k ≤ t → t ≤ bottom a → ∀ i < 2 * nHalf a,
      |W (t - bdry a.tauArr.get k) i - V t i| ≤ D * Real.exp (-absBetween a k k t) := by
  set v : ℕ → ℝ := fun i => V (bdry a.tauArr.get k) (nHalf a + i) with hv
  have hl : IsSolution (lowerPart a k v s') (node E a) (weight E a) rho 0 (fun t => V (t + bdry a.tauArr.get k)) :=
    lower_isSolution hacc hk hsrc hV (fun i _ => rfl)
  have key := screen_abs (E := E) (a := lowerPart a k v s') (S₁ := ⟨a.I0 * Real.exp (-bdryStar a k / a.mu0), a.bpos, .scalar 0, s'⟩)
    (S₂ := ⟨a.I0 * Real.exp (-bdryStar a k / a.mu0), a.bpos, .vec ⟨nHalf a, v⟩, s'⟩) (rho := rho) (l₁ := 0) (l₂ := 0) (ε := D) (V₁ := W)
    (V₂ := fun t => V (t + bdry a.tauArr.get k)) { lower_accepted (v := v) hacc hk hs with topBC := trivial } (lower_accepted hacc hk hs) hg
    (fun l hl => by
      have hl' : l < a.tauArr.n - k := hl
      rw [lower_peak hl']; exact hpk _ (by omega))
    (fun l hl => by
      have hl' : l < a.tauArr.n - k := hl
      rw [lower_kernel hl']; exact hsc _ (by omega))
    ⟨hsf.nonneg, hsf.beam, hsf.bounded⟩ le_rfl (Nat.zero_le _) hD0
    ⟨⟨rfl, fun l _ t _ => by
        change |source (lowerPart a k v s') l t - source (lowerPart a k v s') l t| ≤ D
        rw [sub_self, abs_zero]; exact hD0, fun i hi => by
        have hi' : i < nHalf a := hi
        change |bcVal (.scalar 0) 0 i - bcVal (.vec ⟨nHalf a, v⟩) 0 i| ≤ D
        rw [bcVal_dark, bcVal_vec hi', zero_sub, abs_neg]
        exact hD i hi', fun i hi => by
        have hi' : i < nHalf a := hi
        have hb : reflectance a (node E a) (weight E a) rho (node E a i) ≤ 1 := hsf.bounded i hi'
        change |bcVal a.bpos 0 i - bcVal a.bpos 0 i| ≤ (1 - reflectance a (node E a) (weight E a) rho (node E a i)) * D
        rw [sub_self, abs_zero]
        exact mul_nonneg (by linarith) hD0⟩, fun _ _ _ _ _ => rfl, fun h => absurd h (lt_irrefl 0), fun _ _ _ => rfl⟩
    hbp trivial hbp trivial ⟨hW.cont, hW.ode, hW.top, hW.bot⟩ hl
  rw [lower_bottom hacc hk] at key
  intro t h0 h1 i hi
  have := key (t - bdry a.tauArr.get k) (by linarith) (by linarith) i hi
  rw [absBetween_lower hacc hk h0] at this
  simpa only [sub_add_cancel] using this

/-- Fluxes differ by at most `π` times what the intensities differ by. -/
theorem hemiFlux_near (hg : GaussContract E (nHalf a)) (hn : 0 < nHalf a) {e : ℝ} {v v' : Vec} (hv : ∀ i < nHalf a, |v i - v' i| ≤ e) :
    |hemiFlux a (node E a) (weight E a) v - hemiFlux a (node E a) (weight E a) v'| ≤ Real.pi * e := by
  have hcst := hemiFlux_const hg hn e
  have x1 := hemiFlux_mono (E := E) (a := a) hg (v := v) (v' := fun i => v' i + e) fun i hi => by linarith [(abs_le.1 (hv i hi)).2]
  have x2 := hemiFlux_mono (E := E) (a := a) hg (v := v') (v' := fun i => v i + e) fun i hi => by linarith [(abs_le.1 (hv i hi)).1]
  have y1 := hemiFlux_add a (node E a) (weight E a) v' (fun _ => e)
  have y2 := hemiFlux_add a (node E a) (weight E a) v (fun _ => e)
  change hemiFlux a (node E a) (weight E a) (fun _ => e) = Real.pi * e at hcst
  rw [hcst] at y1 y2
  rw [abs_le]
  exact ⟨by linarith, by linarith⟩

/-! ### What the code returns -/

/-- **C102, below.** Leave out everything below an interface, surface and all. At a depth above it the mean intensity of no stream changes by more than `D * exp (-A)`, where `D` is
the largest intensity that came up through the interface and `A` the absorption optical depth between the depth and the interface, and the diffuse fluxes change by at most `π` times
this. Nothing is assumed about the signs of the sources, nor about what is left out. -/
theorem C102_what_lies_below_is_screened (hw : WellPosed E a) (hr : Rescalable a) (hr' : Rescalable (above a k)) (hk0 : 0 < k) (hk : k < a.tauArr.n)
    (hsc : NonnegScattering a (node E a)) {J J' : Junk} {R R' : Solved} (h : pydisort E J a = .ok R) (h' : pydisort E J' (above a k) = .ok R')
    {F F' : Fields} (hF : Evaluates a R F) (hF' : Evaluates (above a k) R' F') {D : ℝ} (hD : ∀ i < nHalf a, |F.u0 (bdry a.tauArr.get k) i| ≤ D) :
    ∀ t, 0 ≤ t → t ≤ bdry a.tauArr.get k →
      (∀ i < 2 * nHalf a, |F'.u0 t i - F.u0 t i| ≤ D * Real.exp (-absBetween a k k t)) ∧
      |F'.up t - F.up t| ≤ Real.pi * (D * Real.exp (-absBetween a k k t)) ∧
      |F'.diffuse t - F.diffuse t| ≤ Real.pi * (D * Real.exp (-absBetween a k k t)) ∧ F'.direct t = F.direct t := by
  intro t h0 h1
  have hacc := hw.accepted
  have hw' : WellPosed E (above a k) := above_wellPosed hw hk0 hk
  have hn0 : 0 < nHalf a := streams_pos hacc
  obtain ⟨hx0, hxb⟩ := cut_range hacc hk
  obtain ⟨U, hU, _⟩ := C02_modes_solve_transfer_equation h hw.sound hr
  obtain ⟨U', hU', _⟩ := C02_modes_solve_transfer_equation h' hw'.sound hr'
  obtain ⟨rho, hrho⟩ := surface_exists hw.surface
  obtain ⟨c1, -, -, -⟩ := evaluates_unique hF (evaluates h hr hU) hx0 hxb
  have hle := above_near (E := E) hacc hw.gauss hw.peak hk0 hk hsc hw.topBC ((abs_nonneg _).trans (hD 0 hn0))
    (modes_isSolution h hw.sound hr hw.bottomBC hw.topBC hrho hU (nFourier_pos h hw.sound))
    (modes_isSolution h' hw'.sound hr' hw'.bottomBC hw'.topBC (rho := fun _ _ _ => 0)
      (fun m _ M hM => by rw [show (above a k).bdrf = [] from rfl] at hM; simp at hM) hU' (nFourier_pos h' hw'.sound))
    (fun i hi => by have := hD i hi; rwa [c1 i (by omega)] at this) t h0 h1
  have h1' : t ≤ bottom (above a k) := by rw [show bottom (above a k) = bdry a.tauArr.get k from upper_bottom (v := 0) hk0]; exact h1
  obtain ⟨e1, e2, e3, e4⟩ := evaluates_unique hF (evaluates h hr hU) h0 (h1.trans hxb)
  obtain ⟨g1, g2, g3, g4⟩ := evaluates_unique hF' (evaluates h' hr' hU') h0 h1'
  refine ⟨fun i hi => by rw [e1 i hi, g1 i hi]; exact hle i hi, ?_, ?_, ?_⟩
  · rw [e2, g2]
    exact hemiFlux_near (a := a) hw.gauss hn0 fun i hi => hle i (by omega)
  · rw [e3, g3]
    have l1 := layOf_spec hacc h0 (h1.trans hxb)
    have l2 := layOf_spec hw'.accepted h0 h1'
    have l3 : layOf (above a k) t < k := l2.1
    have e : tauStar (above a k) (layOf (above a k) t) t = tauStar a (layOf a t) t := by
      rw [show tauStar (above a k) (layOf (above a k) t) t = tauStar a (layOf (above a k) t) t from upper_tauStar (v := 0) l3 t]
      exact tauStar_layers hacc (by omega) l1.1 l2.2 l1.2
    change |hemiFlux a (node E a) (weight E a) (fun i => U' 0 t (nHalf a + i))
        + (a.I0 * a.mu0 * Real.exp (-tauStar (above a k) (layOf (above a k) t) t / a.mu0) - a.I0 * a.mu0 * Real.exp (-t / a.mu0))
      - (hemiFlux a (node E a) (weight E a) (fun i => U 0 t (nHalf a + i))
        + (a.I0 * a.mu0 * Real.exp (-tauStar a (layOf a t) t / a.mu0) - a.I0 * a.mu0 * Real.exp (-t / a.mu0)))| ≤ _
    rw [e, add_sub_add_right_eq_sub]
    exact hemiFlux_near (a := a) hw.gauss hn0 fun i hi => hle _ (by omega)
  · rw [e4, g4]; rfl

/-- **C102, above.** Leave out everything above an interface except its attenuation of the beam. At a depth below it the mean intensity of no stream changes by more than
`D * exp (-A)`, where `D` is the largest diffuse intensity that came down through the interface and `A` the absorption optical depth between the interface and the depth, and the
upward and the total downward flux change by at most `π` times this. -/
theorem C102_what_lies_above_is_screened (hw : WellPosed E a) (hr : Rescalable a) (hr' : Rescalable (below a k s')) (hk : k < a.tauArr.n)
    (hs : s'.r = a.tauArr.n - k) (hd : s'.c ≤ 21)
    (hsrc : ∀ l < a.tauArr.n - k, ∀ t, ∑ j ∈ range s'.c, s'.get l j * t ^ j = source a (k + l) (t + bdry a.tauArr.get k))
    {rho : ℕ → ℝ → ℝ → ℝ} (hrho : SurfaceIs a rho) (hsf : FairSurface a (node E a) (weight E a) (rho 0)) (hsc : NonnegScattering a (node E a))
    {J J' : Junk} {R R' : Solved} (h : pydisort E J a = .ok R) (h' : pydisort E J' (below a k s') = .ok R')
    {F F' : Fields} (hF : Evaluates a R F) (hF' : Evaluates (below a k s') R' F') {D : ℝ}
    (hD : ∀ i < nHalf a, |F.u0 (bdry a.tauArr.get k) (nHalf a + i)| ≤ D) :
    ∀ t, bdry a.tauArr.get k ≤ t → t ≤ bottom a →
      (∀ i < 2 * nHalf a, |F'.u0 (t - bdry a.tauArr.get k) i - F.u0 t i| ≤ D * Real.exp (-absBetween a k k t)) ∧
      |F'.up (t - bdry a.tauArr.get k) - F.up t| ≤ Real.pi * (D * Real.exp (-absBetween a k k t)) ∧
      |(F'.diffuse (t - bdry a.tauArr.get k) + F'.direct (t - bdry a.tauArr.get k)) - (F.diffuse t + F.direct t)|
        ≤ Real.pi * (D * Real.exp (-absBetween a k k t)) := by
  intro t h0 h1
  have hacc := hw.accepted
  have hw' : WellPosed E (below a k s') := below_wellPosed hw hk hs hd
  have hn0 : 0 < nHalf a := streams_pos hacc
  obtain ⟨hx0, hxb⟩ := cut_range hacc hk
  obtain ⟨U, hU, _⟩ := C02_modes_solve_transfer_equation h hw.sound hr
  obtain ⟨U', hU', _⟩ := C02_modes_solve_transfer_equation h' hw'.sound hr'
  have hsrc' : ∀ l < a.tauArr.n - k, ∀ t, source (below a k s') l t = source a (k + l) (t + bdry a.tauArr.get k) := by
    intro l hl t
    rw [← hsrc l hl t]
    conv_lhs => unfold source
    exact if_pos (show l < s'.r by rw [hs]; exact hl)
  obtain ⟨c1, -, -, -⟩ := evaluates_unique hF (evaluates h hr hU) hx0 hxb
  have hle := below_near (E := E) hacc hw.gauss hw.peak hk hs hsrc' hsc hsf hw.bottomBC ((abs_nonneg _).trans (hD 0 hn0))
    (modes_isSolution h hw.sound hr hw.bottomBC hw.topBC hrho hU (nFourier_pos h hw.sound))
    (modes_isSolution h' hw'.sound hr' hw'.bottomBC hw'.topBC (rho := rho) hrho hU' (nFourier_pos h' hw'.sound))
    (fun i hi => by have := hD i hi; rwa [c1 _ (by omega)] at this) t h0 h1
  set x := bdry a.tauArr.get k with hx
  have h1' : t - x ≤ bottom (below a k s') := by
    rw [show bottom (below a k s') = bottom a - x from lower_bottom (v := 0) (s' := s') hacc hk]; linarith
  obtain ⟨e1, e2, e3, e4⟩ := evaluates_unique hF (evaluates h hr hU) (hx0.trans h0) h1
  obtain ⟨g1, g2, g3, g4⟩ := evaluates_unique hF' (evaluates h' hr' hU') (sub_nonneg.2 h0) h1'
  refine ⟨fun i hi => by rw [e1 i hi, g1 i hi]; exact hle i hi, ?_, ?_⟩
  · rw [e2, g2]
    exact hemiFlux_near (a := a) hw.gauss hn0 fun i hi => hle i (by omega)
  · rw [e3, e4, g3, g4]
    have l1 := layOf_spec hacc (hx0.trans h0) h1
    have l2 := layOf_spec hw'.accepted (sub_nonneg.2 h0) h1'
    set j := layOf (below a k s') (t - x) with hj
    have l3 : j < a.tauArr.n - k := l2.1
    have l4 : InLayer a (k + j) t := by
      have := l2.2
      unfold InLayer at this ⊢
      rw [show bdry (below a k s').tauArr.get j = _ from lower_bdry (v := 0) (s' := s') j,
        show bdry (below a k s').tauArr.get (j + 1) = _ from lower_bdry (v := 0) (s' := s') (j + 1)] at this
      rw [add_assoc]
      exact ⟨by linarith [this.1], by linarith [this.2]⟩
    have e : tauStar (below a k s') j (t - x) = tauStar a (layOf a t) t - bdryStar a k := by
      rw [show tauStar (below a k s') j (t - x) = _ from lower_tauStar (v := 0) (s' := s') l3 (t - x), sub_add_cancel]
      rw [tauStar_layers hacc (by omega) l1.1 l4 l1.2]
    change |hemiFlux a (node E a) (weight E a) (fun i => U' 0 (t - x) (nHalf a + i))
        + (a.I0 * Real.exp (-bdryStar a k / a.mu0) * a.mu0 * Real.exp (-tauStar (below a k s') j (t - x) / a.mu0)
          - a.I0 * Real.exp (-bdryStar a k / a.mu0) * a.mu0 * Real.exp (-(t - x) / a.mu0))
        + a.I0 * Real.exp (-bdryStar a k / a.mu0) * a.mu0 * Real.exp (-(t - x) / a.mu0)
      - (hemiFlux a (node E a) (weight E a) (fun i => U 0 t (nHalf a + i))
        + (a.I0 * a.mu0 * Real.exp (-tauStar a (layOf a t) t / a.mu0) - a.I0 * a.mu0 * Real.exp (-t / a.mu0))
        + a.I0 * a.mu0 * Real.exp (-t / a.mu0))| ≤ _
    rw [e]
    have y : Real.exp (-tauStar a (layOf a t) t / a.mu0)
        = Real.exp (-bdryStar a k / a.mu0) * Real.exp (-(tauStar a (layOf a t) t - bdryStar a k) / a.mu0) := by
      rw [← Real.exp_add]; congr 1; ring
    rw [y]
    have := hemiFlux_near (a := a) (E := E) (v := fun i => U' 0 (t - x) (nHalf a + i)) (v' := fun i => U 0 t (nHalf a + i)) hw.gauss hn0
      fun i hi => hle _ (by omega)
    refine le_trans (le_of_eq ?_) this
    congr 1
    ring

/-- The hypotheses of C102 are met, for every number of streams: `demoMild` cut between its two layers, each of which absorbs. -/
example {n : ℕ} (hn : 0 < n) (J : Junk) : ∃ (x : ℝ) (R R₁ R₂ : Solved) (F F₁ F₂ : Fields) (D : ℝ), WellPosed refExt (demoMild n x) ∧ Rescalable (demoMild n x)
    ∧ Rescalable (above (demoMild n x) 1) ∧ Rescalable (below (demoMild n x) 1 demoTail) ∧ 1 < (demoMild n x).tauArr.n
    ∧ demoTail.r = (demoMild n x).tauArr.n - 1 ∧ demoTail.c ≤ 21
    ∧ (∀ l < (demoMild n x).tauArr.n - 1, ∀ t, ∑ j ∈ range demoTail.c, demoTail.get l j * t ^ j
        = source (demoMild n x) (1 + l) (t + bdry (demoMild n x).tauArr.get 1))
    ∧ SurfaceIs (demoMild n x) (fun _ _ _ => 1 / 3)
    ∧ FairSurface (demoMild n x) (node refExt (demoMild n x)) (weight refExt (demoMild n x)) (fun _ _ => 1 / 3)
    ∧ NonnegScattering (demoMild n x) (node refExt (demoMild n x))
    ∧ pydisort refExt J (demoMild n x) = .ok R ∧ pydisort refExt J (above (demoMild n x) 1) = .ok R₁
    ∧ pydisort refExt J (below (demoMild n x) 1 demoTail) = .ok R₂
    ∧ Evaluates (demoMild n x) R F ∧ Evaluates (above (demoMild n x) 1) R₁ F₁ ∧ Evaluates (below (demoMild n x) 1 demoTail) R₂ F₂
    ∧ (∀ i < 2 * nHalf (demoMild n x), |F.u0 (bdry (demoMild n x).tauArr.get 1) i| ≤ D)
    ∧ 0 < absBetween (demoMild n x) 1 1 0 ∧ 0 < absBetween (demoMild n x) 1 1 (bottom (demoMild n x)) := by
  obtain ⟨x, h0, h1, hw⟩ := demoMild_wellPosed hn
  have hr : Rescalable (demoMild n x) := Or.inl (Or.inl one_pos)
  have hr₁ : Rescalable (above (demoMild n x) 1) := Or.inl (Or.inl one_pos)
  have hr₂ : Rescalable (below (demoMild n x) 1 demoTail) := Or.inl (Or.inl (mul_pos one_pos (Real.exp_pos _)))
  have hk : 1 < (demoMild n x).tauArr.n := Nat.one_lt_two
  have hw₁ := above_wellPosed hw one_pos hk
  have hw₂ := below_wellPosed (s' := demoTail) hw hk rfl (Nat.le_of_ble_eq_true rfl)
  obtain ⟨R, h⟩ := pydisort_isOk hw J
  obtain ⟨R₁, h₁⟩ := pydisort_isOk hw₁ J
  obtain ⟨R₂, h₂⟩ := pydisort_isOk hw₂ J
  obtain ⟨F, hF⟩ := evaluates_exists h hw.sound hr
  obtain ⟨F₁, hF₁⟩ := evaluates_exists h₁ hw₁.sound hr₁
  obtain ⟨F₂, hF₂⟩ := evaluates_exists h₂ hw₂.sound hr₂
  refine ⟨x, R, R₁, R₂, F, F₁, F₂, ∑ i ∈ range (2 * nHalf (demoMild n x)), |F.u0 (bdry (demoMild n x).tauArr.get 1) i|, hw, hr, hr₁, hr₂, hk, rfl,
    Nat.le_of_ble_eq_true rfl, demoTail_spec (n := n) x, fun m _ => demo_rho (n := n) x m, demoMild_surface hn, demoMild_scattering hn x,
    h, h₁, h₂, hF, hF₁, hF₂, fun i hi => ?_, ?_, ?_⟩
  · exact single_le_sum (f := fun i => |F.u0 (bdry (demoMild n x).tauArr.get 1) i|) (fun j _ => abs_nonneg _) (mem_range.2 hi)
  · rw [absBetween_above hw.accepted (by norm_num [bdry, demoMild, demo]) (by norm_num [bdry, demoMild, demo])]
    unfold absDepth
    simp only [show (demoMild n x).tauArr.n = 2 from rfl, sum_range_succ, sum_range_zero]
    norm_num [bdry, demoMild, demo]
  · rw [absBetween_below hw.accepted (by norm_num [bdry, bottom, demoMild, demo]) (by norm_num [bdry, bottom, demoMild, demo])]
    unfold absDepth
    simp only [show (demoMild n x).tauArr.n = 2 from rfl, sum_range_succ, sum_range_zero]
    norm_num [bdry, bottom, demoMild, demo]

end Pydisort

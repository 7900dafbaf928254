import Verif.Props.Cut
import Verif.Props.ReflectingAzimuth

/-!
# C90: the neighbouring layers only add light

Specification used: `Spec.above`, `Spec.below`, `Spec.NonnegScattering`, `Spec.FairSurface`, `Spec.NonnegSources`; with all azimuths `Spec.NonnegPhase`,
`Spec.FairBDRF`, `Spec.NonnegEmission`, `Spec.NothingNeglected`.
-/

namespace Pydisort
open Finset Spec

variable {E : Ext} {a : Args} {k : ℕ} {s' : A2 ℝ}

/-! ### The parts are problems that the code solves -/

theorem above_accepted (h : Accepted a) (hk0 : 0 < k) (hk : k < a.tauArr.n) : Accepted (above a k) where
  layers := hk0
  top := h.top
  increasing := fun j hj => h.increasing j (by have : j + 1 < k := hj; omega)
  omegaLen := rfl
  omega := fun l hl => h.omega l (by have : l < k := hl; omega)
  legRows := rfl
  legCols := h.legCols
  legVal := fun l hl j hj h1 => h.legVal l (by have : l < k := hl; omega) j hj h1
  peakLen := Or.inr rfl
  peak := fun l _ => Args.peak_range h l
  sourceRows := Or.inr rfl
  streams := h.streams
  modes := h.modes
  nLeg := h.nLeg
  beam := h.beam
  beamDir := h.beamDir
  bottom := trivial
  topBC := h.topBC
  banded := h.banded

theorem above_wellPosed (h : WellPosed E a) (hk0 : 0 < k) (hk : k < a.tauArr.n) : WellPosed E (above a k) where
  accepted := above_accepted h.accepted hk0 hk
  gauss := h.gauss
  eig := h.eig
  peak := fun l hl => by
    have hl' : l < k := hl
    rw [show peak (above a k) l = peak a l from upper_peak (v := 0) hl']; exact h.peak l (by omega)
  dissipates := by
    intro m hm l hl
    have hl' : l < k := hl
    rw [show kernel (above a k) m l = kernel a m l from upper_kernel (v := 0) hl' m]
    exact h.dissipates m hm l (by omega)
  beam := by
    intro hI m hm l hl
    have hl' : l < k := hl
    rw [show kernel (above a k) m l = kernel a m l from upper_kernel (v := 0) hl' m, show omegaStar (above a k) l = omegaStar a l from upper_omegaStar (v := 0) hl',
      show legStar (above a k) l = legStar a l from upper_legStar (v := 0) hl']
    exact h.beam hI m hm l (by omega)
  surface := passive_black rfl
  bottomBC := trivial
  topBC := h.topBC
  sourceShape := Or.inr rfl
  degree := h.degree.imp (fun hn l _ j hj => by
    change (if l < a.s.r then a.s.get l j else 0) = 0
    split_ifs with hl
    · exact hn l hl j hj
    · rfl) id
  angles := h.angles

theorem below_accepted (h : Accepted a) (hk : k < a.tauArr.n) (hs : s'.r = a.tauArr.n - k) : Accepted (below a k s') :=
  { lower_accepted (v := 0) h hk hs with
    modes := h.modes
    topBC := trivial }

theorem below_wellPosed (h : WellPosed E a) (hk : k < a.tauArr.n) (hs : s'.r = a.tauArr.n - k) (hd : s'.c ≤ 21) : WellPosed E (below a k s') where
  accepted := below_accepted h.accepted hk hs
  gauss := h.gauss
  eig := h.eig
  peak := fun l hl => by
    have hl' : l < a.tauArr.n - k := hl
    rw [show peak (below a k s') l = peak a (k + l) from lower_peak (v := 0) (s' := s') hl']; exact h.peak _ (by omega)
  dissipates := by
    intro m hm l hl
    have hl' : l < a.tauArr.n - k := hl
    rw [show kernel (below a k s') m l = kernel a m (k + l) from lower_kernel (v := 0) (s' := s') hl' m]
    exact h.dissipates m hm _ (by omega)
  beam := by
    intro hI m hm l hl
    have hl' : l < a.tauArr.n - k := hl
    rw [show kernel (below a k s') m l = kernel a m (k + l) from lower_kernel (v := 0) (s' := s') hl' m,
      show omegaStar (below a k s') l = omegaStar a (k + l) from lower_omegaStar (v := 0) (s' := s') hl',
      show legStar (below a k s') l = legStar a (k + l) from lower_legStar (v := 0) (s' := s') hl']
    exact h.beam (pos_of_mul_pos_left hI (Real.exp_pos _).le) m hm _ (by omega)
  surface := h.surface
  bottomBC := h.bottomBC
  topBC := trivial
  sourceShape := Or.inr hs
  degree := Or.inr hd
  angles := h.angles

/-! ### Mean intensity and fluxes -/

theorem bcVal_dark (m i : ℕ) : bcVal (.scalar 0) m i = 0 := by
  unfold bcVal; simp

/-- In the upper part the solution for the whole is at least that for the part alone. -/
theorem above_le (hacc : Accepted a) (hg : GaussContract E (nHalf a)) (hpk : ∀ l < a.tauArr.n, peak a l < 1) (hk0 : 0 < k) (hk : k < a.tauArr.n)
    (hsc : NonnegScattering a (node E a)) {rho : ℝ → ℝ → ℝ} (hsf : FairSurface a (node E a) (weight E a) rho) (hq : NonnegSources a (node E a))
    {V W : ℝ → ℕ → ℝ} (hV : IsSolution a (node E a) (weight E a) rho 0 V) (hW : IsSolution (above a k) (node E a) (weight E a) rho 0 W) :
    ∀ t, 0 ≤ t → t ≤ bdry a.tauArr.get k → ∀ i < 2 * nHalf a, W t i ≤ V t i := by
  set v : ℕ → ℝ := fun i => V (bdry a.tauArr.get k) i with hv
  have hpos := solution_nonneg hacc hg hpk hsc hsf hq hV
  have hx0 : 0 ≤ bdry a.tauArr.get k := by
    have := bdry_le hacc (Nat.zero_le k) hk.le
    rwa [bdry_zero] at this
  have hxb : bdry a.tauArr.get k ≤ bottom a := by
    have := bdry_le hacc hk.le le_rfl
    rwa [bdry_bottom hacc] at this
  have hu : IsSolution (upperPart a k v) (node E a) (weight E a) rho 0 V := upper_isSolution hacc hk0 hk hV (fun i _ => rfl) rho
  have key := solution_mono (E := E) (a := upperPart a k v) (S₁ := ⟨a.I0, .scalar 0, a.bneg, (above a k).s⟩)
    (S₂ := ⟨a.I0, .vec ⟨nHalf a, v⟩, a.bneg, (above a k).s⟩) (rho := rho) (V₁ := W) (V₂ := V) (upper_accepted hacc hk0 hk) hg
    (fun l hl => by
      have hl' : l < k := hl
      rw [upper_peak hl']; exact hpk l (by omega))
    (fun l hl => by
      have hl' : l < k := hl
      rw [upper_kernel hl']; exact hsc l (by omega))
    ⟨hsf.nonneg, hsf.beam, fun i hi => by
      unfold reflectance
      rw [if_neg (by change ¬ 0 < ([] : List BDRFMode).length; simp)]; exact zero_le_one⟩
    hacc.beam
    (fun _ l hl i hi => by
      have hl' : l < k := hl
      rw [show beamSource (under (upperPart a k v) ⟨a.I0, .vec ⟨nHalf a, v⟩, a.bneg, (above a k).s⟩) 0 l = beamSource a 0 l from
        upper_beamSource hl' 0]
      exact hq.beam l (by omega) i hi)
    ⟨le_rfl, fun _ _ _ _ => le_rfl, fun _ _ => le_rfl, fun i hi => by
      have hi' : i < nHalf a := hi
      change bcVal (.scalar 0) 0 i ≤ bcVal (.vec ⟨nHalf a, v⟩) 0 i
      rw [bcVal_vec hi', bcVal_dark]
      exact hpos _ hx0 hxb i (by omega)⟩
    ⟨hW.cont, hW.ode, hW.top, hW.bot⟩ hu
  rw [upper_bottom hk0] at key
  exact key

/-- In the lower part the solution for the whole is at least that for the part alone. -/
theorem below_le (hacc : Accepted a) (hg : GaussContract E (nHalf a)) (hpk : ∀ l < a.tauArr.n, peak a l < 1) (hk : k < a.tauArr.n)
    (hs : s'.r = a.tauArr.n - k)
    (hsrc : ∀ l < a.tauArr.n - k, ∀ t, source (below a k s') l t = source a (k + l) (t + bdry a.tauArr.get k))
    (hsc : NonnegScattering a (node E a)) {rho : ℝ → ℝ → ℝ} (hsf : FairSurface a (node E a) (weight E a) rho) (hq : NonnegSources a (node E a))
    {V W : ℝ → ℕ → ℝ} (hV : IsSolution a (node E a) (weight E a) rho 0 V) (hW : IsSolution (below a k s') (node E a) (weight E a) rho 0 W) :
    ∀ t, bdry a.tauArr.get k ≤ t → t ≤ bottom a → ∀ i < 2 * nHalf a, W (t - bdry a.tauArr.get k) i ≤ V t i := by
  set v : ℕ → ℝ := fun i => V (bdry a.tauArr.get k) (nHalf a + i) with hv
  have hpos := solution_nonneg hacc hg hpk hsc hsf hq hV
  have hx0 : 0 ≤ bdry a.tauArr.get k := by
    have := bdry_le hacc (Nat.zero_le k) hk.le
    rwa [bdry_zero] at this
  have hxb : bdry a.tauArr.get k ≤ bottom a := by
    have := bdry_le hacc hk.le le_rfl
    rwa [bdry_bottom hacc] at this
  have hl : IsSolution (lowerPart a k v s') (node E a) (weight E a) rho 0 (fun t => V (t + bdry a.tauArr.get k)) :=
    lower_isSolution hacc hk hsrc hV (fun i _ => rfl)
  have key := solution_mono (E := E) (a := lowerPart a k v s') (S₁ := ⟨a.I0 * Real.exp (-bdryStar a k / a.mu0), a.bpos, .scalar 0, s'⟩)
    (S₂ := ⟨a.I0 * Real.exp (-bdryStar a k / a.mu0), a.bpos, .vec ⟨nHalf a, v⟩, s'⟩) (rho := rho) (V₁ := W)
    (V₂ := fun t => V (t + bdry a.tauArr.get k)) (lower_accepted hacc hk hs) hg
    (fun l hl => by
      have hl' : l < a.tauArr.n - k := hl
      rw [lower_peak hl']; exact hpk _ (by omega))
    (fun l hl => by
      have hl' : l < a.tauArr.n - k := hl
      rw [lower_kernel hl']; exact hsc _ (by omega))
    ⟨hsf.nonneg, hsf.beam, hsf.bounded⟩
    (mul_nonneg hacc.beam (Real.exp_pos _).le)
    (fun _ l hl i hi => by
      have hl' : l < a.tauArr.n - k := hl
      rw [show beamSource (under (lowerPart a k v s') ⟨a.I0 * Real.exp (-bdryStar a k / a.mu0), a.bpos, .vec ⟨nHalf a, v⟩, s'⟩) 0 l _
        = beamSource a 0 (k + l) _ * Real.exp (-bdryStar a k / a.mu0) from lower_beamSource hl' 0 _]
      exact mul_nonneg (hq.beam _ (by omega) i hi) (Real.exp_pos _).le)
    ⟨le_rfl, fun _ _ _ _ => le_rfl, fun i hi => by
      have hi' : i < nHalf a := hi
      change bcVal (.scalar 0) 0 i ≤ bcVal (.vec ⟨nHalf a, v⟩) 0 i
      rw [bcVal_vec hi', bcVal_dark]
      exact hpos _ hx0 hxb _ (by omega), fun _ _ => le_rfl⟩
    ⟨hW.cont, hW.ode, hW.top, hW.bot⟩ hl
  rw [lower_bottom hacc hk] at key
  intro t h0 h1 i hi
  have := key (t - bdry a.tauArr.get k) (by linarith) (by linarith) i hi
  rwa [sub_add_cancel] at this

theorem cut_range (hacc : Accepted a) (hk : k < a.tauArr.n) : 0 ≤ bdry a.tauArr.get k ∧ bdry a.tauArr.get k ≤ bottom a := by
  have h1 := bdry_le hacc (Nat.zero_le k) hk.le
  have h2 := bdry_le hacc hk.le le_rfl
  rw [bdry_zero] at h1
  rw [bdry_bottom hacc] at h2
  exact ⟨h1, h2⟩

/-- **C90, above.** The upper layers of an atmosphere, computed by themselves over black ground, are nowhere brighter than within the whole atmosphere:
neither the mean intensity of any stream nor either diffuse flux is larger, and the direct flux is the same. -/
theorem C90_what_lies_below_adds_light (hw : WellPosed E a) (hr : Rescalable a) (hr' : Rescalable (above a k)) (hk0 : 0 < k) (hk : k < a.tauArr.n)
    {rho : ℕ → ℝ → ℝ → ℝ} (hrho : SurfaceIs a rho) (hsf : FairSurface a (node E a) (weight E a) (rho 0)) (hsc : NonnegScattering a (node E a))
    (hq : NonnegSources a (node E a)) {J J' : Junk} {R R' : Solved} (h : pydisort E J a = .ok R) (h' : pydisort E J' (above a k) = .ok R')
    {F F' : Fields} (hF : Evaluates a R F) (hF' : Evaluates (above a k) R' F') :
    ∀ t, 0 ≤ t → t ≤ bdry a.tauArr.get k →
      (∀ i < 2 * nHalf a, F'.u0 t i ≤ F.u0 t i) ∧ F'.up t ≤ F.up t ∧ F'.diffuse t ≤ F.diffuse t ∧ F'.direct t = F.direct t := by
  intro t h0 h1
  have hacc := hw.accepted
  have hw' : WellPosed E (above a k) := above_wellPosed hw hk0 hk
  obtain ⟨hx0, hxb⟩ := cut_range hacc hk
  obtain ⟨U, hU, _⟩ := C02_modes_solve_transfer_equation h hw.sound hr
  obtain ⟨U', hU', _⟩ := C02_modes_solve_transfer_equation h' hw'.sound hr'
  have hle := above_le (E := E) hacc hw.gauss hw.peak hk0 hk hsc hsf hq
    (modes_isSolution h hw.sound hr hw.bottomBC hw.topBC hrho hU (nFourier_pos h hw.sound))
    (modes_isSolution h' hw'.sound hr' hw'.bottomBC hw'.topBC
      (fun m _ M hM => by rw [show (above a k).bdrf = [] from rfl] at hM; simp at hM) hU' (nFourier_pos h' hw'.sound)) t h0 h1
  have h1' : t ≤ bottom (above a k) := by rw [show bottom (above a k) = bdry a.tauArr.get k from upper_bottom (v := 0) hk0]; exact h1
  obtain ⟨e1, e2, e3, e4⟩ := evaluates_unique hF (evaluates h hr hU) h0 (h1.trans hxb)
  obtain ⟨g1, g2, g3, g4⟩ := evaluates_unique hF' (evaluates h' hr' hU') h0 h1'
  refine ⟨fun i hi => by rw [e1 i hi, g1 i hi]; exact hle i hi, ?_, ?_, ?_⟩
  · rw [e2, g2]
    exact hemiFlux_mono (a := a) hw.gauss fun i hi => hle i (by omega)
  · rw [e3, g3]
    have l1 := layOf_spec hacc h0 (h1.trans hxb)
    have l2 := layOf_spec hw'.accepted h0 h1'
    have l3 : layOf (above a k) t < k := l2.1
    have e : tauStar (above a k) (layOf (above a k) t) t = tauStar a (layOf a t) t := by
      rw [show tauStar (above a k) (layOf (above a k) t) t = tauStar a (layOf (above a k) t) t from upper_tauStar (v := 0) l3 t]
      exact tauStar_layers hacc (by omega) l1.1 l2.2 l1.2
    change hemiFlux a (node E a) (weight E a) (fun i => U' 0 t (nHalf a + i))
        + (a.I0 * a.mu0 * Real.exp (-tauStar (above a k) (layOf (above a k) t) t / a.mu0) - a.I0 * a.mu0 * Real.exp (-t / a.mu0))
      ≤ hemiFlux a (node E a) (weight E a) (fun i => U 0 t (nHalf a + i))
        + (a.I0 * a.mu0 * Real.exp (-tauStar a (layOf a t) t / a.mu0) - a.I0 * a.mu0 * Real.exp (-t / a.mu0))
    rw [e]
    exact add_le_add_left (hemiFlux_mono (a := a) hw.gauss fun i hi => hle _ (by omega)) _
  · rw [e4, g4]; rfl

/-- **C90, below.** The lower layers of an atmosphere, computed by themselves with their surface under the attenuated beam, are nowhere brighter than
within the whole atmosphere: neither the mean intensity of any stream nor the upward flux nor the total downward flux is larger. -/
theorem C90_what_lies_above_adds_light (hw : WellPosed E a) (hr : Rescalable a) (hr' : Rescalable (below a k s')) (hk : k < a.tauArr.n)
    (hs : s'.r = a.tauArr.n - k) (hd : s'.c ≤ 21)
    (hsrc : ∀ l < a.tauArr.n - k, ∀ t, ∑ j ∈ range s'.c, s'.get l j * t ^ j = source a (k + l) (t + bdry a.tauArr.get k))
    {rho : ℕ → ℝ → ℝ → ℝ} (hrho : SurfaceIs a rho) (hsf : FairSurface a (node E a) (weight E a) (rho 0)) (hsc : NonnegScattering a (node E a))
    (hq : NonnegSources a (node E a)) {J J' : Junk} {R R' : Solved} (h : pydisort E J a = .ok R) (h' : pydisort E J' (below a k s') = .ok R')
    {F F' : Fields} (hF : Evaluates a R F) (hF' : Evaluates (below a k s') R' F') :
    ∀ t, bdry a.tauArr.get k ≤ t → t ≤ bottom a →
      (∀ i < 2 * nHalf a, F'.u0 (t - bdry a.tauArr.get k) i ≤ F.u0 t i) ∧ F'.up (t - bdry a.tauArr.get k) ≤ F.up t ∧
      F'.diffuse (t - bdry a.tauArr.get k) + F'.direct (t - bdry a.tauArr.get k) ≤ F.diffuse t + F.direct t := by
  intro t h0 h1
  have hacc := hw.accepted
  have hw' : WellPosed E (below a k s') := below_wellPosed hw hk hs hd
  obtain ⟨hx0, hxb⟩ := cut_range hacc hk
  obtain ⟨U, hU, _⟩ := C02_modes_solve_transfer_equation h hw.sound hr
  obtain ⟨U', hU', _⟩ := C02_modes_solve_transfer_equation h' hw'.sound hr'
  have hsrc' : ∀ l < a.tauArr.n - k, ∀ t, source (below a k s') l t = source a (k + l) (t + bdry a.tauArr.get k) := by
    intro l hl t
    rw [← hsrc l hl t]
    conv_lhs => unfold source
    exact if_pos (show l < s'.r by rw [hs]; exact hl)
  have hle := below_le (E := E) hacc hw.gauss hw.peak hk hs hsrc' hsc hsf hq
    (modes_isSolution h hw.sound hr hw.bottomBC hw.topBC hrho hU (nFourier_pos h hw.sound))
    (modes_isSolution h' hw'.sound hr' hw'.bottomBC hw'.topBC (rho := rho) hrho hU' (nFourier_pos h' hw'.sound)) t h0 h1
  set x := bdry a.tauArr.get k with hx
  have h1' : t - x ≤ bottom (below a k s') := by
    rw [show bottom (below a k s') = bottom a - x from lower_bottom (v := 0) (s' := s') hacc hk]; linarith
  obtain ⟨e1, e2, e3, e4⟩ := evaluates_unique hF (evaluates h hr hU) (hx0.trans h0) h1
  obtain ⟨g1, g2, g3, g4⟩ := evaluates_unique hF' (evaluates h' hr' hU') (sub_nonneg.2 h0) h1'
  refine ⟨fun i hi => by rw [e1 i hi, g1 i hi]; exact hle i hi, ?_, ?_⟩
  · rw [e2, g2]
    exact hemiFlux_mono (a := a) hw.gauss fun i hi => hle i (by omega)
  · rw [e3, e4, g3, g4]
    have l1 := layOf_spec hacc (hx0.trans h0) h1
    have l2 := layOf_spec hw'.accepted (sub_nonneg.2 h0) h1'
    set j := layOf (below a k s') (t - x) with hj
    have l3 : j < a.tauArr.n - k := l2.1
    have l4 : InLayer a (k + j) t := by
      have := l2.2
      unfold InLayer at this ⊢
      rw [show bdry (below a k s').tauArr.get j = _ from lower_bdry (v := 0) (s' := s') j,
        show bdry (below a k s').tauArr.get (j + 1) = _ from lower_bdry (v := 0) (s' := s') (j + 1)] at this
      rw [add_assoc]
      exact ⟨by linarith [this.1], by linarith [this.2]⟩
    have e : tauStar (below a k s') j (t - x) = tauStar a (layOf a t) t - bdryStar a k := by
      rw [show tauStar (below a k s') j (t - x) = _ from lower_tauStar (v := 0) (s' := s') l3 (t - x), sub_add_cancel]
      rw [tauStar_layers hacc (by omega) l1.1 l4 l1.2]
    change hemiFlux a (node E a) (weight E a) (fun i => U' 0 (t - x) (nHalf a + i))
        + (a.I0 * Real.exp (-bdryStar a k / a.mu0) * a.mu0 * Real.exp (-tauStar (below a k s') j (t - x) / a.mu0)
          - a.I0 * Real.exp (-bdryStar a k / a.mu0) * a.mu0 * Real.exp (-(t - x) / a.mu0))
        + a.I0 * Real.exp (-bdryStar a k / a.mu0) * a.mu0 * Real.exp (-(t - x) / a.mu0)
      ≤ hemiFlux a (node E a) (weight E a) (fun i => U 0 t (nHalf a + i))
        + (a.I0 * a.mu0 * Real.exp (-tauStar a (layOf a t) t / a.mu0) - a.I0 * a.mu0 * Real.exp (-t / a.mu0))
        + a.I0 * a.mu0 * Real.exp (-t / a.mu0)
    rw [e]
    have y : Real.exp (-tauStar a (layOf a t) t / a.mu0)
        = Real.exp (-bdryStar a k / a.mu0) * Real.exp (-(tauStar a (layOf a t) t - bdryStar a k) / a.mu0) := by
      rw [← Real.exp_add]; congr 1; ring
    rw [y]
    have := hemiFlux_mono (a := a) (v := fun i => U' 0 (t - x) (nHalf a + i)) (v' := fun i => U 0 t (nHalf a + i)) hw.gauss
      fun i hi => hle _ (by omega)
    linarith

/-! ### All azimuths -/

/-- Two Fourier series that solve the same transfer equation with all azimuths compare as what enters from outside does. -/
theorem series_compare (hacc : Accepted a) (hg : GaussContract E (nHalf a)) (hpk : ∀ l < a.tauArr.n, peak a l < 1)
    (hN : nFourier a = nLeg a) (hn : NothingNeglected a) {rho : ℕ → ℝ → ℝ → ℝ} (hp : NonnegPhase a)
    (hs : ∀ i < nHalf a, ∀ j < nHalf a, ∀ dph, 0 ≤ bdrfOf a rho (node E a i) (node E a j) dph)
    (hs1 : ∀ i < nHalf a, reflectance a (node E a) (weight E a) (rho 0) (node E a i) ≤ 1) {U₁ U₂ : ℕ → ℝ → ℕ → ℝ}
    (hc₁ : ∀ m < nFourier a, ∀ j < 2 * nHalf a, ContinuousOn (fun t => U₁ m t j) (Set.Icc 0 (bottom a)))
    (hc₂ : ∀ m < nFourier a, ∀ j < 2 * nHalf a, ContinuousOn (fun t => U₂ m t j) (Set.Icc 0 (bottom a))) {V₁ V₂ : ℝ → ℕ → ℝ → ℝ}
    (hV₁ : V₁ = fun t i ph => ∑ m ∈ range (nFourier a), U₁ m t i * Real.cos (m * (a.phi0 - ph)))
    (hV₂ : V₂ = fun t i ph => ∑ m ∈ range (nFourier a), U₂ m t i * Real.cos (m * (a.phi0 - ph)))
    (hode₁ : ∀ l < a.tauArr.n, ∀ t, bdry a.tauArr.get l < t → t < bdry a.tauArr.get (l + 1) → ∀ i < 2 * nHalf a, ∀ q,
      ∃ d, HasDerivAt (fun x => V₁ x i q) d t ∧ stream (nHalf a) (node E a) i * d = fullRHS a (node E a) (weight E a) l t (V₁ t) i q)
    (hode₂ : ∀ l < a.tauArr.n, ∀ t, bdry a.tauArr.get l < t → t < bdry a.tauArr.get (l + 1) → ∀ i < 2 * nHalf a, ∀ q,
      ∃ d, HasDerivAt (fun x => V₂ x i q) d t ∧ stream (nHalf a) (node E a) i * d = fullRHS a (node E a) (weight E a) l t (V₂ t) i q)
    (htop : ∀ i < nHalf a, ∀ q, V₁ 0 (nHalf a + i) q ≤ V₂ 0 (nHalf a + i) q)
    (hbot : ∀ i < nHalf a, ∀ q, V₁ (bottom a) i q - fullReflected a (node E a) (weight E a) rho (node E a i) q (fun j => V₁ (bottom a) (nHalf a + j))
      ≤ V₂ (bottom a) i q - fullReflected a (node E a) (weight E a) rho (node E a i) q (fun j => V₂ (bottom a) (nHalf a + j))) :
    ∀ t, 0 ≤ t → t ≤ bottom a → ∀ ph, ∀ i < 2 * nHalf a, V₁ t i ph ≤ V₂ t i ph := by
  have hcq₁ : ∀ t j, Continuous fun q => V₁ t j q := fun t j => by simp only [hV₁]; fun_prop
  have hcq₂ : ∀ t j, Continuous fun q => V₂ t j q := fun t j => by simp only [hV₂]; fun_prop
  have key := series_super (E := E) (a := a) (rho := rho) (U := fun m t i => U₂ m t i - U₁ m t i) (V := fun t q i => V₂ t i q - V₁ t i q) hacc hg hpk hN hn
    hp hs hs1 (fun m hm j hj => (hc₂ m hm j hj).sub (hc₁ m hm j hj)) ?_ ?_ ?_ ?_
  · intro t ht0 ht1 ph i hi
    exact sub_nonneg.1 (key t ht0 ht1 ph i hi)
  · funext t q i
    simp only [hV₁, hV₂, sub_mul, sum_sub_distrib]
  · intro l hl t ht0 ht1 i hi q
    obtain ⟨d₁, g₁, e₁⟩ := hode₁ l hl t ht0 ht1 i hi q
    obtain ⟨d₂, g₂, e₂⟩ := hode₂ l hl t ht0 ht1 i hi q
    refine ⟨d₂ - d₁, g₂.sub g₁, le_of_eq ?_⟩
    have hpc : ∀ j, Continuous fun ph' => phase a l (cosAngle (stream (nHalf a) (node E a) i) q (stream (nHalf a) (node E a) j) ph') := fun j =>
      (phase_continuous a l).comp (cosAngle_continuous _ q _)
    set T : (ℝ → ℕ → ℝ → ℝ) → ℝ := fun V => ∑ j ∈ range (2 * nHalf a), streamW (nHalf a) (weight E a) j *
        ∫ ph' in (0 : ℝ)..(2 * Real.pi), phase a l (cosAngle (stream (nHalf a) (node E a) i) q (stream (nHalf a) (node E a) j) ph') * V t j ph' with hT
    have hTs : T (fun t i q => V₂ t i q - V₁ t i q) = T V₂ - T V₁ := by
      simp only [hT]
      rw [← sum_sub_distrib]
      refine sum_congr rfl fun j _ => ?_
      rw [integral_mul_sub (hpc j) (hcq₂ t j) (hcq₁ t j), mul_sub]
    change stream (nHalf a) (node E a) i * d₁ = scale a l * (V₁ t i q - omegaStar a l / (4 * Real.pi) * T V₁ - _) - _ at e₁
    change stream (nHalf a) (node E a) i * d₂ = scale a l * (V₂ t i q - omegaStar a l / (4 * Real.pi) * T V₂ - _) - _ at e₂
    change stream (nHalf a) (node E a) i * (d₂ - d₁) = scale a l * (V₂ t i q - V₁ t i q - omegaStar a l / (4 * Real.pi)
      * T (fun t i q => V₂ t i q - V₁ t i q))
    rw [hTs, mul_sub, e₁, e₂]
    ring
  · intro i hi q
    exact sub_nonneg.2 (htop i hi q)
  · intro i hi q
    have hrc : ∀ j, Continuous fun ph' => bdrfOf a rho (node E a i) (node E a j) (q - ph') := fun j => by unfold bdrfOf; fun_prop
    set D : (ℝ → ℕ → ℝ → ℝ) → ℝ := fun V => ∑ k ∈ range (nHalf a), weight E a k * node E a k *
      ∫ ph' in (0 : ℝ)..(2 * Real.pi), bdrfOf a rho (node E a i) (node E a k) (q - ph') * V (bottom a) (nHalf a + k) ph' with hD
    have hDs : D (fun t i q => V₂ t i q - V₁ t i q) = D V₂ - D V₁ := by
      simp only [hD]
      rw [← sum_sub_distrib]
      refine sum_congr rfl fun j _ => ?_
      rw [integral_mul_sub (hrc j) (hcq₂ _ _) (hcq₁ _ _), mul_sub]
    have b : V₁ (bottom a) i q - (1 / Real.pi * D V₁
        + a.mu0 * a.I0 / Real.pi * bdrfOf a rho (node E a i) a.mu0 (q - a.phi0) * Real.exp (-bdryStar a a.tauArr.n / a.mu0))
      ≤ V₂ (bottom a) i q - (1 / Real.pi * D V₂
        + a.mu0 * a.I0 / Real.pi * bdrfOf a rho (node E a i) a.mu0 (q - a.phi0) * Real.exp (-bdryStar a a.tauArr.n / a.mu0)) := hbot i hi q
    change 1 / Real.pi * D (fun t i q => V₂ t i q - V₁ t i q) ≤ V₂ (bottom a) i q - V₁ (bottom a) i q
    rw [hDs, mul_sub]
    linarith

theorem above_phase {l : ℕ} (hl : l < k) : phase (above a k) l = phase a l := by
  funext nu
  unfold phase
  rw [show legStar (above a k) l = legStar a l from upper_legStar (v := 0) hl]
  rfl

theorem above_fullRHS {l : ℕ} (hl : l < k) (mu w : Vec) (t : ℝ) (u : ℕ → ℝ → ℝ) (i : ℕ) (ph : ℝ) :
    fullRHS (above a k) mu w l t u i ph = fullRHS a mu w l t u i ph := by
  unfold fullRHS
  rw [above_phase hl, show scale (above a k) l = scale a l from upper_scale (v := 0) hl,
    show omegaStar (above a k) l = omegaStar a l from upper_omegaStar (v := 0) hl,
    show tauStar (above a k) l t = tauStar a l t from upper_tauStar (v := 0) hl t,
    show source (above a k) l t = source a l t from upper_source (v := 0) hl t]
  rfl

theorem below_phase {l : ℕ} (hl : l < a.tauArr.n - k) : phase (below a k s') l = phase a (k + l) := by
  funext nu
  unfold phase
  rw [show legStar (below a k s') l = legStar a (k + l) from lower_legStar (v := 0) (s' := s') hl]
  rfl

theorem below_fullRHS {l : ℕ} (hl : l < a.tauArr.n - k)
    (hsrc : ∀ t, source (below a k s') l t = source a (k + l) (t + bdry a.tauArr.get k)) (mu w : Vec) (t : ℝ) (u : ℕ → ℝ → ℝ) (i : ℕ) (ph : ℝ) :
    fullRHS (below a k s') mu w l t u i ph = fullRHS a mu w (k + l) (t + bdry a.tauArr.get k) u i ph := by
  unfold fullRHS
  rw [below_phase hl, show scale (below a k s') l = scale a (k + l) from lower_scale (v := 0) (s' := s') hl,
    show omegaStar (below a k s') l = omegaStar a (k + l) from lower_omegaStar (v := 0) (s' := s') hl,
    show tauStar (below a k s') l t = tauStar a (k + l) (t + bdry a.tauArr.get k) - bdryStar a k from lower_tauStar (v := 0) (s' := s') hl t, hsrc t]
  change scale a (k + l) * (_ - _ - omegaStar a (k + l) * (a.I0 * Real.exp (-bdryStar a k / a.mu0)) / (4 * Real.pi) * _
    * Real.exp (-(tauStar a (k + l) (t + bdry a.tauArr.get k) - bdryStar a k) / a.mu0)) - _ = _
  have y : Real.exp (-tauStar a (k + l) (t + bdry a.tauArr.get k) / a.mu0)
      = Real.exp (-bdryStar a k / a.mu0) * Real.exp (-(tauStar a (k + l) (t + bdry a.tauArr.get k) - bdryStar a k) / a.mu0) := by
    rw [← Real.exp_add]; congr 1; ring
  rw [y]
  change scale a (k + l) * (_ - omegaStar a (k + l) / (4 * Real.pi) * (∑ j ∈ range (2 * nHalf a), streamW (nHalf a) w j *
        ∫ ph' in (0 : ℝ)..(2 * Real.pi), phase a (k + l) (cosAngle (stream (nHalf a) mu i) ph (stream (nHalf a) mu j) ph') * u j ph')
      - _ * phase a (k + l) (cosAngle (stream (nHalf a) mu i) ph (-a.mu0) a.phi0) * _) - (1 - a.omega.get (k + l)) * _ = _
  ring

theorem above_series_le (hacc : Accepted a) (hg : GaussContract E (nHalf a)) (hpk : ∀ l < a.tauArr.n, peak a l < 1) (hk0 : 0 < k)
    (hk : k < a.tauArr.n) (hN : nFourier a = nLeg a) (hn : NothingNeglected a) (hbp : Azimuthless a.bpos) (hbn : Azimuthless a.bneg)
    (hB : a.bdrf.length ≤ nFourier a) {rho : ℕ → ℝ → ℝ → ℝ} (hp : NonnegPhase a) (hs : FairBDRF a (node E a) (weight E a) rho) (hq : NonnegEmission a)
    {U W : ℕ → ℝ → ℕ → ℝ} (hU : ∀ m < nFourier a, IsSolution a (node E a) (weight E a) (rho m) m (U m))
    (hW : ∀ m < nFourier a, IsSolution (above a k) (node E a) (weight E a) (rho m) m (W m)) :
    ∀ t, 0 ≤ t → t ≤ bdry a.tauArr.get k → ∀ ph, ∀ i < 2 * nHalf a, ∑ m ∈ range (nFourier a), W m t i * Real.cos (m * (a.phi0 - ph))
      ≤ ∑ m ∈ range (nFourier a), U m t i * Real.cos (m * (a.phi0 - ph)) := by
  have hacc' : Accepted (above a k) := above_accepted hacc hk0 hk
  have hpos : 0 < nFourier a := nFourier_pos_of hacc
  obtain ⟨hx0, hxb⟩ := cut_range hacc hk
  have hbt : bottom (above a k) = bdry a.tauArr.get k := upper_bottom (v := 0) hk0
  have hnn := series_nonneg (E := E) hacc hg hpk hN hn hbp hbn hB hp hs hq hU
  have hn' : NothingNeglected (above a k) := by
    intro l hl j hj
    have hl' : l < k := hl
    rw [show omegaStar (above a k) l = omegaStar a l from upper_omegaStar (v := 0) hl', show legStar (above a k) l = legStar a l from upper_legStar (v := 0) hl']
    exact hn l (by omega) j hj
  have hbd : ∀ x y q, bdrfOf (above a k) rho x y q = 0 := fun x y q => by
    unfold bdrfOf; rw [show (above a k).bdrf = [] from rfl]; simp
  have hrf : ∀ x q d, fullReflected (above a k) (node E (above a k)) (weight E (above a k)) rho x q d = 0 := fun x q d => by
    unfold fullReflected; simp [hbd]
  have hbc := fun j (hj : j < nHalf a) q => series_boundary (E := E) (a := a) hpos hbp hbn hB hU hj q
  have hbc' := fun j (hj : j < nHalf a) q => series_boundary (E := E) (a := above a k) (rho := rho) hpos trivial hbn (Nat.zero_le _) hW hj q
  have key := series_compare (E := E) (a := above a k) (rho := rho) (U₁ := W) (U₂ := U) hacc' hg
    (fun l hl => by
      have hl' : l < k := hl
      rw [show peak (above a k) l = peak a l from upper_peak (v := 0) hl']; exact hpk l (by omega)) hN hn'
    (fun l hl => by
      have hl' : l < k := hl
      rw [above_phase hl']; exact hp l (by omega))
    (fun i _ j _ q => by rw [hbd])
    (fun i _ => by
      unfold reflectance
      rw [if_neg (by change ¬ 0 < ([] : List BDRFMode).length; simp)]; exact zero_le_one)
    (fun m hm => (hW m hm).cont)
    (fun m hm j hj => ((hU m hm).cont j hj).mono (Set.Icc_subset_Icc_right (by rw [hbt]; exact hxb))) rfl rfl
    (fun l hl t h1 h2 i hi q => series_equation (E := E) (a := above a k) (rho := rho) hacc' hg hN hn' hW hl h1 h2 hi q)
    (fun l hl t h1 h2 i hi q => by
      have hl' : l < k := hl
      rw [above_fullRHS hl']
      exact series_equation (E := E) hacc hg hN hn hU (show l < a.tauArr.n by omega) h1 h2 hi q)
    (fun i hi q => le_of_eq ((hbc' i hi q).1.trans (hbc i hi q).1.symm))
    (fun i hi q => by
      have hi' : i < nHalf a := hi
      rw [hrf, hrf, sub_zero, sub_zero]
      refine le_trans (le_of_eq ?_) (hnn (bottom (above a k)) (by rw [hbt]; exact hx0) (by rw [hbt]; exact hxb) q i (by omega))
      refine (hbc' i hi q).2.trans ?_
      rw [hrf, add_zero]
      exact bcVal_dark 0 i)
  rw [hbt] at key
  exact key

theorem below_series_le (hacc : Accepted a) (hg : GaussContract E (nHalf a)) (hpk : ∀ l < a.tauArr.n, peak a l < 1)
    (hk : k < a.tauArr.n) (hsr : s'.r = a.tauArr.n - k)
    (hsrc : ∀ l < a.tauArr.n - k, ∀ t, source (below a k s') l t = source a (k + l) (t + bdry a.tauArr.get k))
    (hN : nFourier a = nLeg a) (hn : NothingNeglected a) (hbp : Azimuthless a.bpos) (hbn : Azimuthless a.bneg)
    (hB : a.bdrf.length ≤ nFourier a) {rho : ℕ → ℝ → ℝ → ℝ} (hp : NonnegPhase a) (hs : FairBDRF a (node E a) (weight E a) rho) (hq : NonnegEmission a)
    {U W : ℕ → ℝ → ℕ → ℝ} (hU : ∀ m < nFourier a, IsSolution a (node E a) (weight E a) (rho m) m (U m))
    (hW : ∀ m < nFourier a, IsSolution (below a k s') (node E a) (weight E a) (rho m) m (W m)) :
    ∀ t, bdry a.tauArr.get k ≤ t → t ≤ bottom a → ∀ ph, ∀ i < 2 * nHalf a,
      ∑ m ∈ range (nFourier a), W m (t - bdry a.tauArr.get k) i * Real.cos (m * (a.phi0 - ph))
      ≤ ∑ m ∈ range (nFourier a), U m t i * Real.cos (m * (a.phi0 - ph)) := by
  have hacc' : Accepted (below a k s') := below_accepted hacc hk hsr
  have hpos : 0 < nFourier a := nFourier_pos_of hacc
  obtain ⟨hx0, hxb⟩ := cut_range hacc hk
  set x := bdry a.tauArr.get k with hx
  have hbt : bottom (below a k s') = bottom a - x := lower_bottom (v := 0) (s' := s') hacc hk
  have hbd : ∀ l, bdry (below a k s').tauArr.get l = bdry a.tauArr.get (k + l) - x := fun l => lower_bdry (v := 0) (s' := s') l
  have hnn := series_nonneg (E := E) hacc hg hpk hN hn hbp hbn hB hp hs hq hU
  have hn' : NothingNeglected (below a k s') := by
    intro l hl j hj
    have hl' : l < a.tauArr.n - k := hl
    rw [show omegaStar (below a k s') l = omegaStar a (k + l) from lower_omegaStar (v := 0) (s' := s') hl',
      show legStar (below a k s') l = legStar a (k + l) from lower_legStar (v := 0) (s' := s') hl']
    exact hn _ (by omega) j hj
  have hrf : ∀ y q d, fullReflected (below a k s') (node E (below a k s')) (weight E (below a k s')) rho y q d
      = fullReflected a (node E a) (weight E a) rho y q d := fun y q d => by
    unfold fullReflected
    rw [show bdryStar (below a k s') (below a k s').tauArr.n = bdryStar a (k + (a.tauArr.n - k)) - bdryStar a k from
      lower_bdryStar (v := 0) (s' := s') le_rfl, show k + (a.tauArr.n - k) = a.tauArr.n by omega]
    change 1 / Real.pi * _ + a.mu0 * (a.I0 * Real.exp (-bdryStar a k / a.mu0)) / Real.pi * bdrfOf a rho y a.mu0 (q - a.phi0)
      * Real.exp (-(bdryStar a a.tauArr.n - bdryStar a k) / a.mu0) = _
    have e : Real.exp (-bdryStar a a.tauArr.n / a.mu0)
        = Real.exp (-bdryStar a k / a.mu0) * Real.exp (-(bdryStar a a.tauArr.n - bdryStar a k) / a.mu0) := by
      rw [← Real.exp_add]; congr 1; ring
    rw [e]
    refine congrArg₂ (· + ·) rfl ?_
    ring
  have hbc := fun j (hj : j < nHalf a) q => series_boundary (E := E) (a := a) hpos hbp hbn hB hU hj q
  have hbc' := fun j (hj : j < nHalf a) q => series_boundary (E := E) (a := below a k s') (rho := rho) hpos hbp trivial hB hW hj q
  have key := series_compare (E := E) (a := below a k s') (rho := rho) (U₁ := W) (U₂ := fun m t => U m (t + x)) hacc' hg
    (fun l hl => by
      have hl' : l < a.tauArr.n - k := hl
      rw [show peak (below a k s') l = peak a (k + l) from lower_peak (v := 0) (s' := s') hl']; exact hpk _ (by omega)) hN hn'
    (fun l hl => by
      have hl' : l < a.tauArr.n - k := hl
      rw [below_phase hl']; exact hp _ (by omega))
    hs.nonneg hs.bounded
    (fun m hm => (hW m hm).cont)
    (fun m hm j hj => ((hU m hm).cont j hj).comp (f := fun t => t + x) (by fun_prop) (fun t ht => by
      rw [hbt] at ht
      exact ⟨by linarith [ht.1], by linarith [ht.2]⟩)) rfl rfl
    (fun l hl t h1 h2 i hi q => series_equation (E := E) (a := below a k s') (rho := rho) hacc' hg hN hn' hW hl h1 h2 hi q)
    (fun l hl t h1 h2 i hi q => by
      have hl' : l < a.tauArr.n - k := hl
      rw [hbd] at h1 h2
      rw [below_fullRHS hl' (hsrc l hl')]
      obtain ⟨d, hd, he⟩ := series_equation (E := E) hacc hg hN hn hU (show k + l < a.tauArr.n by omega) (t := t + x) (by linarith)
        (by rw [add_assoc]; linarith) hi q
      exact ⟨d, hd.comp_add_const t x, he⟩)
    (fun i hi q => by
      have hi' : i < nHalf a := hi
      refine le_trans (le_of_eq ((hbc' i hi q).1.trans (bcVal_dark 0 i))) ?_
      exact hnn (0 + x) (by linarith) (by linarith) q (nHalf a + i) (by omega))
    (fun i hi q => by
      have hi' : i < nHalf a := hi
      have b₁ := (hbc' i hi q).2
      have b₂ := (hbc i hi q).2
      rw [hrf] at b₁
      rw [hrf, hrf]
      have e : bottom (below a k s') + x = bottom a := by rw [hbt]; ring
      simp only [e]
      refine le_of_eq ?_
      change _ = bcVal a.bpos 0 i + _ at b₁
      exact (sub_eq_of_eq_add b₁).trans (sub_eq_of_eq_add b₂).symm)
  rw [hbt] at key
  intro t h0 h1 ph i hi
  have := key (t - x) (by linarith) (by linarith) ph i hi
  simp only [sub_add_cancel] at this
  exact this

/-- **C90, above, at all azimuths.** If the delta-M scaled and truncated phase function is nowhere negative, and neither the BDRF nor any source is, then the upper layers computed
by themselves over black ground are, at no depth, in no stream and at no azimuth, brighter than within the whole atmosphere. -/
theorem C90_what_lies_below_adds_light_everywhere (hw : WellPosed E a) (hr : Rescalable a) (hr' : Rescalable (above a k)) (hk0 : 0 < k) (hk : k < a.tauArr.n)
    (hf : a.onlyFlux = false) (hnt : a.NTcor = false) (hN : nFourier a = nLeg a) (hn : NothingNeglected a) (hB : a.bdrf.length ≤ nFourier a)
    {rho : ℕ → ℝ → ℝ → ℝ} (hrho : SurfaceIs a rho) (hp : NonnegPhase a) (hs : FairBDRF a (node E a) (weight E a) rho) (hq : NonnegEmission a)
    {J J' : Junk} {R R' : Solved} (h : pydisort E J a = .ok R) (h' : pydisort E J' (above a k) = .ok R')
    {F F' : Fields} (hF : Evaluates a R F) (hF' : Evaluates (above a k) R' F') :
    ∀ t, 0 ≤ t → t ≤ bdry a.tauArr.get k → ∀ ph, ∀ i < 2 * nHalf a, 0 ≤ F'.u t ph i ∧ F'.u t ph i ≤ F.u t ph i := by
  intro t h0 h1 ph i hi
  have hacc := hw.accepted
  have hw' : WellPosed E (above a k) := above_wellPosed hw hk0 hk
  obtain ⟨hx0, hxb⟩ := cut_range hacc hk
  obtain ⟨U, hU, _⟩ := C02_modes_solve_transfer_equation h hw.sound hr
  obtain ⟨U', hU', _⟩ := C02_modes_solve_transfer_equation h' hw'.sound hr'
  have h1' : t ≤ bottom (above a k) := by rw [show bottom (above a k) = bdry a.tauArr.get k from upper_bottom (v := 0) hk0]; exact h1
  have hrho' : SurfaceIs (above a k) rho := fun m _ M hM => by rw [show (above a k).bdrf = [] from rfl] at hM; simp at hM
  have hbd : ∀ x y q, bdrfOf (above a k) rho x y q = 0 := fun x y q => by
    unfold bdrfOf; rw [show (above a k).bdrf = [] from rfl]; simp
  constructor
  · refine C76_intensity_nonneg h' hw'.sound hr' hf hnt hN ?_ trivial hw.topBC (Nat.zero_le _) hrho' ?_
      ⟨fun i _ j _ q => by rw [hbd], fun i _ q => by rw [hbd], fun i _ => ?_⟩ ⟨fun l hl t ht => ?_, hq.top, fun i _ => (bcVal_dark 0 i).ge⟩ hF' t h0 h1' ph i hi
    · intro l hl j hj
      have hl' : l < k := hl
      rw [show omegaStar (above a k) l = omegaStar a l from upper_omegaStar (v := 0) hl', show legStar (above a k) l = legStar a l from upper_legStar (v := 0) hl']
      exact hn l (by omega) j hj
    · intro l hl
      have hl' : l < k := hl
      rw [above_phase hl']; exact hp l (by omega)
    · unfold reflectance
      rw [if_neg (by change ¬ 0 < ([] : List BDRFMode).length; simp)]; exact zero_le_one
    · have hl' : l < k := hl
      rw [show source (above a k) l t = source a l t from upper_source (v := 0) hl' t]
      exact hq.inner l (by omega) t ht
  · rw [evaluates_series h' hf hnt hU' hF' h0 h1' hi ph, evaluates_series h hf hnt hU hF h0 (h1.trans hxb) hi ph]
    exact above_series_le hacc hw.gauss hw.peak hk0 hk hN hn hw.bottomBC hw.topBC hB hp hs hq
      (fun m hm => modes_isSolution h hw.sound hr hw.bottomBC hw.topBC hrho hU hm)
      (fun m hm => modes_isSolution h' hw'.sound hr' hw'.bottomBC hw'.topBC hrho' hU' hm) t h0 h1 ph i hi

/-- **C90, below, at all azimuths.** Likewise the lower layers with their surface, computed by themselves under the attenuated beam. -/
theorem C90_what_lies_above_adds_light_everywhere (hw : WellPosed E a) (hr : Rescalable a) (hr' : Rescalable (below a k s')) (hk : k < a.tauArr.n)
    (hsr : s'.r = a.tauArr.n - k) (hd : s'.c ≤ 21)
    (hsrc : ∀ l < a.tauArr.n - k, ∀ t, ∑ j ∈ range s'.c, s'.get l j * t ^ j = source a (k + l) (t + bdry a.tauArr.get k))
    (hf : a.onlyFlux = false) (hnt : a.NTcor = false) (hN : nFourier a = nLeg a) (hn : NothingNeglected a) (hB : a.bdrf.length ≤ nFourier a)
    {rho : ℕ → ℝ → ℝ → ℝ} (hrho : SurfaceIs a rho) (hp : NonnegPhase a) (hs : FairBDRF a (node E a) (weight E a) rho) (hq : NonnegEmission a)
    {J J' : Junk} {R R' : Solved} (h : pydisort E J a = .ok R) (h' : pydisort E J' (below a k s') = .ok R')
    {F F' : Fields} (hF : Evaluates a R F) (hF' : Evaluates (below a k s') R' F') :
    ∀ t, bdry a.tauArr.get k ≤ t → t ≤ bottom a → ∀ ph, ∀ i < 2 * nHalf a,
      0 ≤ F'.u (t - bdry a.tauArr.get k) ph i ∧ F'.u (t - bdry a.tauArr.get k) ph i ≤ F.u t ph i := by
  intro t h0 h1 ph i hi
  have hacc := hw.accepted
  have hw' : WellPosed E (below a k s') := below_wellPosed hw hk hsr hd
  obtain ⟨hx0, hxb⟩ := cut_range hacc hk
  obtain ⟨U, hU, _⟩ := C02_modes_solve_transfer_equation h hw.sound hr
  obtain ⟨U', hU', _⟩ := C02_modes_solve_transfer_equation h' hw'.sound hr'
  have hsrc' : ∀ l < a.tauArr.n - k, ∀ t, source (below a k s') l t = source a (k + l) (t + bdry a.tauArr.get k) := by
    intro l hl t
    rw [← hsrc l hl t]
    conv_lhs => unfold source
    exact if_pos (show l < s'.r by rw [hsr]; exact hl)
  have h1' : t - bdry a.tauArr.get k ≤ bottom (below a k s') := by
    rw [show bottom (below a k s') = bottom a - bdry a.tauArr.get k from lower_bottom (v := 0) (s' := s') hacc hk]; linarith
  constructor
  · refine C76_intensity_nonneg h' hw'.sound hr' hf hnt hN ?_ hw.bottomBC trivial hB (rho := rho) hrho ?_ ⟨hs.nonneg, hs.beam, hs.bounded⟩
      ⟨fun l hl t ht => ?_, fun i _ => (bcVal_dark 0 i).ge, hq.bottom⟩ hF' _ (sub_nonneg.2 h0) h1' ph i hi
    · intro l hl j hj
      have hl' : l < a.tauArr.n - k := hl
      rw [show omegaStar (below a k s') l = omegaStar a (k + l) from lower_omegaStar (v := 0) (s' := s') hl',
        show legStar (below a k s') l = legStar a (k + l) from lower_legStar (v := 0) (s' := s') hl']
      exact hn _ (by omega) j hj
    · intro l hl
      have hl' : l < a.tauArr.n - k := hl
      rw [below_phase hl']; exact hp _ (by omega)
    · have hl' : l < a.tauArr.n - k := hl
      rw [hsrc' l hl' t]
      refine hq.inner _ (by omega) _ ?_
      unfold InLayer at ht ⊢
      rw [show bdry (below a k s').tauArr.get l = _ from lower_bdry (v := 0) (s' := s') l,
        show bdry (below a k s').tauArr.get (l + 1) = _ from lower_bdry (v := 0) (s' := s') (l + 1)] at ht
      rw [add_assoc]
      exact ⟨by linarith [ht.1], by linarith [ht.2]⟩
  · rw [evaluates_series h' hf hnt hU' hF' (sub_nonneg.2 h0) h1' hi ph, evaluates_series h hf hnt hU hF (hx0.trans h0) h1 hi ph]
    exact below_series_le hacc hw.gauss hw.peak hk hsr hsrc' hN hn hw.bottomBC hw.topBC hB hp hs hq
      (fun m hm => modes_isSolution h hw.sound hr hw.bottomBC hw.topBC hrho hU hm)
      (fun m hm => modes_isSolution h' hw'.sound hr' hw'.bottomBC hw'.topBC (rho := rho) hrho hU' hm) t h0 h1 ph i hi

/-! ### The hypotheses are met -/

/-- The source of the lower layer of `demo`, counted from the interface. -/
noncomputable def demoTail : A2 ℝ := ⟨1, 2, fun _ j => if j = 0 then 2 else 1⟩

section
variable {n : ℕ}

theorem demoTail_spec (x : ℝ) : ∀ l < (demo n x).tauArr.n - 1, ∀ t, ∑ j ∈ range demoTail.c, demoTail.get l j * t ^ j
    = source (demo n x) (1 + l) (t + bdry (demo n x).tauArr.get 1) := by
  intro l hl t
  have hl' : l < 1 := hl
  obtain rfl : l = 0 := by omega
  simp [source, demo, demoTail, bdry, sum_range_succ]
  ring

/-- For the mean intensity and the fluxes, for every number of streams: `demoMild` cut between its two layers. -/
example (hn : 0 < n) (J : Junk) : ∃ (x : ℝ) (R R₁ R₂ : Solved) (F F₁ F₂ : Fields), WellPosed refExt (demoMild n x) ∧ Rescalable (demoMild n x)
    ∧ Rescalable (above (demoMild n x) 1) ∧ Rescalable (below (demoMild n x) 1 demoTail) ∧ 1 < (demoMild n x).tauArr.n
    ∧ demoTail.r = (demoMild n x).tauArr.n - 1 ∧ demoTail.c ≤ 21
    ∧ (∀ l < (demoMild n x).tauArr.n - 1, ∀ t, ∑ j ∈ range demoTail.c, demoTail.get l j * t ^ j
        = source (demoMild n x) (1 + l) (t + bdry (demoMild n x).tauArr.get 1))
    ∧ SurfaceIs (demoMild n x) (fun _ _ _ => 1 / 3)
    ∧ FairSurface (demoMild n x) (node refExt (demoMild n x)) (weight refExt (demoMild n x)) (fun _ _ => 1 / 3)
    ∧ NonnegScattering (demoMild n x) (node refExt (demoMild n x)) ∧ NonnegSources (demoMild n x) (node refExt (demoMild n x))
    ∧ pydisort refExt J (demoMild n x) = .ok R ∧ pydisort refExt J (above (demoMild n x) 1) = .ok R₁
    ∧ pydisort refExt J (below (demoMild n x) 1 demoTail) = .ok R₂
    ∧ Evaluates (demoMild n x) R F ∧ Evaluates (above (demoMild n x) 1) R₁ F₁ ∧ Evaluates (below (demoMild n x) 1 demoTail) R₂ F₂ := by
  obtain ⟨x, h0, h1, hw⟩ := demoMild_wellPosed hn
  have hr : Rescalable (demoMild n x) := Or.inl (Or.inl one_pos)
  have hr₁ : Rescalable (above (demoMild n x) 1) := Or.inl (Or.inl one_pos)
  have hr₂ : Rescalable (below (demoMild n x) 1 demoTail) := Or.inl (Or.inl (mul_pos one_pos (Real.exp_pos _)))
  have hk : 1 < (demoMild n x).tauArr.n := Nat.one_lt_two
  have hw₁ := above_wellPosed hw one_pos hk
  have hw₂ := below_wellPosed (s' := demoTail) hw hk rfl (Nat.le_of_ble_eq_true rfl)
  obtain ⟨R, h⟩ := pydisort_isOk hw J
  obtain ⟨R₁, h₁⟩ := pydisort_isOk hw₁ J
  obtain ⟨R₂, h₂⟩ := pydisort_isOk hw₂ J
  obtain ⟨F, hF⟩ := evaluates_exists h hw.sound hr
  obtain ⟨F₁, hF₁⟩ := evaluates_exists h₁ hw₁.sound hr₁
  obtain ⟨F₂, hF₂⟩ := evaluates_exists h₂ hw₂.sound hr₂
  refine ⟨x, R, R₁, R₂, F, F₁, F₂, hw, hr, hr₁, hr₂, hk, rfl, Nat.le_of_ble_eq_true rfl, demoTail_spec (n := n) x, ?_, demoMild_surface hn, demoMild_scattering hn x, demoMild_sources hn h0 h1,
    h, h₁, h₂, hF, hF₁, hF₂⟩
  intro m _ M hM
  change [BDRFMode.scalar (1 / 3)][m]? = some M at hM
  rcases m with _ | m
  · simp only [List.getElem?_cons_zero, Option.some.injEq] at hM
    subst hM
    exact fun y z => rfl
  · simp at hM

/-- For all azimuths, for every number of streams: `demoFull` cut between its two layers. -/
example (hn : 0 < n) (J : Junk) : ∃ (x : ℝ) (R R₁ R₂ : Solved) (F F₁ F₂ : Fields), WellPosed refExt (demoFull n x) ∧ Rescalable (demoFull n x)
    ∧ Rescalable (above (demoFull n x) 1) ∧ Rescalable (below (demoFull n x) 1 demoTail) ∧ 1 < (demoFull n x).tauArr.n
    ∧ demoTail.r = (demoFull n x).tauArr.n - 1 ∧ demoTail.c ≤ 21
    ∧ (∀ l < (demoFull n x).tauArr.n - 1, ∀ t, ∑ j ∈ range demoTail.c, demoTail.get l j * t ^ j
        = source (demoFull n x) (1 + l) (t + bdry (demoFull n x).tauArr.get 1))
    ∧ (demoFull n x).onlyFlux = false ∧ (demoFull n x).NTcor = false ∧ nFourier (demoFull n x) = nLeg (demoFull n x)
    ∧ NothingNeglected (demoFull n x) ∧ (demoFull n x).bdrf.length ≤ nFourier (demoFull n x) ∧ SurfaceIs (demoFull n x) fullRho
    ∧ NonnegPhase (demoFull n x) ∧ FairBDRF (demoFull n x) (node refExt (demoFull n x)) (weight refExt (demoFull n x)) fullRho
    ∧ NonnegEmission (demoFull n x)
    ∧ pydisort refExt J (demoFull n x) = .ok R ∧ pydisort refExt J (above (demoFull n x) 1) = .ok R₁
    ∧ pydisort refExt J (below (demoFull n x) 1 demoTail) = .ok R₂
    ∧ Evaluates (demoFull n x) R F ∧ Evaluates (above (demoFull n x) 1) R₁ F₁ ∧ Evaluates (below (demoFull n x) 1 demoTail) R₂ F₂ := by
  obtain ⟨x, h0, h1, hw⟩ := demoFull_wellPosed hn
  have hr : Rescalable (demoFull n x) := Or.inl (Or.inl one_pos)
  have hr₁ : Rescalable (above (demoFull n x) 1) := Or.inl (Or.inl one_pos)
  have hr₂ : Rescalable (below (demoFull n x) 1 demoTail) := Or.inl (Or.inl (mul_pos one_pos (Real.exp_pos _)))
  have hk : 1 < (demoFull n x).tauArr.n := Nat.one_lt_two
  have hw₁ := above_wellPosed hw one_pos hk
  have hw₂ := below_wellPosed (s' := demoTail) hw hk rfl (Nat.le_of_ble_eq_true rfl)
  obtain ⟨R, h⟩ := pydisort_isOk hw J
  obtain ⟨R₁, h₁⟩ := pydisort_isOk hw₁ J
  obtain ⟨R₂, h₂⟩ := pydisort_isOk hw₂ J
  obtain ⟨F, hF⟩ := evaluates_exists h hw.sound hr
  obtain ⟨F₁, hF₁⟩ := evaluates_exists h₁ hw₁.sound hr₁
  obtain ⟨F₂, hF₂⟩ := evaluates_exists h₂ hw₂.sound hr₂
  refine ⟨x, R, R₁, R₂, F, F₁, F₂, hw, hr, hr₁, hr₂, hk, rfl, Nat.le_of_ble_eq_true rfl, demoTail_spec (n := n) x, rfl, rfl, by rw [(demoFull_nLeg x).1, (demoFull_nLeg x).2],
    demoFull_neglect x, ?_, demoFull_rho x, demoFull_nonneg hn x, demoFull_surface hn x, demoFull_emission hn h0 h1, h, h₁, h₂, hF, hF₁, hF₂⟩
  rw [(demoFull_nLeg x).2]
  change 2 ≤ 2 * n
  omega

end

end Pydisort

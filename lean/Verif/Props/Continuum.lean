import Verif.Spec.Continuum
import Verif.Props.Retuned

/-!
# C108: the streams against the transfer equation for all directions

Specification used: `Spec.ExactSolution`, `Spec.Sampled`, `Spec.ScatterDefect`, `Spec.ReflectDefect`, `Spec.NonnegScattering`, `Spec.FairSurface`, `Spec.NoNeglect`.
-/

namespace Pydisort
open Finset Spec

variable {E : Ext} {a : Args} {rho : ℝ → ℝ → ℝ} {up down : ℝ → ℝ} {v : ℝ → ℝ → ℝ}

theorem kernel_zero_eq (hn : NoNeglect a) {l : ℕ} (hl : l < a.tauArr.n) (x y : ℝ) :
    kernel a 0 l x y = scatD (omegaStar a l) (nLeg a) (legStar a l) 0 x y := by
  unfold kernel
  rcases hn l hl with h | h
  · rw [h]; simp [scatD]
  · rw [if_pos h]

theorem beamSource_zero_eq (hn : NoNeglect a) {l : ℕ} (hl : l < a.tauArr.n) (x : ℝ) :
    beamSource a 0 l x = beamX (omegaStar a l) (nLeg a) (legStar a l) a.I0 a.mu0 0 x := by
  unfold beamSource
  rcases hn l hl with h | h
  · rw [h]; simp [beamX]
  · rw [if_pos h]

theorem effAlbedo_eq_omegaStar (hn : NoNeglect a) {l : ℕ} (hl : l < a.tauArr.n) : effAlbedo a l = omegaStar a l := by
  unfold effAlbedo
  rcases hn l hl with h | h
  · rw [h]; split_ifs <;> rfl
  · rw [if_pos h]

theorem stream_mem (hg : GaussContract E (nHalf a)) {i : ℕ} (hi : i < 2 * nHalf a) :
    stream (nHalf a) (node E a) i ∈ Set.Icc (-1 : ℝ) 1 ∧ stream (nHalf a) (node E a) i ≠ 0 := by
  unfold stream
  split_ifs with h
  · have := node_pos (a := a) hg h
    exact ⟨⟨by linarith, this.2.le⟩, this.1.ne'⟩
  · have := node_pos (a := a) hg (i := i - nHalf a) (by omega)
    exact ⟨⟨by linarith, by linarith⟩, by linarith [this.1] |> fun h : -node E a (i - nHalf a) < 0 => h.ne⟩

theorem neg_mul_le_of_abs {s x c : ℝ} (hs : |s| = 1) (h : |x| ≤ c) : -(s * x) ≤ c := by
  refine (neg_le_abs _).trans ?_
  rwa [abs_mul, hs, one_mul]

/-- Stability: the error is at most the defect. -/
theorem discretisation_bound (hacc : Accepted a) (hg : GaussContract E (nHalf a)) (hpk : ∀ l < a.tauArr.n, peak a l < 1)
    (hk : NonnegScattering a (node E a)) (hn : NoNeglect a) (hr : ∀ i < nHalf a, ∀ j < nHalf a, 0 ≤ rho (node E a i) (node E a j))
    (hr1 : ∀ i < nHalf a, reflectance a (node E a) (weight E a) rho (node E a i) ≤ 1) (hv : ExactSolution a rho up down v)
    (hsm : Sampled a (node E a) up down) {ε : ℝ} (hd : ScatterDefect a (node E a) (weight E a) v ε)
    (hd' : ReflectDefect a (node E a) (weight E a) rho v ε) {U : ℝ → ℕ → ℝ} (hU : IsSolution a (node E a) (weight E a) rho 0 U)
    (s : ℝ) (hs : |s| = 1) :
    ∀ t, 0 ≤ t → t ≤ bottom a → ∀ i < 2 * nHalf a, 0 ≤ ε + s * (U t i - v t (stream (nHalf a) (node E a) i)) := by
  have hnp : 0 < nHalf a := streams_pos hacc
  have hL : 0 < a.tauArr.n := hacc.layers
  have hom : ∀ l < a.tauArr.n, 0 < 1 - omegaStar a l := by
    intro l hl
    have := (effAlbedo_range hacc hl (hpk l hl)).2.1
    rw [effAlbedo_eq_omegaStar hn hl] at this
    linarith
  have he0 : 0 ≤ ε := by
    have h1 := (abs_nonneg _).trans (hd 0 hL (bdry a.tauArr.get 0) ⟨le_rfl, (bdry_lt hacc hL).le⟩ 0 (by omega))
    exact nonneg_of_mul_nonneg_left h1 (hom 0 hL)
  refine nonneg_of_super (E := E) hacc hg hpk hk hr hr1 (V := fun t i => ε + s * (U t i - v t (stream (nHalf a) (node E a) i)))
    (fun i hi => continuousOn_const.add (continuousOn_const.mul ((hU.cont i hi).sub ?_))) ?_ ?_ ?_
  · obtain ⟨m1, m2⟩ := stream_mem (a := a) hg hi
    exact hv.cont.comp (continuousOn_id.prodMk continuousOn_const) fun t ht => ⟨ht, m1, m2⟩
  · intro l hl t ht0 ht1 i hi
    obtain ⟨m1, m2⟩ := stream_mem (a := a) hg hi
    obtain ⟨d₁, k₁, e₁⟩ := hU.ode l hl t ht0 ht1 i hi
    obtain ⟨d₂, k₂, e₂⟩ := hv.ode l hl t ht0 ht1 _ m1 m2
    refine ⟨s * (d₁ - d₂), ((k₁.sub k₂).const_mul s).const_add _, ?_⟩
    have hdd := hd l hl t ⟨ht0.le, ht1.le⟩ i hi
    rw [rteUser_zero, beamSource_zero_eq hn hl] at e₁
    unfold rteAll at e₂
    have hrow := row_sum_kernel hacc hg (hpk l hl) (stream (nHalf a) (node E a) i)
    rw [effAlbedo_eq_omegaStar hn hl] at hrow
    simp only [← kernel_zero_eq hn hl] at hdd
    beta_reduce
    set K := kernel a 0 l (stream (nHalf a) (node E a) i)
    have hexp : ∑ j ∈ range (2 * nHalf a), streamW (nHalf a) (weight E a) j * K (stream (nHalf a) (node E a) j)
          * (ε + s * (U t j - v t (stream (nHalf a) (node E a) j)))
        = omegaStar a l * ε + s * (∑ j ∈ range (2 * nHalf a), streamW (nHalf a) (weight E a) j * K (stream (nHalf a) (node E a) j) * U t j
          - ∑ j ∈ range (2 * nHalf a), streamW (nHalf a) (weight E a) j * K (stream (nHalf a) (node E a) j) * v t (stream (nHalf a) (node E a) j)) := by
      rw [← hrow, sum_mul, ← sum_sub_distrib, mul_sum, ← sum_add_distrib]
      exact sum_congr rfl fun j _ => by ring
    rw [hexp, show stream (nHalf a) (node E a) i * (s * (d₁ - d₂))
      = s * (stream (nHalf a) (node E a) i * d₁ - stream (nHalf a) (node E a) i * d₂) by ring, e₁, e₂]
    have h1 := neg_mul_le_of_abs hs hdd
    have h2 := mul_le_mul_of_nonneg_left h1 (Args.scale_pos hacc hl).le
    linarith
  · intro i hi
    beta_reduce
    have hst : stream (nHalf a) (node E a) (nHalf a + i) = -node E a i := by
      unfold stream; rw [if_neg (by omega), Nat.add_sub_cancel_left]
    have np := node_pos (a := a) hg hi
    rw [hst, hU.top i hi, hv.top _ ⟨np.1, np.2.le⟩, hsm.top i hi]
    linarith
  · intro i hi
    beta_reduce
    have hst : ∀ j, stream (nHalf a) (node E a) (nHalf a + j) = -node E a j := by
      intro j; unfold stream; rw [if_neg (by omega), Nat.add_sub_cancel_left]
    have hst' : stream (nHalf a) (node E a) i = node E a i := by unfold stream; rw [if_pos hi]
    have np := node_pos (a := a) hg hi
    rw [hst', hU.bot i hi, hv.bot _ ⟨np.1, np.2.le⟩, hsm.bottom i hi]
    simp only [hst]
    by_cases hm : 0 < a.bdrf.length
    · have y1 := hr1 i hi
      have y2 := hd' hm i hi
      unfold reflectance at y1 y2
      rw [if_pos hm] at y1 y2
      simp only [if_pos hm]
      unfold reflected
      rw [if_pos rfl, one_add_one_eq_two]
      have h1 : ∑ j ∈ range (nHalf a), weight E a j * node E a j * rho (node E a i) (node E a j)
          * (ε + s * (U (bottom a) (nHalf a + j) - v (bottom a) (-node E a j)))
          = (∑ j ∈ range (nHalf a), weight E a j * node E a j * rho (node E a i) (node E a j)) * ε
            + s * (∑ j ∈ range (nHalf a), weight E a j * node E a j * rho (node E a i) (node E a j) * U (bottom a) (nHalf a + j)
              - ∑ j ∈ range (nHalf a), weight E a j * node E a j * rho (node E a i) (node E a j) * v (bottom a) (-node E a j)) := by
        rw [sum_mul, ← sum_sub_distrib, mul_sum, ← sum_add_distrib]
        exact sum_congr rfl fun j _ => by ring
      rw [h1]
      have h2 := neg_mul_le_of_abs hs y2
      linarith
    · simp only [if_neg hm]
      linarith

/-- What a bound for the modes says about the returned functions. -/
theorem fields_near {J : Junk} {R : Solved} (h : pydisort E J a = .ok R) (hg : GaussContract E (nHalf a)) (hr : Rescalable a) {U : ℕ → ℝ → ℕ → ℝ}
    (hU : IsModes a R U) {F : Fields} (hF : Evaluates a R F) {t : ℝ} (h0 : 0 ≤ t) (h1 : t ≤ bottom a) {ε : ℝ}
    (key : ∀ i < 2 * nHalf a, |U 0 t i - v t (stream (nHalf a) (node E a) i)| ≤ ε) :
    (∀ i < 2 * nHalf a, |F.u0 t i - v t (stream (nHalf a) (node E a) i)| ≤ ε)
      ∧ |F.up t - upFluxExact (v t)| ≤ Real.pi * ε + |hemiFlux a (node E a) (weight E a) (fun i => v t (node E a i)) - upFluxExact (v t)|
      ∧ ∀ l < a.tauArr.n, InLayer a l t →
        |F.diffuse t + F.direct t - (downFluxExact (v t) + a.I0 * a.mu0 * Real.exp (-tauStar a l t / a.mu0))|
          ≤ Real.pi * ε + |hemiFlux a (node E a) (weight E a) (fun i => v t (-node E a i)) - downFluxExact (v t)| := by
  have hacc := (pydisort_ok h).1
  obtain ⟨e1, e2, e3, e4⟩ := evaluates_unique hF (evaluates h hr hU) h0 h1
  have hnp : 0 < nHalf a := streams_pos hacc
  refine ⟨fun i hi => by rw [e1 i hi]; exact key i hi, ?_, fun l hl hin => ?_⟩
  · rw [e2]
    refine (abs_sub_le _ (hemiFlux a (node E a) (weight E a) (fun i => v t (node E a i))) _).trans (add_le_add_left ?_ _)
    refine abs_hemiFlux_sub_le (a := a) hg hnp fun i hi => ?_
    have := key i (by omega)
    unfold stream at this
    rwa [if_pos hi] at this
  · rw [e3, e4]
    simp only [fieldsOf]
    have hlay : tauStar a (layOf a t) t = tauStar a l t := by
      have hl' := layOf_spec hacc h0 h1
      exact tauStar_layers hacc hl'.1 hl hl'.2 hin
    rw [hlay]
    have := abs_hemiFlux_sub_le (a := a) (v := fun i => U 0 t (nHalf a + i)) (v' := fun i => v t (-node E a i)) hg hnp fun i hi => by
      have := key (nHalf a + i) (by omega)
      unfold stream at this
      rwa [if_neg (by omega), Nat.add_sub_cancel_left] at this
    refine le_trans (le_of_eq ?_) ((abs_sub_le _ (hemiFlux a (node E a) (weight E a) (fun i => v t (-node E a i))) _).trans (add_le_add_left this _))
    congr 1
    ring

theorem discretisation_core {J : Junk} {R : Solved} (h : pydisort E J a = .ok R) (hS : Sound E a) (hr : Rescalable a)
    (hbp : Azimuthless a.bpos) (hbn : Azimuthless a.bneg) {rho : ℕ → ℝ → ℝ → ℝ} (hrho : SurfaceIs a rho)
    (hr0 : ∀ i < nHalf a, ∀ j < nHalf a, 0 ≤ rho 0 (node E a i) (node E a j))
    (hr1 : ∀ i < nHalf a, reflectance a (node E a) (weight E a) (rho 0) (node E a i) ≤ 1) (hk : NonnegScattering a (node E a)) (hn : NoNeglect a)
    (hv : ExactSolution a (rho 0) up down v) (hsm : Sampled a (node E a) up down) {ε : ℝ}
    (hd : ScatterDefect a (node E a) (weight E a) v ε) (hd' : ReflectDefect a (node E a) (weight E a) (rho 0) v ε)
    {F : Fields} (hF : Evaluates a R F) :
    ∀ t, 0 ≤ t → t ≤ bottom a → (∀ i < 2 * nHalf a, |F.u0 t i - v t (stream (nHalf a) (node E a) i)| ≤ ε)
      ∧ |F.up t - upFluxExact (v t)| ≤ Real.pi * ε + |hemiFlux a (node E a) (weight E a) (fun i => v t (node E a i)) - upFluxExact (v t)|
      ∧ ∀ l < a.tauArr.n, InLayer a l t →
        |F.diffuse t + F.direct t - (downFluxExact (v t) + a.I0 * a.mu0 * Real.exp (-tauStar a l t / a.mu0))|
          ≤ Real.pi * ε + |hemiFlux a (node E a) (weight E a) (fun i => v t (-node E a i)) - downFluxExact (v t)| := by
  intro t h0 h1
  obtain ⟨U, hU, _⟩ := C02_modes_solve_transfer_equation h hS hr
  have hacc := (pydisort_ok h).1
  have hg := hS.gauss
  have sU := modes_isSolution h hS hr hbp hbn hrho hU (nFourier_pos h hS)
  have bound := discretisation_bound hacc hg hS.peak hk hn hr0 hr1 hv hsm hd hd' sU
  have key : ∀ i < 2 * nHalf a, |U 0 t i - v t (stream (nHalf a) (node E a) i)| ≤ ε := by
    intro i hi
    have p := bound 1 (by simp) t h0 h1 i hi
    have q := bound (-1) (by simp) t h0 h1 i hi
    exact abs_le.2 ⟨by linarith, by linarith⟩
  exact fields_near h hg hr hU hF h0 h1 key

/-- **C108.** Let `v` be an intensity field that solves the transfer equation for all directions. If the quadrature integrates its scattered light up to a fraction `ε` of the
co-albedo, and its reflected light up to a fraction `ε` of what the surface absorbs, then the azimuthally averaged intensities returned by the code differ from `v` by at most `ε`
at every depth and stream, however thick the atmosphere. The fluxes differ by at most `π ε` more than the quadrature error of the flux integral itself. -/
theorem C108_discretisation_error {J : Junk} {R : Solved} (h : pydisort E J a = .ok R) (hS : Sound E a) (hr : Rescalable a)
    (hbp : Azimuthless a.bpos) (hbn : Azimuthless a.bneg) {rho : ℕ → ℝ → ℝ → ℝ} (hrho : SurfaceIs a rho)
    (hsf : FairSurface a (node E a) (weight E a) (rho 0)) (hk : NonnegScattering a (node E a)) (hn : NoNeglect a)
    (hv : ExactSolution a (rho 0) up down v) (hsm : Sampled a (node E a) up down) {ε : ℝ}
    (hd : ScatterDefect a (node E a) (weight E a) v ε) (hd' : ReflectDefect a (node E a) (weight E a) (rho 0) v ε)
    {F : Fields} (hF : Evaluates a R F) :
    ∀ t, 0 ≤ t → t ≤ bottom a → (∀ i < 2 * nHalf a, |F.u0 t i - v t (stream (nHalf a) (node E a) i)| ≤ ε)
      ∧ |F.up t - upFluxExact (v t)| ≤ Real.pi * ε + |hemiFlux a (node E a) (weight E a) (fun i => v t (node E a i)) - upFluxExact (v t)|
      ∧ ∀ l < a.tauArr.n, InLayer a l t →
        |F.diffuse t + F.direct t - (downFluxExact (v t) + a.I0 * a.mu0 * Real.exp (-tauStar a l t / a.mu0))|
          ≤ Real.pi * ε + |hemiFlux a (node E a) (weight E a) (fun i => v t (-node E a i)) - downFluxExact (v t)| :=
  discretisation_core h hS hr hbp hbn hrho hsf.nonneg hsf.bounded hk hn hv hsm hd hd' hF

end Pydisort

import Verif.Spec.Enclosure
import Verif.Props.Bounds
import Verif.Props.Thermal
import Verif.Props.Cache

/-!
# C70: thermal equilibrium of problems set up with the package's own helpers

Specification used: `Spec.HelpersAt`, `Spec.bandEmission`.
-/

namespace Pydisort
open Finset Spec

variable {E : Ext} {J : Junk} {a : Args} {R : Solved}

/-- What the helpers produce for one temperature is in equilibrium at the band emission of that temperature. -/
theorem helpers_isothermal {Q : QuadVec} (hQ : QuadContract Q) (hacc : Accepted a) (hg : GaussContract E (nHalf a)) {T lo hi : ℝ}
    (hT : 0 ≤ T) (hlo : 0 < lo) (hhi : lo ≤ hi) (hh : HelpersAt E Q a T lo hi) {rho : ℕ → ℝ → ℝ → ℝ} (hrho : SurfaceIs a rho) (hF : 0 < nFourier a) :
    Isothermal a (node E a) (weight E a) (rho 0) (bandEmission T lo hi) := by
  have hb : (blackbodyContrib Q ⟨1, fun _ => T⟩ lo hi).get 0 = bandEmission T lo hi :=
    (C69_blackbody hQ ⟨1, fun _ => T⟩ (fun _ _ => hT) hlo hhi).2 0 Nat.one_pos
  refine ⟨hh.noBeam, fun l hl t _ => ?_, fun i _ => ?_, fun i hi => ?_⟩
  · obtain ⟨S, e, h1, h2, h3, -⟩ := C56_source hQ a.tauArr ⟨a.tauArr.n + 1, fun _ => T⟩ hacc.layers rfl
      (fun l hl => bdry_lt hacc hl) (fun _ _ => hT) hlo hhi
    rw [hh.source] at e; cases e
    have hlin : ∀ x, rowValue a.s l x = a.s.get l 0 + a.s.get l 1 * x := fun x => by simp [rowValue, polyVal, h2, sum_range_succ]
    obtain ⟨k1, k2⟩ := h3 l hl
    rw [hlin] at k1 k2
    have hne : edge a.tauArr (l + 1) - edge a.tauArr l ≠ 0 := (sub_pos.2 (bdry_lt hacc hl)).ne'
    have hs : a.s.get l 1 = 0 := by
      have : a.s.get l 1 * (edge a.tauArr (l + 1) - edge a.tauArr l) = 0 := by linear_combination k2 - k1
      exact (mul_eq_zero.1 this).resolve_right hne
    unfold source
    rw [if_pos (by rw [h1]; exact hl), h2]
    simp only [sum_range_succ, sum_range_zero]
    rw [hs] at k1 ⊢
    linear_combination k1
  · rw [hh.top, hb]; simp [bcVal]
  · cases hM : a.bdrf with
    | nil =>
      rw [hh.black hM, hb]
      unfold reflectance
      rw [hM]; simp [bcVal]
    | cons M rest =>
      have hM0 : a.bdrf[0]? = some M := by rw [hM]; rfl
      obtain ⟨e, he, hp⟩ := hh.surface M hM0
      have hlen : 0 < a.bdrf.length := by rw [hM]; simp
      have hn := streams_pos hacc
      have hrep := hrho 0 hF M hM0
      unfold reflectance
      rw [if_pos hlen, hp, hb]
      cases M with
      | scalar c =>
        simp only [emissivity, Except.ok.injEq] at he
        subst he
        have hr : ∀ x y, rho 0 x y = c := hrep
        simp only [hr]
        rw [← sum_mul, sum_weight_node hg hn]
        simp only [emits, bcVal, if_true]
        ring
      | func f =>
        obtain ⟨x, w, v, g1, g2, g3, g4⟩ := C57_kirchhoff (E := E) hn f (rho 0) hrep
        rw [he] at g2; cases g2
        obtain ⟨hx, hw⟩ : (∀ j < nHalf a, x.get j = node E a j) ∧ ∀ j < nHalf a, w.get j = weight E a j := by
          unfold gaussLegendreQuad at g1
          rw [if_neg hn.ne'] at g1
          cases g1
          constructor
          · intro j _
            simp only [transformInterval, A1.map, node]; ring
          · intro j _
            simp only [transformWeights, A1.map, weight]; ring
        simp only [emits, bcVal, if_true, A1.map]
        have hv : v.get i = 1 - 2 * ∑ j ∈ range (nHalf a), weight E a j * node E a j * rho 0 (node E a i) (node E a j) := by
          rw [g4 i hi, hx i hi]
          congr 2
          exact sum_congr rfl fun j hj => by rw [hx j (mem_range.1 hj), hw j (mem_range.1 hj)]
        split_ifs with h1 h2
        · have : i = 0 := by omega
          subst this; rw [hv]
        · rw [hv]
        · omega

/-- **C70, with the package's helpers.** Source polynomials from a constant temperature profile, a boundary value from `blackbody_contrib_to_BCs`
above, and the emissivity computed from the BDRF times the same black body below: the computed intensity is the band emission of that temperature in
every direction, at every depth and azimuth, and both fluxes are `π` times it. -/
theorem C70_enclosure {Q : QuadVec} (hQ : QuadContract Q) (h : pydisort E J a = .ok R) (hw : WellPosed E a) {T lo hi : ℝ} (hT : 0 < T)
    (hlo : 0 < lo) (hhi : lo < hi) (hh : HelpersAt E Q a T lo hi) (hn : NoNeglect a) :
    Evaluates a R ⟨fun _ _ => bandEmission T lo hi, fun _ => Real.pi * bandEmission T lo hi, fun _ => Real.pi * bandEmission T lo hi,
      fun _ => 0, fun _ _ _ => bandEmission T lo hi⟩ := by
  obtain ⟨rho, hrho⟩ := surface_exists hw.surface
  have hiso := helpers_isothermal hQ hw.accepted hw.gauss hT.le hlo hhi.le hh hrho (nFourier_pos h hw.sound)
  have hpos := (C69_increasing hlo hhi).2.1 T hT
  refine C70_isothermal h hw (Or.inl (Or.inr (Or.inr (Or.inl ?_)))) hrho hiso hn
  have hb : (blackbodyContrib Q ⟨1, fun _ => T⟩ lo hi).get 0 = bandEmission T lo hi :=
    (C69_blackbody hQ ⟨1, fun _ => T⟩ (fun _ _ => hT.le) hlo hhi.le).2 0 Nat.one_pos
  rw [hh.top, hb]; exact hpos

/-- The hypotheses are met: `demoWarm` with the source array that `generate_s_poly_coeffs` returns. -/
example {n : ℕ} (hn : 0 < n) (J : Junk) : ∃ a R, pydisort refExt J a = .ok R ∧ nHalf a = n ∧ WellPosed refExt a ∧ NoNeglect a ∧
    HelpersAt refExt refQuad a 300 50000 80000 := by
  set B := (blackbodyContrib refQuad ⟨1, fun _ => 300⟩ 50000 80000).get 0 with hB
  obtain ⟨S, e, h1, h2, -⟩ := C56_source refQuad_contract (demoWarm n B).tauArr ⟨(demoWarm n B).tauArr.n + 1, fun _ => 300⟩ (demoWarm_wellPosed hn B).accepted.layers rfl
      (fun l hl => bdry_lt (demoWarm_wellPosed hn B).accepted hl) (fun _ _ => by norm_num) (lo := 50000) (hi := 80000) (by norm_num) (by norm_num)
  have h0 := demoWarm_wellPosed hn B
  have hw : WellPosed refExt { demoWarm n B with s := S } :=
    { accepted := { h0.accepted with sourceRows := Or.inr h1 }
      gauss := h0.gauss
      eig := h0.eig
      peak := h0.peak
      dissipates := h0.dissipates
      beam := h0.beam
      surface := h0.surface
      bottomBC := h0.bottomBC
      topBC := h0.topBC
      sourceShape := Or.inr h1
      degree := Or.inr (by change S.c ≤ 21; omega)
      angles := h0.angles }
  obtain ⟨R, hR⟩ := pydisort_isOk hw J
  refine ⟨{ demoWarm n B with s := S }, R, hR, demo_nHalf 1, hw, demoWarm_noNeglect hn B, ⟨rfl, e, rfl, fun hb => ?_, fun M hM => ⟨.scalar (1 - 1 / 3), ?_, ?_⟩⟩⟩
  · simp [demoWarm, demoMild, demo] at hb
  · simp [demoWarm, demoMild, demo] at hM
    subst hM
    simp [emissivity]
  · simp only [demoWarm, emits, ← hB]
    norm_num

end Pydisort

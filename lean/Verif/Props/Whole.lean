import Verif.WholeSlab
import Verif.Props.FullExists
import Verif.Props.Sky

/-!
# C117: in all directions, the transfer equation with the whole phase function has exactly one solution

Specification used: `Spec.WholeSolution`, `Spec.PhaseSeries`, `Spec.NonnegWhole`, `Spec.AbsorbingBDRF`, `Spec.Tame`.
-/

namespace Pydisort
open Finset Spec MeasureTheory

section
variable {a : Args} {g : ℕ → ℕ → ℝ} {rho : ℕ → ℝ → ℝ → ℝ} {up down : ℝ → ℝ}

/-- **C117.** Before truncation, delta-M scaling, Fourier expansion and quadrature, the transfer equation has a bounded solution, continuous except for horizontal directions, for every
accepted atmosphere with non-negative phase functions whose Legendre series converge absolutely, above a surface that absorbs; and it has only one. -/
theorem C117_whole_solution_exists (hacc : Accepted a) (hgs : ∀ l < a.tauArr.n, PhaseSeries (g l)) (hpos : NonnegWhole a g) (hr : AbsorbingBDRF a rho) (hu : Tame up) (hd : Tame down) :
    (∃ w, WholeSolution a g rho up down w)
      ∧ ∀ w w', WholeSolution a g rho up down w → WholeSolution a g rho up down w' →
        ∀ t ∈ Set.Icc 0 (bottom a), ∀ y ∈ Set.Icc (-1 : ℝ) 1, y ≠ 0 → ∀ ph, w t y ph = w' t y ph :=
  ⟨whole_exists hacc hgs hpos hr hu hd, fun _ _ hw hw' => whole_unique hacc hgs hpos hr hw hw'⟩
end

/-! ### A Henyey–Greenstein atmosphere above a surface that prefers a direction -/

/-- `demoHG` above a surface whose BDRF depends on the azimuth. -/
noncomputable def demoGlow (n : ℕ) (x : ℝ) : Args := { demoHG n x with bdrf := [.scalar (1 / 3), .scalar (1 / 4)] }

section
variable {n : ℕ}

theorem demoGlow_nHalf (x : ℝ) : nHalf (demoGlow n x) = n := demo_nHalf x

theorem demoGlow_nLeg (x : ℝ) : nLeg (demoGlow n x) = n := demoHG_nLeg x

theorem demoGlow_peak (x : ℝ) {l : ℕ} (hl : l < (demoGlow n x).tauArr.n) : peak (demoGlow n x) l = hg n := demoHG_peak x hl

theorem demoGlow_accepted (hn : 0 < n) {x : ℝ} (h0 : 0 < x) (h1 : x ≤ 1) : Accepted (demoGlow n x) := { demoHG_accepted hn h0 h1 with }

theorem demoGlow_nonneg (x : ℝ) : NonnegWhole (demoGlow n x) fun _ => hg := fun _ _ nu hnu => by
  rw [wholePhase_eq]
  exact hg_nonneg hnu one_mem_cos

theorem demoGlow_absorbs (x : ℝ) : AbsorbingBDRF (demoGlow n x) fullRho := demoDome_absorbs (n := n) x |> fun h => ⟨h.cont, h.nonneg, h.absorbs⟩

/-- The hypotheses of C117 are met by an atmosphere with infinitely many coefficients, a beam, internal sources, and a surface whose BDRF depends on the azimuth. -/
example {x : ℝ} (h0 : 0 < x) (h1 : x ≤ 1) : (∃ w, WholeSolution (demoGlow 1 x) (fun _ => hg) fullRho (fun _ => 1) (fun _ => 1) w) ∧ 0 < (demoGlow 1 x).I0 ∧ (∀ k, hg k ≠ 0)
    ∧ bdrfOf (demoGlow 1 x) fullRho 1 1 0 ≠ bdrfOf (demoGlow 1 x) fullRho 1 1 Real.pi := by
  refine ⟨(C117_whole_solution_exists (demoGlow_accepted one_pos h0 h1) (fun _ _ => hg_phase) (demoGlow_nonneg x) (demoGlow_absorbs x) tame_one tame_one).1, one_pos,
    fun k => by unfold hg; positivity, ?_⟩
  have e : ∀ d : ℝ, bdrfOf (demoGlow 1 x) fullRho 1 1 d = 1 / 3 + 1 / 4 * Real.cos d := fun d => by
    simp [bdrfOf, demoGlow, sum_range_succ, fullRho]
  rw [e, e, Real.cos_zero, Real.cos_pi]
  norm_num

end

end Pydisort

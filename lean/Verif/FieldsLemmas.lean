import Verif.Spec.Fields
import Verif.Props.Flux
import Verif.Props.Evaluate
import Verif.Props.WellPosed

/-! Helper lemmas: all results from the Fourier modes. -/

namespace Pydisort
open Finset Spec

section
variable {E : Ext} {J : Junk} {a : Args} {R : Solved}

open Classical in
/-- The layer of a depth. -/
noncomputable def layOf (a : Args) (t : ℝ) : ℕ := if h : ∃ l < a.tauArr.n, InLayer a l t then h.choose else 0

theorem layOf_spec (h : Accepted a) {t : ℝ} (h0 : 0 ≤ t) (h1 : t ≤ bottom a) : layOf a t < a.tauArr.n ∧ InLayer a (layOf a t) t := by
  have := exists_layer h h0 h1
  unfold layOf
  rw [dif_pos this]
  exact this.choose_spec

/-- The correction that `u` adds. -/
noncomputable def ntVal (R : Solved) (t ph : ℝ) (i : ℕ) : ℝ :=
  match R.nt with
  | some n => R.I.rescale * n.corrVal false i (R.I.layer t) t ph
  | none => 0

/-- All results, from the Fourier modes. -/
noncomputable def fieldsOf (E : Ext) (a : Args) (R : Solved) (U : ℕ → ℝ → ℕ → ℝ) : Fields where
  u0 := fun t i => U 0 t i
  up := fun t => hemiFlux a (node E a) (weight E a) (fun i => U 0 t i)
  diffuse := fun t => hemiFlux a (node E a) (weight E a) (fun i => U 0 t (nHalf a + i))
    + (a.I0 * a.mu0 * Real.exp (-tauStar a (layOf a t) t / a.mu0) - a.I0 * a.mu0 * Real.exp (-t / a.mu0))
  direct := fun t => a.I0 * a.mu0 * Real.exp (-t / a.mu0)
  u := fun t ph i => (∑ m ∈ range (nFourier a), U m t i * Real.cos (m * (a.phi0 - ph))) + ntVal R t ph i

theorem evaluates (h : pydisort E J a = .ok R) (hres : Rescalable a) {U : ℕ → ℝ → ℕ → ℝ} (hU : IsModes a R U) :
    Evaluates a R (fieldsOf E a R U) := by
  have hacc := (pydisort_ok h).1
  refine ⟨hU.u0, fun tau ht => ?_, fun tau ht => ?_, fun hf tau phi ht hnt => ?_⟩
  · obtain ⟨A, hA, F, hF, h1, h2⟩ := C09_flux_up h tau ht
    obtain ⟨A', hA', e1, e2, e3⟩ := hU.u0 tau ht
    rw [hA] at hA'; cases hA'
    refine ⟨F, hF, h1, fun t htt => ?_⟩
    rw [h2 t htt]
    exact hemiFlux_congr fun i hi => e3 i (by omega) t htt
  · obtain ⟨A, hA, hF⟩ := C09_flux_down h hres tau ht (fun t => layOf a (tau.get t))
      (fun t htt => layOf_spec hacc (ht t htt).1 (ht t htt).2)
    obtain ⟨F, D, fl, hF, h1, h2, h3, h4⟩ := hF
    obtain ⟨A', hA', e1, e2, e3⟩ := hU.u0 tau ht
    rw [hA] at hA'; cases hA'
    refine ⟨F, D, fl, hF, h1, fun t htt => ?_, h3, h4⟩
    rw [h2 t htt]
    refine congrArg₂ (· + ·) ?_ rfl
    exact hemiFlux_congr fun i hi => e3 _ (by omega) t htt
  · obtain ⟨B, hB, b0, b1, b2, b3⟩ := u_returns h hf ht hnt
    obtain ⟨A', hA', e1, e2, e3, e4⟩ := hU.u tau phi ht
    have hc : R.I.checkTau tau = .ok () := checkTau_of_inRange h ht
    have hN : R.I.N = nHalf a := by
      obtain ⟨_, O, r, _, _, hI, _⟩ := pydisort_ok h; rw [hI]; rfl
    have hp : R.I.phi0 = a.phi0 := by
      obtain ⟨_, O, r, _, _, hI, _⟩ := pydisort_ok h; rw [hI]; rfl
    have hF : R.I.NFourier = nFourier a := by
      obtain ⟨_, O, r, _, _, hI, _⟩ := pydisort_ok h; rw [hI, ← nFourier_eq (a := a)]; rfl
    obtain ⟨A, h1, h2, h3, h4, h5⟩ := R.I.u_plain R.S phi hc
    change R.uUncorrected tau phi false = .ok A at h1
    rw [hA'] at h1; cases h1
    refine ⟨B, hB, b0, b1, b2, fun i hi t htt p hpp => ?_⟩
    rw [b3 i hi t htt p hpp]
    refine congrArg₂ (· + ·) ?_ rfl
    have x1 := e4 i hi t htt p hpp
    have x2 := h5 i (by rw [hN]; exact hi) t htt p hpp
    rw [x1, hF, hp] at x2
    exact x2.symm

/-! ### The correction is proportional to the beam -/

theorem corrVal_linear (n : NTIn) (anti : Bool) (i l : ℕ) (t ph : ℝ) :
    n.corrVal anti i l t ph = n.I0div4pi * ({ n with I0div4pi := 1 } : NTIn).corrVal anti i l t ph := by
  have hB : ∀ nu, n.tmsB i l nu = n.I0div4pi * ({ n with I0div4pi := 1 } : NTIn).tmsB i l nu := by
    intro nu; unfold NTIn.tmsB; ring
  have hT : ∀ st nu, n.tmsVal anti i l st nu = n.I0div4pi * ({ n with I0div4pi := 1 } : NTIn).tmsVal anti i l st nu := by
    intro st nu
    unfold NTIn.tmsVal
    rw [hB]
    change _ = n.I0div4pi * (_ * n.tmsOwn anti l st i + if n.NLayers > 1 then if i < n.N then
      n.Rpos anti i l * Real.exp (n.M_inv i * (st - n.tau0 (l + 1))) * _
      else n.Rneg anti (i - n.N) l * Real.exp (n.M_inv (i - n.N) * (n.tau0 l - st)) * _ else 0)
    split_ifs <;> ring
  have hI : ∀ nu, n.imsFac nu = n.I0div4pi * ({ n with I0div4pi := 1 } : NTIn).imsFac nu := by
    intro nu
    unfold NTIn.imsFac
    change n.I0div4pi * (n.omegaAvg * n.fAvg) ^ 2 / (1 - n.omegaAvg * n.fAvg) * _
      = n.I0div4pi * (1 * (n.omegaAvg * n.fAvg) ^ 2 / (1 - n.omegaAvg * n.fAvg) * _)
    ring_nf
    rfl
  unfold NTIn.corrVal
  rw [hT, hI]
  change _ = n.I0div4pi * (_ + if i < n.N then 0 else _)
  split_ifs
  · simp only [add_zero]; rfl
  · rw [mul_add]
    refine congrArg₂ (· + ·) rfl ?_
    change _ = n.I0div4pi * (_ * imsChi anti (n.mu (i - n.N)) n.scaledMu0 t)
    rw [mul_assoc]

end
end Pydisort

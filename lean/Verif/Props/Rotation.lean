import Verif.Props.WellPosed
import Verif.Props.Evaluate
import Verif.WitnessNT

/-!
# C78: turning the beam turns the intensity

No further specification is needed: the statement compares the functions returned by two calls.
-/

namespace Pydisort
open Finset Spec

variable {E : Ext} {J : Junk} {a : Args} {R : Solved} {p : ℝ}

/-- The call `pydisort` for a beam from azimuth `p`. -/
noncomputable def turned (R : Solved) (p : ℝ) : Solved :=
  ⟨{ R.I with phi0 := p }, R.S, R.nt.map fun n => { n with phi0 := p }, R.onlyFlux⟩

theorem turned_call (h : pydisort E J a = .ok R) (hp : 0 ≤ p ∧ p < 2 * Real.pi) :
    pydisort E J { a with phi0 := p } = .ok (turned R p) := by
  have hacc := (pydisort_ok h).1
  have hacc' : Accepted { a with phi0 := p } := { hacc with beamDir := fun hI => ⟨(hacc.beamDir hI).1, hp⟩ }
  unfold pydisort prepare at h ⊢
  rw [Args.validate_iff.2 hacc] at h
  rw [Args.validate_iff.2 hacc']
  have e1 : ({ a with phi0 := p } : Args).quad E = a.quad E := rfl
  have e2 : ({ a with phi0 := p } : Args).optics = a.optics := rfl
  rw [e1, e2]
  rcases hq : a.quad E with e | q
  · rw [hq] at h; cases h
  rcases hO : a.optics with e | O
  · rw [hq, hO] at h; cases h
  have e3 : ({ a with phi0 := p } : Args).rescaleFactor O = a.rescaleFactor O := rfl
  rcases hr : a.rescaleFactor O with e | r
  · rw [hq, hO] at h; simp only [bind, Except.bind, hr] at h; cases h
  rw [hq, hO] at h
  simp only [bind, Except.bind, hr, e3, pure, Except.pure] at h ⊢
  have e4 : solveAll E J (({ a with phi0 := p } : Args).asmIn q.1.get q.2.get O r) = solveAll E J (a.asmIn q.1.get q.2.get O r) := rfl
  rw [e4]
  rcases hS : solveAll E J (a.asmIn q.1.get q.2.get O r) with e | S
  · rw [hS] at h; cases h
  rw [hS] at h
  simp only [Except.ok.injEq] at h ⊢
  subst h
  unfold turned
  simp only [Solved.mk.injEq, and_true, true_and]
  refine ⟨rfl, ?_⟩
  have e5 : ({ a with phi0 := p } : Args).NTGate ↔ a.NTGate := Iff.rfl
  by_cases hg : a.NTGate
  · rw [if_pos (e5.2 hg), if_pos hg]; rfl
  · rw [if_neg (fun x => hg (e5.1 x)), if_neg hg]; rfl

theorem nuVal_turn (x ph y p q : ℝ) : nuVal x (ph + (p - q)) y p = nuVal x ph y q := by
  unfold nuVal
  rw [show p - (ph + (p - q)) = q - ph by ring]

/-- **C78.** If a call returns, so does the call with any other azimuth of the beam in `[0, 2π)`. The fluxes and the mean intensity are
unchanged, and the intensity, with or without corrections, is turned by the difference of the azimuths, for all arguments and both values of
`is_antiderivative_wrt_tau`; the same holds for the Fourier error estimate. -/
theorem C78_rotation (h : pydisort E J a = .ok R) (hp : 0 ≤ p ∧ p < 2 * Real.pi) :
    ∃ R', pydisort E J { a with phi0 := p } = .ok R' ∧
      (∀ tau anti, R'.u0 tau anti = R.u0 tau anti ∧ R'.fluxUp tau anti = R.fluxUp tau anti ∧ R'.fluxDown tau anti = R.fluxDown tau anti) ∧
      ∀ tau (phi : A1 ℝ), ∀ anti, R'.u tau (phi.map fun x => x + (p - a.phi0)) anti = R.u tau phi anti ∧
        R'.fourierError tau (phi.map fun x => x + (p - a.phi0)) anti = R.fourierError tau phi anti := by
  have hphi : R.I.phi0 = a.phi0 := by
    obtain ⟨_, O, r, _, _, hI, _⟩ := pydisort_ok h; rw [hI]; rfl
  have hnphi : ∀ n, R.nt = some n → n.phi0 = a.phi0 := by
    intro n hn
    obtain ⟨_, O, r, _, _, hI, _, _, hg1, hg2⟩ := pydisort_ok h
    by_cases hg : a.NTGate
    · rw [hg1 hg] at hn; cases hn; rfl
    · rw [hg2 hg] at hn; cases hn
  have hc : ∀ x, p - (x + (p - a.phi0)) = R.I.phi0 - x := fun x => by rw [hphi]; ring
  have hraw : ∀ tau (phi : A1 ℝ) anti, ({ R.I with phi0 := p } : AsmIn).uRaw R.S tau (phi.map fun x => x + (p - a.phi0)) anti
      = R.I.uRaw R.S tau phi anti := by
    intro tau phi anti
    unfold AsmIn.uRaw
    simp only [A1.map, hc]
    rfl
  have hu : ∀ tau (phi : A1 ℝ) anti, (turned R p).uUncorrected tau (phi.map fun x => x + (p - a.phi0)) anti
      = R.uUncorrected tau phi anti := by
    intro tau phi anti
    change ({ R.I with phi0 := p } : AsmIn).u R.S tau _ anti = R.I.u R.S tau phi anti
    unfold AsmIn.u
    rw [hraw]
  have hnu : ∀ (n : NTIn), n.phi0 = a.phi0 → ∀ (v : A1 ℝ) (phi : A1 ℝ) (y : ℝ),
      calculateNu v (phi.map fun x => x + (p - a.phi0)) ⟨1, fun _ => y⟩ ⟨1, fun _ => p⟩
        = calculateNu v phi ⟨1, fun _ => y⟩ ⟨1, fun _ => n.phi0⟩ := by
    intro n hn v phi y
    unfold calculateNu
    simp only [A1.map, nuVal_turn, hn]
  have huu : ∀ tau (phi : A1 ℝ) anti, (turned R p).u tau (phi.map fun x => x + (p - a.phi0)) anti = R.u tau phi anti := by
    intro tau phi anti
    unfold Solved.u
    rcases hn : R.nt with _ | n
    · have : (turned R p).nt = none := by unfold turned; rw [hn]; rfl
      rw [this]
      simp only [hu]
      rfl
    · have : (turned R p).nt = some { n with phi0 := p } := by unfold turned; rw [hn]; rfl
      rw [this]
      have hcorr : ({ n with phi0 := p } : NTIn).corr tau (phi.map fun x => x + (p - a.phi0)) anti (fun t => R.I.layer (tau.get t))
          = n.corr tau phi anti (fun t => R.I.layer (tau.get t)) := by
        have h1 : ({ n with phi0 := p } : NTIn).nuTMS (phi.map fun x => x + (p - a.phi0)) = n.nuTMS phi := by
          unfold NTIn.nuTMS
          rw [← hnu n (hnphi n hn)]
        have h2 : ({ n with phi0 := p } : NTIn).nuIMS (phi.map fun x => x + (p - a.phi0)) = n.nuIMS phi := by
          unfold NTIn.nuIMS
          rw [← hnu n (hnphi n hn)]
        unfold NTIn.corr NTIn.tms NTIn.ims
        rw [h1, h2]
        rfl
      have : (turned R p).uCorrected { n with phi0 := p } tau (phi.map fun x => x + (p - a.phi0)) anti = R.uCorrected n tau phi anti := by
        unfold Solved.uCorrected
        rw [hu]
        change (R.uUncorrected tau phi anti >>= fun x => ({ n with phi0 := p } : NTIn).corr tau _ anti (fun t => R.I.layer (tau.get t))
          >>= _) = _
        rw [hcorr]
        rfl
      simp only [this]
      rfl
  refine ⟨turned R p, turned_call h hp, fun tau anti => ⟨rfl, rfl, rfl⟩, fun tau phi anti => ⟨huu tau phi anti, ?_⟩⟩
  unfold Solved.fourierError
  rw [huu]
  have : ({ R.I with phi0 := p } : AsmIn).fourierError R.S tau (phi.map fun x => x + (p - a.phi0)) anti
      = R.I.fourierError R.S tau phi anti := by
    unfold AsmIn.fourierError
    rw [hraw]
    simp only [A1.map, hc]
    rfl
  change (R.u tau phi anti >>= fun _ => ({ R.I with phi0 := p } : AsmIn).fourierError R.S tau _ anti) = _
  rw [this]

/-- The hypotheses are met, for every number of streams below ten million, by a call with corrections whose beam is turned from azimuth
`1` to azimuth `2`. -/
example {n : ℕ} (hn : 0 < n) (hn' : n < 10 ^ 7) (J : Junk) : ∃ x R, pydisort refExt J (demoNT n x) = .ok R ∧ R.nt ≠ none
    ∧ (demoNT n x).phi0 = 1 ∧ (0 : ℝ) ≤ 2 ∧ (2 : ℝ) < 2 * Real.pi := by
  obtain ⟨x, R, h, _⟩ := demoNT_call hn hn' ∅ J
  refine ⟨x, R, h, ?_, rfl, by norm_num, by linarith [Real.two_le_pi]⟩
  obtain ⟨_, O, r, _, _, _, _, _, hg, _⟩ := pydisort_ok h
  rw [hg]
  · simp
  · exact ⟨rfl, rfl, one_pos, ⟨0, by simp [demoNT, demo], by simp [demoNT, demo]⟩, by simp [demoNT, demo, Args.nLeg, Args.NLegAll]; omega,
      ⟨0, by simp [demoNT, demo], by simp [demoNT, demo]⟩⟩

end Pydisort

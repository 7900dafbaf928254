import Verif.EvalLemmas

/-! Helper lemmas: shapes of the Nakajima-Tanaka corrections. -/

namespace Pydisort
open Finset

/-- `atleast_2d_append(calculate_nu(mu, phi, [x], [y]))` for at least two `mu` (or one `mu` and one `phi`). -/
theorem nu2d {mu phi : A1 ℝ} (x y : ℝ) (h : mu.n ≠ 1 ∨ phi.n = 1) :
    Spec.Returns2 (atleast2dAppend (calculateNu mu phi ⟨1, fun _ => x⟩ ⟨1, fun _ => y⟩)).toA2 mu.n phi.n
      (fun i p => nuVal (mu.get i) (phi.get p) x y) := by
  unfold calculateNu ND.squeeze
  by_cases hm : mu.n = 1
  · have hp : phi.n = 1 := h.resolve_left (fun h => h hm)
    simp only [hm, hp]
    refine ⟨_, rfl, rfl, rfl, ?_⟩
    intro i hi j hj
    obtain rfl : i = 0 := by omega
    obtain rfl : j = 0 := by omega
    simp [squeezeIx, atleast2dAppend]
  · by_cases hp : phi.n = 1
    · have e : List.filter (fun x => decide (x ≠ 1)) [mu.n, phi.n, 1, 1] = [mu.n] := by simp [hm, hp]
      simp only [e, atleast2dAppend, ND.toA2]
      refine ⟨_, rfl, rfl, hp.symm, ?_⟩
      intro i hi j hj
      obtain rfl : j = 0 := by omega
      simp [squeezeIx, hm, hp]
    · have e : List.filter (fun x => decide (x ≠ 1)) [mu.n, phi.n, 1, 1] = [mu.n, phi.n] := by simp [hm, hp]
      simp only [e, atleast2dAppend, ND.toA2]
      refine ⟨_, rfl, rfl, rfl, ?_⟩
      intro i hi j hj
      simp [squeezeIx, hm, hp]

/-- With one `mu` and several `phi` the axes are mistaken for one another. -/
theorem nu2d_one {mu phi : A1 ℝ} (x y : ℝ) (h : mu.n = 1) (hp : phi.n ≠ 1) :
    Spec.Returns2 (atleast2dAppend (calculateNu mu phi ⟨1, fun _ => x⟩ ⟨1, fun _ => y⟩)).toA2 phi.n 1
      (fun p _ => nuVal (mu.get 0) (phi.get p) x y) := by
  unfold calculateNu ND.squeeze
  have e : List.filter (fun x => decide (x ≠ 1)) [mu.n, phi.n, 1, 1] = [phi.n] := by simp [h, hp]
  simp only [e, atleast2dAppend, ND.toA2]
  refine ⟨_, rfl, rfl, rfl, ?_⟩
  intro i hi j hj
  obtain rfl : j = 0 := by omega
  simp [squeezeIx, h, hp]

namespace NTIn
variable (I : NTIn)

/-- The correction at one stream, layer, depth and azimuth. -/
noncomputable def corrVal (anti : Bool) (i l : ℕ) (t ph : ℝ) : ℝ :=
  I.tmsVal anti i l (I.st l t) (nuVal (I.muArr i) ph (-I.mu0) I.phi0)
    + if i < I.N then 0
      else I.imsFac (nuVal (-I.mu (i - I.N)) ph (-I.mu0) I.phi0) * imsChi anti (I.mu (i - I.N)) I.scaledMu0 t

theorem tms_returns (hN : 0 < I.N) {tau : A1 ℝ} (phi : A1 ℝ) (anti : Bool) (l : ℕ → ℕ)
    (ht : tau.n ≠ 0) :
    Spec.Returns3 (I.tms tau phi anti l) (2 * I.N) tau.n phi.n (fun i t p =>
      I.tmsVal anti i (l t) (I.st (l t) (tau.get t)) (nuVal (I.muArr i) (phi.get p) (-I.mu0) I.phi0)) := by
  obtain ⟨A, h1, h2, h3, h4⟩ := nu2d (mu := ⟨2 * I.N, I.muArr⟩) (phi := phi) (-I.mu0) I.phi0 (Or.inl (by simp only; omega))
  unfold tms nuTMS
  rw [h1]
  simp only [bind, Except.bind]
  rw [if_neg (by omega)]
  refine ⟨_, rfl, rfl, rfl, h3, fun i hi t _ p hp => ?_⟩
  simp only
  rw [h4 i hi p hp]

theorem ims_returns {tau : A1 ℝ} {phi : A1 ℝ} (anti : Bool) (h : I.N ≠ 1 ∨ phi.n = 1) :
    Spec.Returns3 (I.ims tau phi anti) I.N tau.n phi.n (fun i t p =>
      I.imsFac (nuVal (-I.mu i) (phi.get p) (-I.mu0) I.phi0) * imsChi anti (I.mu i) I.scaledMu0 (tau.get t)) := by
  obtain ⟨A, h1, h2, h3, h4⟩ := nu2d (mu := ⟨I.N, fun i => -I.mu i⟩) (phi := phi) (-I.mu0) I.phi0 h
  unfold ims nuIMS
  rw [h1]
  have e : A.r = I.N := h2
  simp only [bind, Except.bind, e, bdim_self]
  refine ⟨_, rfl, rfl, rfl, h3, fun i hi t _ p hp => ?_⟩
  simp only
  rw [bix_of_lt hi, h4 i hi p hp]

theorem corr_returns (hN : 0 < I.N) {tau phi : A1 ℝ} (anti : Bool) (l : ℕ → ℕ) (ht : tau.n ≠ 0)
    (h : I.N ≠ 1 ∨ phi.n = 1) :
    Spec.Returns3 (I.corr tau phi anti l) (2 * I.N) tau.n phi.n (fun i t p =>
      I.corrVal anti i (l t) (tau.get t) (phi.get p)) := by
  obtain ⟨A, h1, h2, h3, h4, h5⟩ := I.tms_returns hN phi anti l ht
  obtain ⟨B, g1, g2, g3, g4, g5⟩ := I.ims_returns (tau := tau) anti h
  unfold corr
  rw [h1, g1]
  simp only [bind, Except.bind, g2, g4, h4, bdim_self, and_self, if_true]
  refine ⟨_, rfl, h2, h3, rfl, fun i hi t ht p hp => ?_⟩
  unfold corrVal
  beta_reduce
  simp only
  split_ifs with hin
  · rw [h5 i hi t ht p hp, add_zero]
  · rw [h5 i hi t ht p hp, bix_of_lt (by omega), bix_of_lt hp, g5 (i - I.N) (by omega) t ht p hp]

/-- With two streams and any number of azimuths other than one, the corrections cannot be added. -/
theorem corr_error (hN : I.N = 1) {tau phi : A1 ℝ} (anti : Bool) (l : ℕ → ℕ) (ht : tau.n ≠ 0)
    (hp : phi.n ≠ 1) : I.corr tau phi anti l = .error .shapeError := by
  obtain ⟨A, h1, h2, h3, h4, h5⟩ := I.tms_returns (by omega) phi anti l ht
  obtain ⟨B, g1, g2, g3, g4⟩ := nu2d_one (mu := ⟨I.N, fun i => -I.mu i⟩) (phi := phi) (-I.mu0) I.phi0 hN hp
  unfold corr ims nuIMS
  rw [h1, g1]
  simp only [bind, Except.bind, g2, g3, h4, hN, bdim_one_right, bdim_one_left, pure, Except.pure]
  rw [if_neg (by omega)]

end NTIn
end Pydisort

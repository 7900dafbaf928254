import Verif.HandedLemmas
import Verif.Props.Thermal

/-!
# C94: what `interpolate`, the actinic fluxes and `Planck` hand out
-/

namespace Pydisort
open Finset Spec

noncomputable section

variable {E : Ext} {J : Junk} {a : Args} {R : Solved}

/-- **C94, interpolation.** For every function whose results have a first axis of length `2 N`, the function returned by `interpolate` hands out the
array with first axis `mu` and the other axes of the original array, without the axes of length one; along `mu` every entry is the
interpolation, hemisphere by hemisphere, of the original entries. -/
theorem C94_interpolate {N : ℕ} (hN : 0 < N) (hE : GaussContract E N) {z x : Py (ND ℝ)} {sz s : List ℕ} {vz v : List ℕ → ℝ}
    (hz : Hands z (2 * N :: sz) vz) (hx : Hands x (2 * N :: s) v) {mu : A1 ℝ} (hmu : ∀ i < mu.n, |mu.get i| ≤ 1) :
    ∃ g : List ℕ → ℝ → ℝ, (∀ ix, ValidIx s ix → HemisphereInterpolant N (halfNode E N) (fun j => v (j :: ix)) (g ix)) ∧
      Hands (interpReturned E z x mu) (mu.n :: s) (fun ix => g ix.tail (mu.get (ix.headD 0))) := by
  obtain ⟨Z, z1, -, z3, -⟩ := hands_len hz (by omega)
  obtain ⟨X, x1, x2, x3, x4⟩ := hands_len hx (by omega)
  obtain ⟨q, q1, q2⟩ := gaussHalf_ok (E := E) hN
  have hi := halfNode_injOn hE
  have hi' : Set.InjOn (fun j => -halfNode E N j) (range N : Finset ℕ) := fun i h1 j h2 h => hi h1 h2 (neg_injective h)
  have e : interpReturned E z x mu = .ok (ND.squeeze ⟨mu.n :: X.shape.tail, fun ix =>
      if 0 < mu.get (ix.headD 0) then barycentric N (halfNode E N) (fun j => X.get (j :: ix.tail)) (mu.get (ix.headD 0))
      else barycentric N (fun j => -halfNode E N j) (fun j => X.get ((N + j) :: ix.tail)) (mu.get (ix.headD 0))⟩) := by
    unfold interpReturned
    rw [z1, x1]
    simp only [bind, Except.bind]
    rw [z3]
    simp only
    rw [q1]
    simp only
    rw [if_neg (not_not.mpr hmu), x3]
    simp only
    rw [if_neg (by omega), q2]
    simp only [pure, Except.pure]
    rw [show 2 * N / 2 = N by omega]
  refine ⟨fun ix m => if 0 < m then barycentric N (halfNode E N) (fun j => X.get (j :: squeezedIx s ix)) m
      else barycentric N (fun j => -halfNode E N j) (fun j => X.get ((N + j) :: squeezedIx s ix)) m, fun ix hix => ?_, ?_⟩
  · refine ⟨_, _, ⟨(interpolate_through hi (fun j => X.get (j :: squeezedIx s ix))).1, fun j hj => ?_⟩,
      ⟨(interpolate_through hi' (fun j => X.get ((N + j) :: squeezedIx s ix))).1, fun j hj => ?_⟩, fun m => ?_⟩
    · rw [(interpolate_through hi (fun j => X.get (j :: squeezedIx s ix))).2 j hj]; exact x4 j (by omega) _ hix
    · rw [(interpolate_through hi' (fun j => X.get ((N + j) :: squeezedIx s ix))).2 j hj]; exact x4 (N + j) (by omega) _ hix
    · beta_reduce
      rw [barycentric_eq hN hi, barycentric_eq hN hi']
  · exact hands_squeeze e (by simp only [x2, List.tail_cons]) fun i _ ix _ => rfl

/-- **C94, interpolation.** A cosine outside `[-1, 1]` is refused. -/
theorem C94_interpolate_refuses {N : ℕ} (hN : 0 < N) {z : Py (ND ℝ)} {sz : List ℕ} {vz : List ℕ → ℝ}
    (hz : Hands z (2 * N :: sz) vz) (x : Py (ND ℝ)) {mu : A1 ℝ} (hmu : ∃ i < mu.n, 1 < |mu.get i|) :
    ∃ msg, interpReturned E z x mu = .error (.valueError msg) := by
  obtain ⟨Z, z1, -, z3, -⟩ := hands_len hz (by omega)
  obtain ⟨q, q1, q2⟩ := gaussHalf_ok (E := E) hN
  refine ⟨"mu values must be between -1 and 1.", ?_⟩
  unfold interpReturned
  rw [z1]
  simp only [bind, Except.bind]
  rw [z3]
  simp only
  rw [q1]
  simp only
  rw [if_pos]
  push Not
  exact hmu

theorem inRange_zero (h : Accepted a) : InRange a zero1 := fun _ _ => ⟨le_rfl, (bottom_pos h).le⟩

/-- **C94, intensity.** `interpolate(u)(mu, tau, phi)` has the axes `mu, tau, phi` without those of length one and interpolates what `u` computes. -/
theorem C94_interpolate_u (h : pydisort E J a = .ok R) (hE : GaussContract E (nHalf a)) {F : Fields} (hF : Evaluates a R F) (hf : a.onlyFlux = false)
    {mu tau phi : A1 ℝ} (ht : InRange a tau) (hmu : ∀ i < mu.n, |mu.get i| ≤ 1)
    (hnt : a.NTcor = true → tau.n ≠ 0 ∧ (nHalf a ≠ 1 ∨ phi.n = 1)) :
    ∃ g : ℝ → ℝ → ℝ → ℝ,
      (∀ t < tau.n, ∀ p < phi.n, HemisphereInterpolant (nHalf a) (halfNode E (nHalf a)) (F.u (tau.get t) (phi.get p)) (g (tau.get t) (phi.get p))) ∧
      Hands (interpReturned E (R.uReturned false zero1 zero1 false) (R.uReturned false tau phi false) mu) [mu.n, tau.n, phi.n]
        (fun ix => g (tau.get (ix.getD 1 0)) (phi.get (ix.getD 2 0)) (mu.get (ix.getD 0 0))) := by
  have hacc := (pydisort_ok h).1
  obtain ⟨-, -, -, -, -, hz⟩ := C85_shapes h hF (inRange_zero hacc) zero1
  obtain ⟨-, -, -, -, -, hx⟩ := C85_shapes h hF ht phi
  obtain ⟨g, g1, g2⟩ := C94_interpolate (nHalf_pos hacc) hE (hz hf fun _ => ⟨one_ne_zero, Or.inr rfl⟩) (hx hf hnt) hmu
  have hex : ∀ v : ℕ → ℝ, ∃ f, HemisphereInterpolant (nHalf a) (halfNode E (nHalf a)) v f := fun v => by
    have hi := halfNode_injOn hE
    have hi' : Set.InjOn (fun j => -halfNode E (nHalf a) j) (range (nHalf a) : Finset ℕ) := fun i h1 j h2 h => hi h1 h2 (neg_injective h)
    exact ⟨_, _, _, interpolate_through hi v, interpolate_through hi' fun j => v (nHalf a + j), fun _ => rfl⟩
  choose G hG using hex
  refine ⟨fun t p => G (F.u t p), fun t _ p _ => hG _, Hands.congr g2 rfl fun ix hix => ?_⟩
  obtain _ | ⟨k0, _ | ⟨k1, _ | ⟨k2, _ | _⟩⟩⟩ := hix
  rename_i i t p
  exact congrFun (C61_unique hE (g1 [t, p] (.cons k1 (.cons k2 .nil))) (hG _)) _

/-- **C94, zeroth mode.** `interpolate(u0)(mu, tau)` has the axes `mu, tau` without those of length one and interpolates what `u0` computes. -/
theorem C94_interpolate_u0 (h : pydisort E J a = .ok R) (hE : GaussContract E (nHalf a)) {F : Fields} (hF : Evaluates a R F)
    {mu tau : A1 ℝ} (ht : InRange a tau) (hmu : ∀ i < mu.n, |mu.get i| ≤ 1) :
    ∃ g : ℝ → ℝ → ℝ,
      (∀ t < tau.n, HemisphereInterpolant (nHalf a) (halfNode E (nHalf a)) (F.u0 (tau.get t)) (g (tau.get t))) ∧
      Hands (interpReturned E (R.u0Returned zero1 false) (R.u0Returned tau false) mu) [mu.n, tau.n]
        (fun ix => g (tau.get (ix.getD 1 0)) (mu.get (ix.getD 0 0))) := by
  have hacc := (pydisort_ok h).1
  obtain ⟨hz, -⟩ := C85_shapes h hF (inRange_zero hacc) zero1
  obtain ⟨hx, -⟩ := C85_shapes h hF ht zero1
  obtain ⟨g, g1, g2⟩ := C94_interpolate (nHalf_pos hacc) hE hz hx hmu
  have hex : ∀ v : ℕ → ℝ, ∃ f, HemisphereInterpolant (nHalf a) (halfNode E (nHalf a)) v f := fun v => by
    have hi := halfNode_injOn hE
    have hi' : Set.InjOn (fun j => -halfNode E (nHalf a) j) (range (nHalf a) : Finset ℕ) := fun i h1 j h2 h => hi h1 h2 (neg_injective h)
    exact ⟨_, _, _, interpolate_through hi v, interpolate_through hi' fun j => v (nHalf a + j), fun _ => rfl⟩
  choose G hG using hex
  refine ⟨fun t => G (F.u0 t), fun t _ => hG _, Hands.congr g2 rfl fun ix hix => ?_⟩
  obtain _ | ⟨k0, _ | ⟨k1, _ | _⟩⟩ := hix
  rename_i i t
  exact congrFun (C61_unique hE (g1 [t] (.cons k1 .nil)) (hG _)) _

theorem u0Returned_hands {tau : A1 ℝ} {anti : Bool} {A : A2 ℝ} (hA : R.u0 tau anti = .ok A) :
    Hands (R.u0Returned tau anti) [A.r, A.c] (fun ix => A.get (ix.getD 0 0) (ix.getD 1 0)) := by
  unfold Solved.u0Returned
  rw [hA]
  exact hands_of_same (B := A.toND) rfl (SameND.refl _)

theorem actWeightsReturned_ok (h : pydisort E J a = .ok R) : actWeightsReturned E (R.u0Returned zero1 false) = .ok ⟨nHalf a, weight E a⟩ := by
  have h1 := actWeights_ok h
  obtain ⟨hacc, O, r, hO, hr, hI, _⟩ := pydisort_ok h
  have hN : R.I.N = nHalf a := by rw [hI]; rfl
  have hp := nHalf_pos hacc
  obtain ⟨A, h2, h3, _⟩ := R.I.u0_plain R.S (tau := zero1) (checkTau_of_inRange h (inRange_zero hacc))
  have h2 : R.u0 zero1 false = .ok A := h2
  have hz := u0Returned_hands h2
  rw [h3, hN] at hz
  obtain ⟨Z, z1, -, z3, -⟩ := hands_len hz (by omega)
  unfold actWeights at h1
  rw [show R.u0 ⟨1, fun _ => 0⟩ false = .ok A from h2] at h1
  simp only [bind, Except.bind] at h1
  rw [h3, hN] at h1
  unfold actWeightsReturned
  rw [z1]
  simp only [bind, Except.bind]
  rw [z3]
  exact h1

/-- What `flux_act_up` hands out, for both values of `is_antiderivative_wrt_tau`. -/
theorem fluxActUpReturned_hands (h : pydisort E J a = .ok R) {tau : A1 ℝ} {anti : Bool} {A : A2 ℝ} (hA : R.u0 tau anti = .ok A)
    (hr : A.r = 2 * nHalf a) :
    Hands (fluxActUpReturned E (R.u0Returned zero1 false) (R.u0Returned tau anti)) [A.c]
      (fun ix => hemiActinic a (weight E a) (fun i => A.get i (ix.getD 0 0))) := by
  have hp := nHalf_pos (pydisort_ok h).1
  have hx := u0Returned_hands hA
  rw [hr] at hx
  obtain ⟨X, x1, x2, x3, x4⟩ := hands_len hx (by omega)
  obtain ⟨B, b1, b2, b3⟩ := weightRows_ok (w := ⟨nHalf a, weight E a⟩) (lo := 0) (hi := nHalf a)
    (v := fun ix => A.get (ix.getD 0 0) (ix.getD 1 0)) x2 x4 (by show nHalf a = _; omega)
  have e : fluxActUpReturned E (R.u0Returned zero1 false) (R.u0Returned tau anti) = .ok B.squeeze := by
    unfold fluxActUpReturned
    rw [actWeightsReturned_ok h, x1]
    simp only [bind, Except.bind]
    rw [b1]
    rfl
  refine hands_squeeze1 e b2 fun t ht => ?_
  rw [b3 t ht]
  unfold hemiActinic
  rw [mul_sum]
  refine sum_congr rfl fun i _ => ?_
  simp only [Nat.zero_add, List.getD_cons_zero, List.getD_cons_succ]
  ring

/-- What `flux_act_down_diffuse` hands out, for both values of `is_antiderivative_wrt_tau`. -/
theorem fluxActDownReturned_hands (h : pydisort E J a = .ok R) {tau : A1 ℝ} {anti : Bool} {A : A2 ℝ} (hA : R.u0 tau anti = .ok A)
    (hr : A.r = 2 * nHalf a) (hc : A.c = tau.n) {v : ℕ → ℝ} (hv : Returns1 (fluxActDown E R.u0 R.u0Reclass tau anti) tau.n v) :
    Hands (fluxActDownReturned E (R.u0Returned zero1 false) (R.u0ReclassReturned tau anti)) [tau.n] (fun ix => v (ix.getD 0 0)) := by
  have hp := nHalf_pos (pydisort_ok h).1
  have hx := u0Returned_hands hA
  rw [hr, hc] at hx
  obtain ⟨X, x1, x2, x3, x4⟩ := hands_len hx (by omega)
  have x0 : X = A.toND.squeeze := by
    unfold Solved.u0Returned at x1
    rw [hA] at x1
    simp only [bind, Except.bind, pure, Except.pure] at x1
    injection x1 with x1
    exact x1.symm
  obtain ⟨B, b1, b2, b3⟩ := weightRows_ok (w := ⟨nHalf a, weight E a⟩) (lo := nHalf a) (hi := 2 * nHalf a)
    (v := fun ix => A.get (ix.getD 0 0) (ix.getD 1 0)) x2 x4 (by show nHalf a = _; omega)
  obtain ⟨V, v1, v2, v3⟩ := hv
  unfold fluxActDown at v1
  rw [actWeights_ok h] at v1
  simp only [bind, Except.bind, Solved.u0Reclass] at v1
  rw [hA] at v1
  simp only [hemiSum, pure, Except.pure] at v1
  rw [if_pos (by rw [hr]; omega)] at v1
  simp only at v1
  have e : ∀ C, (R.u0ReclassReturned tau anti).map Prod.snd = .ok C → ∀ D, ND.bin (fun x y => x + y) B C = .ok D →
      fluxActDownReturned E (R.u0Returned zero1 false) (R.u0ReclassReturned tau anti) = .ok D.squeeze := by
    intro C hC D hD
    unfold Solved.u0ReclassReturned at hC ⊢
    rw [hA] at hC ⊢
    simp only [bind, Except.bind, pure, Except.pure, Except.map] at hC ⊢
    unfold fluxActDownReturned
    rw [actWeightsReturned_ok h]
    simp only [bind, Except.bind]
    injection hC with hC
    rw [← x0, x3]
    simp only
    rw [b1]
    simp only
    rw [hC, hD]
    rfl
  have hB : ∀ t < tau.n, B.get (squeezedIx [tau.n] [t]) = ∑ i ∈ range (nHalf a), 2 * Real.pi * weight E a i * A.get (nHalf a + i) t :=
    fun t ht => by
      rw [b3 t ht]
      exact sum_congr rfl fun i _ => by simp only [List.getD_cons_zero, List.getD_cons_succ]
  by_cases hs : ∃ k < R.I.NLayers, R.I.scale k ≠ 1
  · have hC : (R.u0ReclassReturned tau anti).map Prod.snd = .ok (R.I.actReclass tau anti).toND := by
      unfold Solved.u0ReclassReturned
      rw [hA]
      simp only [bind, Except.bind, pure, Except.pure, Except.map]
      rw [if_pos hs]
    have hn : (R.I.actReclass tau anti).n = tau.n := by
      unfold AsmIn.actReclass
      rw [if_pos hs]
      split_ifs <;> rfl
    obtain ⟨Z, z1, z2, z3⟩ := A1.bin_same (fun x y : ℝ => x + y)
      (x := ⟨A.c, fun t => ∑ i ∈ range (nHalf a), 2 * Real.pi * weight E a i * A.get (nHalf a + i) t⟩) (y := R.I.actReclass tau anti)
      (by rw [hn]; exact hc)
    rw [z1] at v1
    injection v1 with v1
    subst v1
    by_cases h1 : tau.n = 1
    · have hsh : B.shape = [] := by rw [b2, h1]; rfl
      have hsh' : (R.I.actReclass tau anti).toND.shape = [1] := by simp only [A1.toND]; rw [hn, h1]
      obtain ⟨D, d1, d2, d3⟩ : ∃ D, ND.bin (fun x y : ℝ => x + y) B (R.I.actReclass tau anti).toND = .ok D ∧ D.shape = [1] ∧
          D.get [0] = B.get [] + (R.I.actReclass tau anti).get 0 := by
        unfold ND.bin
        rw [hsh, hsh']
        refine ⟨_, rfl, rfl, ?_⟩
        simp [bread, A1.toND, bix]
      refine ⟨_, e _ hC _ d1, ?_, fun ix hix => ?_⟩
      · unfold ND.squeeze
        rw [d2, h1]
      · obtain _ | ⟨h0, _ | _⟩ := hix
        rename_i t
        rw [h1] at h0 ⊢
        obtain rfl : t = 0 := by omega
        have := squeeze_get D (ix := [0]) (by rw [d2]; exact .cons one_pos .nil)
        rw [d2] at this
        rw [this, d3]
        have hb := hB 0 (by omega)
        rw [h1] at hb
        simp only [squeezedIx, if_true] at hb
        rw [hb]
        have := v3 0 (by omega)
        simp only [List.getD_cons_zero]
        rw [← this, z3 0 (by rw [hc, h1]; exact one_pos)]
    · have hsh : B.shape = [tau.n] := by rw [b2, List.filter_cons, if_pos (by simpa using h1)]; rfl
      have hsh' : (R.I.actReclass tau anti).toND.shape = [tau.n] := by simp only [A1.toND]; rw [hn]
      obtain ⟨D, d1, d2, d3⟩ : ∃ D, ND.bin (fun x y : ℝ => x + y) B (R.I.actReclass tau anti).toND = .ok D ∧ D.shape = [tau.n] ∧
          ∀ t < tau.n, D.get [t] = B.get [t] + (R.I.actReclass tau anti).get t := by
        unfold ND.bin
        rw [hsh, hsh', bshapeRev_self]
        refine ⟨_, rfl, by simp, fun t ht => ?_⟩
        have hv : ValidIx [tau.n] [t] := .cons ht .nil
        simp only
        rw [bread_self hv]
        rfl
      refine hands_squeeze1 (e _ hC _ d1) (by rw [d2, ← b2, hsh]) fun t ht => ?_
      have hsq : squeezedIx [tau.n] [t] = [t] := by simp only [squeezedIx]; rw [if_neg h1]
      have hb := hB t ht
      rw [hsq] at hb ⊢
      rw [d3 t ht, hb]
      simp only [List.getD_cons_zero]
      rw [← v3 t ht, z3 t (by rw [hc]; exact ht)]
  · have hC : (R.u0ReclassReturned tau anti).map Prod.snd = .ok ⟨[], fun _ => 0⟩ := by
      unfold Solved.u0ReclassReturned
      rw [hA]
      simp only [bind, Except.bind, pure, Except.pure, Except.map]
      rw [if_neg hs]
    obtain ⟨D, d1, d2, d3⟩ : ∃ D, ND.bin (fun x y : ℝ => x + y) B ⟨[], fun _ => 0⟩ = .ok D ∧ D.shape = B.shape ∧
        ∀ ix, ValidIx B.shape ix → D.get ix = B.get ix := by
      unfold ND.bin
      have : bshapeRev B.shape.reverse [].reverse = .ok B.shape.reverse := by
        cases B.shape.reverse <;> rfl
      simp only [this]
      refine ⟨_, rfl, by simp, fun ix hix => ?_⟩
      simp only
      rw [bread_self hix, add_zero]
    have hv0 : V.n = A.c ∧ ∀ t < tau.n, V.get t = ∑ i ∈ range (nHalf a), 2 * Real.pi * weight E a i * A.get (nHalf a + i) t := by
      unfold AsmIn.actReclass at v1
      rw [if_neg hs] at v1
      unfold A1.bin at v1
      rw [bdim_one_right] at v1
      simp only [bind, Except.bind, pure, Except.pure] at v1
      injection v1 with v1
      subst v1
      refine ⟨rfl, fun t ht => ?_⟩
      simp only [add_zero]
      rw [bix_of_lt (by rw [hc]; exact ht)]
    refine hands_squeeze1 (e _ hC _ d1) (by rw [d2, b2]) fun t ht => ?_
    rw [d3 _ (by rw [b2]; exact validIx_squeezedIx (.cons ht .nil)), hB t ht]
    simp only [List.getD_cons_zero]
    rw [← v3 t ht, hv0.2 t ht]

/-- **C94, actinic fluxes.** `flux_act_up(tau)` hands out one value per depth, a number for a single depth: the solid-angle integral of `u0` over the upward
directions. -/
theorem C94_actinic_up (h : pydisort E J a = .ok R) {F : Fields} (hF : Evaluates a R F) {tau : A1 ℝ} (ht : InRange a tau) :
    Hands (fluxActUpReturned E (R.u0Returned zero1 false) (R.u0Returned tau false)) [tau.n]
      (fun ix => hemiActinic a (weight E a) (F.u0 (tau.get (ix.getD 0 0)))) := by
  obtain ⟨A, a1, a2, a3, a4⟩ := hF.u0 tau ht
  refine Hands.congr (fluxActUpReturned_hands h a1 a2) (by rw [a3]) fun ix hix => ?_
  rw [a3] at hix
  obtain _ | ⟨k0, _ | _⟩ := hix
  unfold hemiActinic
  congr 1
  exact sum_congr rfl fun i hi => by beta_reduce; rw [show [_].getD 0 0 = _ from List.getD_cons_zero, a4 i (by have := mem_range.mp hi; omega) _ k0]

/-- **C94, actinic fluxes.** `flux_act_down_diffuse(tau)` hands out one value per depth, a number for a single depth: the solid-angle integral of `u0` over the
downward directions plus the part of the beam that delta-M scaling left in the beam (divided by the rescale factor: see `C39_false`). -/
theorem C94_actinic_down (h : pydisort E J a = .ok R) (hS : Sound E a) (hl : Lit a) (hmu : a.mu0 ≠ 0) {F : Fields} (hF : Evaluates a R F)
    {tau : A1 ℝ} (ht : InRange a tau) (lay : ℕ → ℕ) (hlay : ∀ t < tau.n, lay t < a.tauArr.n ∧ InLayer a (lay t) (tau.get t)) :
    Hands (fluxActDownReturned E (R.u0Returned zero1 false) (R.u0ReclassReturned tau false)) [tau.n]
      (fun ix => hemiActinic a (weight E a) (fun i => F.u0 (tau.get (ix.getD 0 0)) (nHalf a + i)) + a.I0 / R.I.rescale *
        (Real.exp (-tauStar a (lay (ix.getD 0 0)) (tau.get (ix.getD 0 0)) / a.mu0) - Real.exp (-tau.get (ix.getD 0 0) / a.mu0))) := by
  obtain ⟨A, a1, a2, a3, a4⟩ := hF.u0 tau ht
  obtain ⟨A', a1', hv⟩ := C39_actinic_down_returned h hS hl hmu ht lay hlay
  obtain rfl : A = A' := by rw [a1] at a1'; injection a1'
  refine Hands.congr (fluxActDownReturned_hands h a1 a2 a3 hv) rfl fun ix hix => ?_
  obtain _ | ⟨k0, _ | _⟩ := hix
  beta_reduce
  congr 1
  unfold hemiActinic
  congr 1
  exact sum_congr rfl fun i hi => by beta_reduce; rw [show [_].getD 0 0 = _ from List.getD_cons_zero, a4 (nHalf a + i) (by have := mem_range.mp hi; omega) _ k0]

/-- **C94, Planck.** `Planck(T, WVNM)` hands out one value per temperature, a number for a single temperature. -/
theorem C94_planck (T : A1 ℝ) {nu : ℝ} (hT : ∀ i < T.n, 0 ≤ T.get i) (hnu : 0 < nu) :
    Hands (.ok (planckReturned T nu)) [T.n] (fun ix => planckLaw (T.get (ix.getD 0 0)) nu) := by
  obtain ⟨h1, h2⟩ := C54_law T hT hnu
  refine Hands.congr (hands_of_same (B := (planck T nu).toND) rfl (SameND.refl _)) (by simp only [A1.toND, h1]) fun ix hix => ?_
  simp only [A1.toND, h1] at hix ⊢
  obtain _ | ⟨g0, _ | _⟩ := hix
  exact h2 _ g0

/-- A single depth, an atmosphere of two layers with delta-M scaling, any number of streams: the actinic fluxes are numbers, and the interpolated mean
intensity at one direction is a number. -/
example {n : ℕ} (hn : 0 < n) (J : Junk) : ∃ a R, pydisort refExt J a = .ok R ∧ ∃ x y z,
    fluxActUpReturned refExt (R.u0Returned zero1 false) (R.u0Returned ⟨1, fun _ => 1⟩ false) = .ok x ∧ x.shape = [] ∧
    fluxActDownReturned refExt (R.u0Returned zero1 false) (R.u0ReclassReturned ⟨1, fun _ => 1⟩ false) = .ok y ∧ y.shape = [] ∧
    interpReturned refExt (R.u0Returned zero1 false) (R.u0Returned ⟨1, fun _ => 1⟩ false) ⟨1, fun _ => 1 / 3⟩ = .ok z ∧ z.shape = [] := by
  obtain ⟨x, R, h, hw, hS, hres⟩ := demo_call hn J
  obtain ⟨U, hU, -⟩ := C02_modes_solve_transfer_equation h hS hres
  have hF := evaluates h hres hU
  have ht : InRange (demo n x) ⟨1, fun _ => 1⟩ := fun _ _ => ⟨zero_le_one, by norm_num [demo]⟩
  have hmu : (demo n x).mu0 ≠ 0 := (hw.accepted.beamDir one_pos).1.1.ne'
  have hl : Lit (demo n x) := Or.inl one_pos
  have hin : InLayer (demo n x) 0 1 := by constructor <;> simp [bdry, demo]
  obtain ⟨A, a1, a2, -⟩ := C94_actinic_up h hF ht
  obtain ⟨B, b1, b2, -⟩ := C94_actinic_down h hS hl hmu hF ht (fun _ => 0) (fun _ _ => ⟨hw.accepted.layers, hin⟩)
  obtain ⟨g, -, C, c1, c2, -⟩ := C94_interpolate_u0 h hw.gauss hF (mu := ⟨1, fun _ => 1 / 3⟩) ht
    (fun _ _ => by rw [abs_of_pos (by norm_num)]; norm_num)
  exact ⟨_, R, h, A, B, C, a1, a2, b1, b2, c1, c2⟩

end
end Pydisort

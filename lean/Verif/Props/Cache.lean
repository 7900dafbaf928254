import Verif.Subroutines.Cache
import Verif.InterpLemmas
import Verif.Props.Invariance
import Verif.Props.Absorbing

/-!
# C58: caching the BDRF modes

The claim is false in two cases: a mode given as a number becomes a function returning a number, which `_solve_for_coeffs` cannot index when
there is a beam; and with two streams the function cached with `mu0` cannot tell the quadrature node from the beam (both are arrays of length
one) and always answers for the beam.
-/

namespace Pydisort
open Finset Spec

variable {E : Ext} {J : Junk} {a : Args} {R : Solved}

theorem gauss_half {N : ℕ} (hN : 0 < N) : ∃ w, gaussLegendreQuad E N 0 1 = .ok (⟨N, halfNode E N⟩, w) := by
  refine ⟨transformWeights ⟨N, (E.leggauss N).2⟩ 0 1 (-1) 1, ?_⟩
  unfold gaussLegendreQuad
  rw [if_neg hN.ne']
  congr 2
  unfold transformInterval A1.map
  congr 1
  funext j
  unfold halfNode
  ring

/-- What a BDRF mode has to return on the arrays with which `_solve_for_coeffs` calls it, for the surface `rho`. -/
def NodeValues (N : ℕ) (mu : Vec) (beam : Prop) (mu0 : ℝ) (rho : ℝ → ℝ → ℝ) : BDRFMode → Prop
  | .scalar c => ∀ x y, rho x y = c
  | .func f => ((∃ c, f ⟨N, mu⟩ ⟨N, mu⟩ = .scalar c ∧ ∀ i < N, ∀ j < N, rho (mu i) (mu j) = c) ∨
      ∃ v, f ⟨N, mu⟩ ⟨N, mu⟩ = .arr v ∧ v.r = N ∧ v.c = N ∧ ∀ i < N, ∀ j < N, v.get i j = rho (mu i) (mu j)) ∧
    (beam → ∃ v, f ⟨N, mu⟩ ⟨1, fun _ => mu0⟩ = .arr v ∧ v.r = N ∧ v.c = 1 ∧ ∀ i < N, v.get i 0 = rho (mu i) mu0)

theorem nodeValues_of_represents {M : BDRFMode} {rho : ℝ → ℝ → ℝ} (h : Represents M rho) (N : ℕ) (mu : Vec) (beam : Prop) (mu0 : ℝ) :
    NodeValues N mu beam mu0 rho M := by
  cases M with
  | scalar c => exact h
  | func f =>
    refine ⟨Or.inr (h _ _), fun _ => ?_⟩
    obtain ⟨v, h1, h2, h3, h4⟩ := h ⟨N, mu⟩ ⟨1, fun _ => mu0⟩
    exact ⟨v, h1, h2, h3, fun i hi => h4 i hi 0 one_pos⟩

theorem coefR_node {c : CoefIn} {m : ℕ} {M : BDRFMode} {rho : ℝ → ℝ → ℝ} (hM : c.bdrf[m]? = some M) {beam : Prop} {mu0 : ℝ}
    (h : NodeValues c.N c.mu beam mu0 rho M) : ∃ Q, coefR c m = .ok (some Q) ∧ ∀ i < c.N, ∀ j < c.N,
      Q i j = (1 + if m = 0 then 1 else 0) * rho (c.mu i) (c.mu j) * c.muW j := by
  unfold coefR
  rw [hM]
  cases M with
  | scalar x => exact ⟨_, rfl, fun i _ j _ => by rw [h]⟩
  | func f =>
    rcases h.1 with ⟨x, h1, h2⟩ | ⟨v, h1, h2, h3, h4⟩
    · simp only [h1]
      exact ⟨_, rfl, fun i hi j hj => by rw [h2 i hi j hj]⟩
    · simp only [h1]
      rw [if_pos ⟨Or.inr h2, Or.inr h3⟩]
      refine ⟨_, rfl, fun i hi j hj => ?_⟩
      rw [← h4 i hi j hj]
      have e1 : bix v.r i = i := by unfold bix; split_ifs <;> omega
      have e2 : bix v.c j = j := by unfold bix; split_ifs <;> omega
      rw [e1, e2]

theorem coefX_node {c : CoefIn} {m : ℕ} {M : BDRFMode} {rho : ℝ → ℝ → ℝ} (hM : c.bdrf[m]? = some M)
    (h : NodeValues c.N c.mu (c.beam = true) c.mu0 rho M) : ∃ X, coefX c m = .ok X ∧
      (c.beam = true → ∀ i < c.N, X i = c.mu0 * c.I0div4pi * 4 * rho (c.mu i) c.mu0) := by
  unfold coefX
  by_cases hb : c.beam = true
  · rw [if_pos hb, hM]
    cases M with
    | scalar x => exact ⟨_, rfl, fun _ i _ => by rw [h]⟩
    | func f =>
      obtain ⟨v, h1, h2, h3, h4⟩ := h.2 hb
      simp only [h1]
      rw [if_neg (by omega), if_pos (Or.inr h2)]
      refine ⟨_, rfl, fun _ i hi => ?_⟩
      rw [← h4 i hi]
      have e1 : bix v.r i = i := by unfold bix; split_ifs <;> omega
      rw [e1]
  · rw [if_neg hb]
    exact ⟨_, rfl, fun h => absurd h hb⟩

theorem agreeBC_of_node {c c' : CoefIn} {m : ℕ}
    (h : (c.bdrf[m]? = none ∧ c'.bdrf[m]? = none) ∨ ∃ M M' rho, c.bdrf[m]? = some M ∧ c'.bdrf[m]? = some M' ∧
      NodeValues c.N c.mu (c.beam = true) c.mu0 rho M ∧ NodeValues c.N c.mu (c.beam = true) c.mu0 rho M')
    (h1 : c'.N = c.N) (h2 : c'.mu = c.mu) (h3 : c'.muW = c.muW) (h4 : c'.mu0 = c.mu0) (h5 : c'.I0div4pi = c.I0div4pi)
    (h6 : c'.beam = c.beam)
    (hp : ∀ v, bcMode c.N m c.bposScalar c.bposVector c.bpos = .ok v →
      ∃ v', bcMode c'.N m c'.bposScalar c'.bposVector c'.bpos = .ok v' ∧ ∀ i < c.N, v' i = v i)
    (hn : ∀ v, bcMode c.N m c.bnegScalar c.bnegVector c.bneg = .ok v →
      ∃ v', bcMode c'.N m c'.bnegScalar c'.bnegVector c'.bneg = .ok v' ∧ ∀ i < c.N, v' i = v i) :
    CoefIn.AgreeBC c c' m := by
  rcases h with h | ⟨M, M', rho, e1, e2, r1, r2⟩
  · exact agreeBC_of_modes (Or.inl h) h1 h2 h3 h4 h5 h6 hp hn
  · obtain ⟨Q, q1, q2⟩ := coefR_node e1 r1
    obtain ⟨X, x1, x2⟩ := coefX_node e1 r1
    rw [← h1, ← h2, ← h4, ← h6] at r2
    obtain ⟨Q', q1', q2'⟩ := coefR_node e2 r2
    obtain ⟨X', x1', x2'⟩ := coefX_node e2 r2
    refine ⟨fun A hA => ?_, fun A hA => ?_, hp, hn⟩
    · rw [q1] at hA
      injection hA with hA
      subst hA
      refine ⟨_, q1', fun i hi j hj => ?_⟩
      rw [q2 i hi j hj, q2' i (h1 ▸ hi) j (h1 ▸ hj), h2, h3]
    · rw [x1] at hA
      injection hA with hA
      subst hA
      refine ⟨_, x1', fun hb _ _ i hi => ?_⟩
      rw [x2 hb i hi, x2' (h6.trans hb) i (h1 ▸ hi), h2, h4, h5]

open Classical in
theorem asm_beam {O : Optics} {r : ℝ} {out : GenOut} : ((a.asm E O r).coefIn out).beam = true ↔ 0 < a.I0 :=
  decide_eq_true_iff

/-- Two lists of modes with the same values on the nodes and the beam give the same results. -/
theorem sameResults_of_node (J' : Junk) {modes : List BDRFMode} (h : pydisort E J a = .ok R)
    (hm : List.Forall₂ (fun M M' => ∃ rho, NodeValues (nHalf a) (node E a) (0 < a.I0) a.mu0 rho M ∧
      NodeValues (nHalf a) (node E a) (0 < a.I0) a.mu0 rho M') a.bdrf modes) :
    ∃ R', pydisort E J' { a with bdrf := modes } = .ok R' ∧ SameResults R R' := by
  have hacc := (pydisort_ok h).1
  have hN : 0 < nHalf a := by have := hacc.streams.1; unfold nHalf; omega
  have hF : 0 < Spec.nFourier a := by
    rw [← nFourier_eq]; unfold Args.nFourier
    split_ifs with ho
    · exact one_pos
    · have := (hacc.modes (by simpa using ho)).1; omega
  have hacc' : Accepted { a with bdrf := modes } := { hacc with }
  have hget : ∀ m : ℕ, (a.bdrf[m]? = none ∧ modes[m]? = none) ∨ ∃ M M' rho, a.bdrf[m]? = some M ∧ modes[m]? = some M' ∧
      NodeValues (nHalf a) (node E a) (0 < a.I0) a.mu0 rho M ∧ NodeValues (nHalf a) (node E a) (0 < a.I0) a.mu0 rho M' := by
    have : ∀ {l l' : List BDRFMode}, List.Forall₂ (fun M M' => ∃ rho, NodeValues (nHalf a) (node E a) (0 < a.I0) a.mu0 rho M ∧
        NodeValues (nHalf a) (node E a) (0 < a.I0) a.mu0 rho M') l l' → ∀ m : ℕ,
      (l[m]? = none ∧ l'[m]? = none) ∨ ∃ M M' rho, l[m]? = some M ∧ l'[m]? = some M' ∧
        NodeValues (nHalf a) (node E a) (0 < a.I0) a.mu0 rho M ∧ NodeValues (nHalf a) (node E a) (0 < a.I0) a.mu0 rho M' := by
      intro l l' hl
      induction hl with
      | nil => intro m; exact Or.inl ⟨rfl, rfl⟩
      | cons h0 _ ih =>
        intro m
        cases m with
        | zero => obtain ⟨rho, h1, h2⟩ := h0; exact Or.inr ⟨_, _, rho, rfl, rfl, h1, h2⟩
        | succ m => exact ih m
    exact this hm
  obtain ⟨R', d, h1, h2, h3, h4, h5⟩ := call_transfer (a' := { a with bdrf := modes }) (J' := J')
    (F := Spec.nFourier a)
    (D := fun d => ⟨modes, a.bpos'.div d, a.bneg'.div d, _, _, _, _, _⟩) h hacc' rfl rfl (fun _ => rfl)
    (fun mu W O r => by
      rw [← nFourier_eq]
      rfl) hF le_rfl
    (fun O r out out' m _ => by
      have hr := CoefIn.AgreeBC.refl' (c := (a.asm E O r).coefIn out) (c' := (a.asm E O r).coefIn out') (m := m)
        rfl rfl rfl rfl rfl rfl rfl rfl rfl rfl rfl rfl rfl
      refine agreeBC_of_node ?_ rfl rfl rfl rfl rfl rfl hr.bpos hr.bneg
      rw [asm_beam]
      exact hget m)
  obtain ⟨_, O, r, _, _, hI, _, ho, _⟩ := pydisort_ok h
  have hF' : R.I.NFourier = Spec.nFourier a := by rw [hI, ← nFourier_eq]; rfl
  rw [← hF'] at h2 h3 hF
  refine ⟨R', h1, sameResults_of ?_ ?_ hF h2 h3 (h4.trans ho.symm) (h5 Iff.rfl fun _ _ _ => rfl)⟩
  · rw [hI]; exact hN
  · rw [hI]; exact hacc.layers

/-- **C58 (partial).** The call with the cached modes returns the same functions if the cosine was not cached or there are at least four
streams and it is that of the beam, and if with a beam all modes are given as functions. Missing: two streams with a cached
cosine (`C58_false_two_streams`), and numbers with a beam (`C58_false_number`). -/
theorem C58_cache_partial (J' : Junk) (h : pydisort E J a = .ok R) (hrho : ∀ M ∈ a.bdrf, ∃ rho, Represents M rho) {mu0 : ℝ}
    (hmu : 0 < mu0 ∧ mu0 ≤ 1 → nHalf a ≠ 1 ∧ (0 < a.I0 → mu0 = a.mu0)) (hf : 0 < a.I0 → ∀ M ∈ a.bdrf, ∀ c, M ≠ .scalar c) :
    ∃ modes R', cacheBDRF E (nHalf a) a.bdrf mu0 = .ok modes ∧ pydisort E J' { a with bdrf := modes } = .ok R' ∧ SameResults R R' := by
  have hacc := (pydisort_ok h).1
  have hN : 0 < nHalf a := by have := hacc.streams.1; unfold nHalf; omega
  obtain ⟨w, hw⟩ := gauss_half (E := E) hN
  have key : ∀ g : BDRFMode → BDRFMode, (∀ M ∈ a.bdrf, ∀ rho, Represents M rho →
      NodeValues (nHalf a) (node E a) (0 < a.I0) a.mu0 rho (g M)) → ∃ R', pydisort E J' { a with bdrf := a.bdrf.map g } = .ok R' ∧
        SameResults R R' := by
    intro g hg
    refine sameResults_of_node J' h ?_
    rw [List.forall₂_map_right_iff, List.forall₂_same]
    intro M hM
    obtain ⟨rho, hr⟩ := hrho M hM
    exact ⟨rho, nodeValues_of_represents hr _ _ _ _, hg M hM rho hr⟩
  unfold cacheBDRF
  rw [hw]
  simp only [bind, Except.bind]
  by_cases hc : 0 < mu0 ∧ mu0 ≤ 1
  · obtain ⟨h1, h2⟩ := hmu hc
    rw [if_pos hc]
    obtain ⟨R', r1, r2⟩ := key (cacheWithMu0 ⟨nHalf a, halfNode E (nHalf a)⟩ mu0) (fun M hM rho hr => by
      cases M with
      | scalar c =>
        exact ⟨Or.inl ⟨c, rfl, fun i _ j _ => hr _ _⟩, fun hb => absurd rfl (hf hb _ hM c)⟩
      | func f =>
        obtain ⟨v, v1, v2, v3, v4⟩ := hr ⟨nHalf a, halfNode E (nHalf a)⟩ (A1.append1 ⟨nHalf a, halfNode E (nHalf a)⟩ mu0)
        have v3' : v.c = nHalf a + 1 := v3
        simp only [cacheWithMu0, v1]
        refine ⟨Or.inr ⟨_, if_neg h1, v2, by simp [v3'], fun i hi j hj => ?_⟩, fun hb => ⟨_, if_pos rfl, v2, rfl, fun i hi => ?_⟩⟩
        · show v.get i j = _
          rw [v4 i hi j (by simp only [A1.append1]; omega)]
          simp only [A1.append1, if_pos hj]
          rfl
        · show v.get i (v.c - 1) = _
          rw [v4 i hi (v.c - 1) (by simp only [A1.append1]; omega), v3', ← h2 hb]
          simp only [A1.append1, Nat.add_sub_cancel, lt_irrefl, if_false]
          rfl)
    exact ⟨_, R', rfl, r1, r2⟩
  · rw [if_neg hc]
    obtain ⟨R', r1, r2⟩ := key (cacheWithoutMu0 ⟨nHalf a, halfNode E (nHalf a)⟩) (fun M hM rho hr => by
      cases M with
      | scalar c =>
        exact ⟨Or.inl ⟨c, rfl, fun i _ j _ => hr _ _⟩, fun hb => absurd rfl (hf hb _ hM c)⟩
      | func f =>
        obtain ⟨v, v1, v2, v3, v4⟩ := hr ⟨nHalf a, halfNode E (nHalf a)⟩ ⟨nHalf a, halfNode E (nHalf a)⟩
        have hn := nodeValues_of_represents hr (nHalf a) (node E a) (0 < a.I0) a.mu0
        have e : (⟨nHalf a, node E a⟩ : A1 ℝ) = ⟨nHalf a, halfNode E (nHalf a)⟩ := rfl
        simp only [cacheWithoutMu0, v1]
        refine ⟨Or.inr ?_, fun hb => ?_⟩ <;> dsimp only
        · by_cases h1 : nHalf a = 1
          · rw [if_pos h1]
            exact ⟨v, v1, v2, v3, v4⟩
          · rw [if_neg h1]
            exact ⟨v, rfl, v2, v3, v4⟩
        · rw [if_pos rfl]
          exact hn.2 hb)
    exact ⟨_, R', rfl, r1, r2⟩

/-- The hypotheses are met for every number of streams: a Lambertian surface given as a function, with a beam. -/
example {n : ℕ} (hn : 0 < n) (J : Junk) : ∃ a R, nHalf a = n ∧ pydisort refExt J a = .ok R ∧ 0 < a.I0 ∧ a.bdrf.length = 1 ∧
    (∀ M ∈ a.bdrf, ∃ rho, Represents M rho) ∧ ∀ M ∈ a.bdrf, ∀ c, M ≠ .scalar c := by
  obtain ⟨x, R, h, -⟩ := demo_call hn J
  obtain ⟨R', h', -⟩ := C33_scalar_or_function J (modes := [.func fun x y => .arr ⟨x.n, y.n, fun _ _ => 1 / 3⟩])
    (.cons ⟨_, represents_const (1 / 3)⟩ .nil) h
  refine ⟨{ demo n x with bdrf := [.func fun x y => .arr ⟨x.n, y.n, fun _ _ => 1 / 3⟩] }, R', demo_nHalf x, h', by simp [demo], rfl, ?_, ?_⟩
  · rintro M (_ | ⟨_, ⟨⟩⟩)
    exact ⟨_, (represents_const (1 / 3)).2⟩
  · rintro M (_ | ⟨_, ⟨⟩⟩) c hc
    cases hc

/-- If the first mode is a function returning a number and there is a beam, no call returns. -/
theorem number_with_beam_fails {modes : List BDRFMode} {c : ℝ} (hb : 0 < a.I0) (hm : a.bdrf = .func (fun _ _ => .scalar c) :: modes)
    (R : Solved) : pydisort E J a ≠ .ok R := by
  intro h
  obtain ⟨hacc, O, r, hO, hr, hI, hsol, _⟩ := pydisort_ok h
  rw [hI] at hsol
  have hn : 0 < nHalf a := by have := hacc.streams.1; unfold nHalf; omega
  have hF : 0 < a.nFourier.toNat := by
    unfold Args.nFourier
    split_ifs with ho
    · exact one_pos
    · have := (hacc.modes (by simpa using ho)).1; omega
  unfold solveAll at hsol
  rcases hg : genSol E J.gen (a.asm E O r).genIn with e | out
  · rw [hg] at hsol; cases hsol
  rw [hg] at hsol
  simp only [bind, Except.bind] at hsol
  rcases hc : solveCoeffs ((a.asm E O r).coefIn out) J.coef J.rhs with e | GC
  · rw [hc] at hsol; cases hsol
  obtain ⟨C, -, hC⟩ := solveCoeffs_ok (I := (a.asm E O r).coefIn out) hn hacc.layers hc
  have h0 := hC 0 hF
  have hX : coefX ((a.asm E O r).coefIn out) 0 = .error .typeError := by
    have hbm : ((a.asm E O r).coefIn out).beam = true := asm_beam.mpr hb
    unfold coefX
    rw [if_pos hbm, show ((a.asm E O r).coefIn out).bdrf = _ from hm]
    rfl
  unfold coefMode at h0
  rcases hR : coefR ((a.asm E O r).coefIn out) 0 with e | Q
  · rw [hR] at h0; cases h0
  rw [hR] at h0
  simp only [bind, Except.bind, hX] at h0
  cases h0

/-- **C58 is false, first case.** A Lambertian surface given as the number `1/3`, with a beam: the call returns, but with the cached modes it raises, for
every number of streams, whether the cosine of the beam is cached or not. -/
theorem C58_false_number {n : ℕ} (hn : 0 < n) (J : Junk) : ∃ a R, nHalf a = n ∧ pydisort refExt J a = .ok R ∧ WellPosed refExt a ∧
    ∀ mu0 : ℝ, ∃ modes, cacheBDRF refExt (nHalf a) a.bdrf mu0 = .ok modes ∧ ∀ J' R', pydisort refExt J' { a with bdrf := modes } ≠ .ok R' := by
  obtain ⟨x, R, h, hw, -⟩ := demo_call hn J
  refine ⟨_, R, demo_nHalf x, h, hw, fun mu0 => ?_⟩
  obtain ⟨w, hw⟩ := gauss_half (E := refExt) (N := nHalf (demo n x)) (by rw [demo_nHalf]; exact hn)
  unfold cacheBDRF
  rw [hw]
  simp only [bind, Except.bind]
  split_ifs
  · exact ⟨_, rfl, fun J' R' => number_with_beam_fails (by simp [demo]) rfl R'⟩
  · exact ⟨_, rfl, fun J' R' => number_with_beam_fails (by simp [demo]) rfl R'⟩

theorem half_node (a : Args) (h1 : nHalf a = 1) (hg : GaussContract E (nHalf a)) : node E a 0 = 1 / 2 ∧ weight E a 0 = 1 := by
  have h2 := hg.exact Polynomial.X (by rw [h1]; simp)
  have h3 := hg.exact 1 (by simp)
  rw [h1] at h2 h3
  simp at h2 h3
  unfold node weight
  rw [h1]
  have e : (E.leggauss 1).2 0 = 2 := by rw [h3]; norm_num
  rw [e] at h2 ⊢
  have e2 : (E.leggauss 1).1 0 = 0 := by
    rcases h2 with h2 | h2
    · norm_num at h2
    · exact h2
  rw [e2]
  constructor <;> norm_num

/-- Two streams, an absorbing atmosphere lit from above by a vertical beam and by diffuse light, over a surface with one Fourier mode. -/
noncomputable def demoCos (M : BDRFMode) : Args := { demoBlack 1 with bdrf := [M] }

theorem demoCos_call {M : BDRFMode} {rho : ℝ → ℝ → ℝ} (hM : Represents M rho) (h0 : 0 ≤ rho (1 / 2) (1 / 2)) (h1 : rho (1 / 2) (1 / 2) ≤ 1)
    (J : Junk) : ∃ R A, pydisort refExt J (demoCos M) = .ok R ∧ R.u0 ⟨1, fun _ => 2⟩ false = .ok A ∧ A.r = 2 ∧ A.c = 1 ∧
      A.get 0 0 = 1 + (rho (1 / 2) (1 / 2) * Real.exp (-4) + 1 / Real.pi * rho (1 / 2) 1 * Real.exp (-bdryStar (demoCos M) 2)) := by
  have h := demo_accepted (n := 1) one_pos one_pos le_rfl
  have hh : nHalf (demoCos M) = 1 := demo_nHalf 1
  have hg : GaussContract refExt (nHalf (demoCos M)) := by rw [hh]; exact refExt_gauss one_pos
  have hb : Clear (demoCos M) := ⟨fun _ _ => rfl, fun _ _ j hj => absurd hj (by simp [demoCos, demoBlack])⟩
  have hacc : Accepted (demoCos M) := { h with
    omega := by intro k hk; simp [demoCos, demoBlack]
    sourceRows := Or.inl fun _ _ j hj => absurd hj (by simp [demoCos, demoBlack]) }
  obtain ⟨n0, w0⟩ := half_node (E := refExt) _ hh hg
  have hsf : PassiveSurface (demoCos M) (node refExt (demoCos M)) (weight refExt (demoCos M)) := by
    intro m _ M' hM'
    have hm : m = 0 := by
      by_contra hm
      rw [show (demoCos M).bdrf = [M] from rfl, List.getElem?_eq_none (by simp; omega)] at hM'
      cases hM'
    subst hm
    simp [demoCos] at hM'
    subst hM'
    refine ⟨rho, hM, fun d => ?_⟩
    rw [hh]
    simp only [sum_range_one, n0, w0, if_true]
    have : (rho (1 / 2) (1 / 2) * d 0) ^ 2 ≤ d 0 ^ 2 := by
      rw [mul_pow]
      have : rho (1 / 2) (1 / 2) ^ 2 ≤ 1 := by nlinarith
      nlinarith [sq_nonneg (d 0)]
    nlinarith [this]
  have hw : WellPosed refExt (demoCos M) := clear_wellPosed hb hacc hg refExt_eig
    (fun l hl => by rw [show peak (demoCos M) l = 1 / 8 from demo_peak (n := 1) (x := 1) hl]; norm_num) trivial trivial (Or.inl rfl) (Or.inr (Nat.le_of_ble_eq_true rfl))
    (fun hc => by simp [demoCos, demoBlack, demo] at hc) hsf
  obtain ⟨R, hR⟩ := pydisort_isOk hw J
  have hU := C64_over_surface hR hb hw (Or.inl (Or.inl one_pos)) (rho := fun _ => rho) (fun m _ M' hM' => by
    rcases m with _ | m
    · simp [demoCos] at hM'; subst hM'; exact hM
    · simp [demoCos] at hM')
  have hbot : bottom (demoCos M) = 2 := by
    simp [bottom, demoCos, demoBlack, demo]; norm_num
  obtain ⟨A, a1, a2, a3, a4⟩ := hU.u0 ⟨1, fun _ => 2⟩ (fun _ _ => ⟨by norm_num, by simp [demoCos, demoBlack, demo]; norm_num⟩)
  rw [hh] at a2
  refine ⟨R, A, hR, a1, a2, a3, ?_⟩
  rw [a4 0 (by rw [hh]; norm_num) 0 (by norm_num)]
  unfold clearMode
  beta_reduce
  rw [if_pos (by rw [hh]; norm_num), if_pos (by simp [demoCos]), hbot]
  unfold reflected
  rw [hh]
  simp only [sum_range_one, n0, w0, if_true]
  have e1 : bcVal (demoCos M).bpos 0 0 = 1 := by simp [demoCos, demoBlack, demo, bcVal]
  have e2 : bcVal (demoCos M).bneg 0 0 = 1 := by simp [demoCos, demoBlack, demo, bcVal]
  rw [e1, e2, show (demoCos M).mu0 = 1 from rfl, show (demoCos M).I0 = 1 from rfl, show (demoCos M).tauArr.n = 2 from rfl]
  norm_num
  ring

/-- The function mode `rho(μ, μ') = μ'`. -/
noncomputable def cosMode : BDRFMode := .func fun x y => .arr ⟨x.n, y.n, fun _ j => y.get j⟩

/-- **C58 is false, second case.** With two streams and the cosine of the beam cached, the cached modes give another result: the diffuse light is reflected as if
it came from the direction of the beam. -/
theorem C58_false_two_streams (J : Junk) : ∃ a R modes R', nHalf a = 1 ∧ 0 < a.I0 ∧ (∀ M ∈ a.bdrf, Represents M (fun _ y => y)) ∧
    pydisort refExt J a = .ok R ∧ cacheBDRF refExt (nHalf a) a.bdrf a.mu0 = .ok modes ∧
    pydisort refExt J { a with bdrf := modes } = .ok R' ∧ ¬ SameResults R R' := by
  have hrep : Represents cosMode (fun _ y => y) := fun x y => ⟨_, rfl, rfl, rfl, fun _ _ _ _ => rfl⟩
  have hh : nHalf (demoCos cosMode) = 1 := demo_nHalf 1
  have hg : GaussContract refExt (nHalf (demoCos cosMode)) := by rw [hh]; exact refExt_gauss one_pos
  obtain ⟨R, A, hR, a1, a2, a3, a4⟩ := demoCos_call hrep (by norm_num) (by norm_num) J
  obtain ⟨S, B, hS, b1, b2, b3, b4⟩ := demoCos_call (M := .scalar 1) (rho := fun _ _ => 1) (fun _ _ => rfl) (by norm_num) (by norm_num) J
  obtain ⟨w, hw⟩ := gauss_half (E := refExt) (N := nHalf (demoCos cosMode)) (by rw [hh]; norm_num)
  have hmu0 : (demoCos cosMode).mu0 = 1 := rfl
  have hc : cacheBDRF refExt (nHalf (demoCos cosMode)) (demoCos cosMode).bdrf (demoCos cosMode).mu0
      = .ok [cacheWithMu0 ⟨nHalf (demoCos cosMode), halfNode refExt (nHalf (demoCos cosMode))⟩ 1 cosMode] := by
    unfold cacheBDRF
    rw [hw]
    simp only [bind, Except.bind]
    rw [if_pos (by rw [hmu0]; norm_num)]
    rfl
  obtain ⟨R', hR', hs⟩ := sameResults_of_node J hS
    (modes := [cacheWithMu0 ⟨nHalf (demoCos cosMode), halfNode refExt (nHalf (demoCos cosMode))⟩ 1 cosMode]) (by
      refine .cons ⟨fun _ _ => 1, fun _ _ => rfl, ?_⟩ .nil
      rw [show nHalf (demoCos (.scalar 1)) = 1 from demo_nHalf 1, hh]
      simp only [cacheWithMu0, cosMode]
      refine ⟨Or.inr ⟨_, if_pos rfl, rfl, rfl, fun i _ j _ => ?_⟩, fun _ => ⟨_, if_pos rfl, rfl, rfl, fun i _ => ?_⟩⟩
      · simp [A1.append1]
      · simp [A1.append1])
  refine ⟨demoCos cosMode, R, _, R', hh, one_pos, ?_, hR, hc, hR', fun hsame => ?_⟩
  · rintro M (_ | ⟨_, ⟨⟩⟩)
    exact hrep
  · have h1 := hsame.u0 ⟨1, fun _ => 2⟩ false
    have h2 := hs.u0 ⟨1, fun _ => 2⟩ false
    rw [a1] at h1
    rw [b1] at h2
    rcases hu : R'.u0 ⟨1, fun _ => 2⟩ false with e | C
    · rw [hu] at h1; exact h1
    rw [hu] at h1 h2
    have e1 := h1.2.2 0 (by rw [a2]; norm_num) 0 (by rw [a3]; norm_num)
    have e2 := h2.2.2 0 (by rw [b2]; norm_num) 0 (by rw [b3]; norm_num)
    rw [← e2, a4, b4] at e1
    have e3 : bdryStar (demoCos cosMode) 2 = bdryStar (demoCos (.scalar 1)) 2 := rfl
    rw [e3] at e1
    have := Real.exp_pos (-4)
    norm_num at e1

end Pydisort

import Verif.InterpLemmas
import Verif.Props.Actinic
import Verif.Props.Anti

/-!
# C61, C62: interpolation in the polar angle
-/

namespace Pydisort
open Finset Spec Polynomial

variable {E : Ext} {J : Junk} {a : Args} {R : Solved}

/-- The nodes of a Gauss rule are distinct, so there is exactly one interpolating function. -/
theorem C61_unique {N : ℕ} (hE : GaussContract E N) {v : ℕ → ℝ} {f g : ℝ → ℝ} (hf : HemisphereInterpolant N (halfNode E N) v f)
    (hg : HemisphereInterpolant N (halfNode E N) v g) : f = g := by
  obtain ⟨P, Q, hP, hQ, hf⟩ := hf
  obtain ⟨P', Q', hP', hQ', hg⟩ := hg
  have hx := halfNode_injOn hE
  have hx' : Set.InjOn (fun j => -halfNode E N j) (range N : Finset ℕ) := fun i hi j hj h => hx hi hj (neg_injective h)
  funext mu
  rw [hf, hg, Through.unique hx hP hP', Through.unique hx' hQ hQ']

/-- **C61, nodes.** The interpolating function takes the given values at the nodes of both hemispheres. -/
theorem C61_nodes {N : ℕ} (hE : GaussContract E N) {v : ℕ → ℝ} {f : ℝ → ℝ} (hf : HemisphereInterpolant N (halfNode E N) v f) :
    ∀ j < N, f (halfNode E N j) = v j ∧ f (-halfNode E N j) = v (N + j) := by
  intro j hj
  obtain ⟨P, Q, hP, hQ, hf⟩ := hf
  have h0 := (halfNode_mem hE hj).1
  rw [hf, hf, if_pos h0, if_neg (by linarith)]
  exact ⟨hP.2 j hj, hQ.2 j hj⟩

/-- **C61, polynomials.** If the given values are those of one polynomial of degree less than `N` in each hemisphere, the interpolating
function is that polynomial, for every direction. -/
theorem C61_polynomial {N : ℕ} (hE : GaussContract E N) {v : ℕ → ℝ} {f : ℝ → ℝ} (hf : HemisphereInterpolant N (halfNode E N) v f)
    {p q : ℝ[X]} (hp : p.degree < N) (hq : q.degree < N) (hv : ∀ j < N, v j = p.eval (halfNode E N j))
    (hv' : ∀ j < N, v (N + j) = q.eval (-halfNode E N j)) (mu : ℝ) : f mu = if 0 < mu then p.eval mu else q.eval mu := by
  have h : HemisphereInterpolant N (halfNode E N) v (fun mu => if 0 < mu then p.eval mu else q.eval mu) :=
    ⟨p, q, ⟨hp, fun j hj => (hv j hj).symm⟩, ⟨hq, fun j hj => (hv' j hj).symm⟩, fun _ => rfl⟩
  rw [C61_unique hE hf h]

/-- **C61.** For every intensity function `u(tau, phi, …)` with `2 N` streams, `interpolate(u)(mu, tau, phi, …)` is, in each direction with
`|mu| ≤ 1`, the polynomial interpolation in the hemisphere of `mu` of what `u` itself returns for the same depths, azimuths and options. The other outputs are those of `u`. -/
theorem C61_interpolate_u {N : ℕ} (hN : 0 < N) (hE : GaussContract E N) {f : A1 ℝ → A1 ℝ → Bool → Bool → Bool → Py UOut} {o z : UOut}
    {mu tau phi : A1 ℝ} {anti retErr retTau : Bool} (hz : f zero1 zero1 false false false = .ok z) (hzr : z.values.r = 2 * N)
    (ho : f tau phi anti retErr retTau = .ok o) (hor : o.values.r = 2 * N) (hmu : ∀ i < mu.n, |mu.get i| ≤ 1) :
    ∃ w, interpolate5 E f mu tau phi anti retErr retTau = .ok w ∧ w.values.r = mu.n ∧ w.values.c = o.values.c
      ∧ w.extra = (if retErr = true ∨ retTau = true then o.extra else [])
      ∧ ∀ r < o.values.c, ∃ g, HemisphereInterpolant N (halfNode E N) (fun j => o.values.get j r) g
        ∧ ∀ i < mu.n, w.values.get i r = g (mu.get i) := by
  obtain ⟨w, h1, h2, h3, h4⟩ := interpValues_ok hN hE mu hor
  unfold interpolate5
  rw [interpNodes_ok hN (U := .five f) hz hzr]
  simp only [bind, Except.bind]
  rw [if_neg (not_not.mpr hmu)]
  by_cases hc : retErr = true ∨ retTau = true
  · simp only [if_pos hc, ho, h1, pure, Except.pure]
    exact ⟨_, rfl, h2, h3, rfl, fun r _ => (h4 r).imp fun g hg => ⟨hg.1, fun i _ => hg.2 i⟩⟩
  · have e1 : retErr = false := by cases retErr <;> simp_all
    have e2 : retTau = false := by cases retTau <;> simp_all
    subst e1 e2
    simp only [if_neg hc, ho, h1, pure, Except.pure]
    exact ⟨_, rfl, h2, h3, rfl, fun r _ => (h4 r).imp fun g hg => ⟨hg.1, fun i _ => hg.2 i⟩⟩

/-- **C61, azimuthal average.** The same for functions `u0(tau, is_antiderivative_wrt_tau, …)`; the values do not depend on the options. -/
theorem C61_interpolate_u0 {N : ℕ} (hN : 0 < N) (hE : GaussContract E N) {f : A1 ℝ → Bool → Bool → Bool → Py UOut} {o z : UOut}
    {mu tau : A1 ℝ} {anti retErr retTau : Bool} (hz : f zero1 false false false = .ok z) (hzr : z.values.r = 2 * N)
    (ho : f tau anti retErr retTau = .ok o) (hor : o.values.r = 2 * N) (hmu : ∀ i < mu.n, |mu.get i| ≤ 1) :
    ∃ w, interpolate4 E f mu tau anti retErr retTau = .ok w ∧ w.values.r = mu.n ∧ w.values.c = o.values.c
      ∧ w.extra = (if retErr = true ∨ retTau = true then o.extra else [])
      ∧ ∀ r < o.values.c, ∃ g, HemisphereInterpolant N (halfNode E N) (fun j => o.values.get j r) g
        ∧ ∀ i < mu.n, w.values.get i r = g (mu.get i) := by
  obtain ⟨w, h1, h2, h3, h4⟩ := interpValues_ok hN hE mu hor
  unfold interpolate4
  rw [interpNodes_ok hN (U := .four f) hz hzr]
  simp only [bind, Except.bind]
  rw [if_neg (not_not.mpr hmu)]
  by_cases hc : retErr = true ∨ retTau = true
  · simp only [if_pos hc, ho, h1, pure, Except.pure]
    exact ⟨_, rfl, h2, h3, rfl, fun r _ => (h4 r).imp fun g hg => ⟨hg.1, fun i _ => hg.2 i⟩⟩
  · have e1 : retErr = false := by cases retErr <;> simp_all
    have e2 : retTau = false := by cases retTau <;> simp_all
    subst e1 e2
    simp only [if_neg hc, ho, h1, pure, Except.pure]
    exact ⟨_, rfl, h2, h3, rfl, fun r _ => (h4 r).imp fun g hg => ⟨hg.1, fun i _ => hg.2 i⟩⟩

/-- **C61, range.** A cosine outside `[-1, 1]` is refused, whatever the other arguments. -/
theorem C61_refused {N : ℕ} (hN : 0 < N) {mu : A1 ℝ} (hmu : ∃ i < mu.n, 1 < |mu.get i|) :
    (∀ (f : A1 ℝ → A1 ℝ → Bool → Bool → Bool → Py UOut) (z : UOut) (tau phi : A1 ℝ) (anti retErr retTau : Bool),
      f zero1 zero1 false false false = .ok z → z.values.r = 2 * N →
      interpolate5 E f mu tau phi anti retErr retTau = .error (.valueError "mu values must be between -1 and 1.")) ∧
    ∀ (f : A1 ℝ → Bool → Bool → Bool → Py UOut) (z : UOut) (tau : A1 ℝ) (anti retErr retTau : Bool),
      f zero1 false false false = .ok z → z.values.r = 2 * N →
      interpolate4 E f mu tau anti retErr retTau = .error (.valueError "mu values must be between -1 and 1.") := by
  have hm : ¬ ∀ i < mu.n, |mu.get i| ≤ 1 := by
    obtain ⟨i, hi, h1⟩ := hmu
    exact fun h => absurd (h i hi) (not_le.mpr h1)
  constructor
  · intro f z tau phi anti retErr retTau hz hzr
    unfold interpolate5
    rw [interpNodes_ok hN (U := .five f) hz hzr]
    simp only [bind, Except.bind]
    rw [if_pos hm]
  · intro f z tau anti retErr retTau hz hzr
    unfold interpolate4
    rw [interpNodes_ok hN (U := .four f) hz hzr]
    simp only [bind, Except.bind]
    rw [if_pos hm]

/-! ## The functions returned by `pydisort` -/

theorem inRange_zero1 (h : Accepted a) : InRange a zero1 := fun _ _ => ⟨le_rfl, (bottom_pos h).le⟩

/-- **C61 for `u0` of `pydisort`.** In every direction, `interpolate(u0)` is the polynomial through the values of `u0` at the quadrature nodes
of the same hemisphere. -/
theorem C61_pydisort_u0 (h : pydisort E J a = .ok R) (hE : GaussContract E (nHalf a)) {mu tau : A1 ℝ} (ht : InRange a tau)
    (hmu : ∀ i < mu.n, |mu.get i| ≤ 1) : ∃ A w, R.u0 tau false = .ok A ∧
      interpolate4 E R.u0Full mu tau false false false = .ok w ∧ w.values.r = mu.n ∧ w.values.c = tau.n ∧ w.extra = [] ∧
      ∀ t < tau.n, ∃ g, HemisphereInterpolant (nHalf a) (node E a) (fun j => A.get j t) g ∧
        ∀ i < mu.n, w.values.get i t = g (mu.get i) := by
  obtain ⟨hacc, O, r, hO, hr, hI, _⟩ := pydisort_ok h
  have hN : R.I.N = nHalf a := by rw [hI]; rfl
  obtain ⟨A, h1, h2, h3, _⟩ := R.I.u0_plain R.S (checkTau_of_inRange h ht)
  obtain ⟨Z, z1, z2, z3, _⟩ := R.I.u0_plain R.S (checkTau_of_inRange h (inRange_zero1 hacc))
  rw [hN] at h2 z2
  have fo : R.u0Full tau false false false = .ok ⟨A, []⟩ := by
    unfold Solved.u0Full Solved.u0; rw [h1]; rfl
  have fz : R.u0Full zero1 false false false = .ok ⟨Z, []⟩ := by
    unfold Solved.u0Full Solved.u0; rw [z1]; rfl
  obtain ⟨w, w1, w2, w3, w4, w5⟩ := C61_interpolate_u0 (nHalf_pos hacc) hE fz z2 fo h2 hmu
  exact ⟨A, w, h1, w1, w2, w3.trans h3, by simpa using w4, fun t htt => w5 t (by rw [show (⟨A, []⟩ : UOut).values.c = tau.n from h3]; exact htt)⟩

theorem u_rows (h : pydisort E J a = .ok R) {tau phi : A1 ℝ} (ht : InRange a tau) {A : A3 ℝ} (hA : R.u tau phi false = .ok A) :
    A.d0 = 2 * nHalf a ∧ A.d1 = tau.n ∧ A.d2 = phi.n := by
  obtain ⟨hacc, O, r, hO, hr, hI, _⟩ := pydisort_ok h
  have hN : R.I.N = nHalf a := by rw [hI]; rfl
  obtain ⟨z, h1, h2, h3, h4, h5⟩ := R.I.u_plain R.S phi (checkTau_of_inRange h ht)
  rw [hN] at h2
  unfold Solved.u at hA
  split at hA
  · cases hA
  split at hA
  · rename_i n hn
    unfold Solved.uCorrected Solved.uUncorrected at hA
    rw [h1] at hA
    simp only [bind, Except.bind, addSqueezed] at hA
    split at hA
    · cases hA
    · split_ifs at hA
      · injection hA with hA
        subst hA
        exact ⟨h2, h3, h4⟩
      · injection hA with hA
        subst hA
        exact ⟨h2, h3, h4⟩
  · unfold Solved.uUncorrected at hA
    rw [h1] at hA
    injection hA with hA
    subst hA
    exact ⟨h2, h3, h4⟩

/-- **C61 for `u` of `pydisort`** (with or without the corrections of Nakajima and Tanaka): in every direction, `interpolate(u)` is the
polynomial through the values of `u` at the quadrature nodes of the same hemisphere. `u` needs to be defined (`only_flux = False`) at the
requested depths and azimuths and at `(0, 0)`. -/
theorem C61_pydisort_u (h : pydisort E J a = .ok R) (hE : GaussContract E (nHalf a)) {mu tau phi : A1 ℝ} (ht : InRange a tau)
    (hmu : ∀ i < mu.n, |mu.get i| ≤ 1) {A Z : A3 ℝ} (hA : R.u tau phi false = .ok A)
    (hZ : R.u zero1 zero1 false = .ok Z) :
    ∃ w, interpolate5 E R.uFull mu tau phi false false false = .ok w ∧ w.values.r = mu.n ∧ w.values.c = tau.n * phi.n ∧ w.extra = [] ∧
      ∀ t < tau.n, ∀ p < phi.n, ∃ g, HemisphereInterpolant (nHalf a) (node E a) (fun j => A.get j t p) g ∧
        ∀ i < mu.n, w.values.get i (t * phi.n + p) = g (mu.get i) := by
  have hacc := (pydisort_ok h).1
  obtain ⟨a1, a2, a3⟩ := u_rows h ht hA
  obtain ⟨z1, z2, z3⟩ := u_rows h (inRange_zero1 hacc) hZ
  have fo : R.uFull tau phi false false false = .ok ⟨⟨A.d0, A.d1 * A.d2, fun i r => A.get i (r / A.d2) (r % A.d2)⟩, []⟩ := by
    unfold Solved.uFull; rw [hA]; rfl
  have fz : R.uFull zero1 zero1 false false false = .ok ⟨⟨Z.d0, Z.d1 * Z.d2, fun i r => Z.get i (r / Z.d2) (r % Z.d2)⟩, []⟩ := by
    unfold Solved.uFull; rw [hZ]; rfl
  obtain ⟨w, w1, w2, w3, w4, w5⟩ := C61_interpolate_u (nHalf_pos hacc) hE fz z1 fo a1 hmu
  refine ⟨w, w1, w2, w3.trans (by rw [← a2, ← a3]), by simpa using w4, fun t htt p hp => ?_⟩
  have hlt : t * phi.n + p < A.d1 * A.d2 := by
    rw [a2, a3]
    calc t * phi.n + p < t * phi.n + phi.n := by omega
      _ = (t + 1) * phi.n := by ring
      _ ≤ tau.n * phi.n := Nat.mul_le_mul_right _ htt
  obtain ⟨g, hg, hw⟩ := w5 _ hlt
  refine ⟨g, ?_, hw⟩
  dsimp only at hg
  have hp0 : 0 < phi.n := by omega
  rw [a3, show (t * phi.n + p) / phi.n = t by
      rw [Nat.add_comm, Nat.add_mul_div_right _ _ hp0, Nat.div_eq_of_lt hp, Nat.zero_add],
    show (t * phi.n + p) % phi.n = p by rw [Nat.add_comm, Nat.add_mul_mod_self_right, Nat.mod_eq_of_lt hp]] at hg
  exact hg

/-- **C61 for `u0` of `pydisort`, with any options.** Whenever `u0` returns an array with a row for every stream, for the intensity or its antiderivative, `interpolate(u0)` with the
same options returns in every direction the polynomial through it, followed by what `u0` itself returns with these options: `tau_arr`, and the same reclassification term that
`u0` hands to the actinic fluxes. -/
theorem C61_pydisort_u0_options (h : pydisort E J a = .ok R) (hE : GaussContract E (nHalf a)) {mu tau : A1 ℝ} (hmu : ∀ i < mu.n, |mu.get i| ≤ 1)
    {anti : Bool} (retErr retTau : Bool) {A : A2 ℝ} (hA : R.u0 tau anti = .ok A) (hr : A.r = 2 * nHalf a) :
    ∃ w, interpolate4 E R.u0Full mu tau anti retErr retTau = .ok w ∧ w.values.r = mu.n ∧ w.values.c = A.c ∧
      (∃ c, R.u0Reclass tau anti = .ok (A, c) ∧
        w.extra = (if retErr = true then [a.tauArr] else []) ++ if retTau = true then [c] else []) ∧
      ∀ t < A.c, ∃ g, HemisphereInterpolant (nHalf a) (node E a) (fun j => A.get j t) g ∧ ∀ i < mu.n, w.values.get i t = g (mu.get i) := by
  obtain ⟨hacc, O, r, hO, hr', hI, _⟩ := pydisort_ok h
  have hN : R.I.N = nHalf a := by rw [hI]; rfl
  obtain ⟨Z, z1, z2, z3, _⟩ := R.I.u0_plain R.S (checkTau_of_inRange h (inRange_zero1 hacc))
  rw [hN] at z2
  have hT : (⟨R.I.NLayers, R.I.tauArr⟩ : A1 ℝ) = a.tauArr := by rw [hI]; rfl
  obtain ⟨c, hc⟩ : ∃ c, R.u0Reclass tau anti = .ok (A, c) := by
    unfold Solved.u0Reclass; rw [hA]; exact ⟨_, rfl⟩
  obtain ⟨o, fo, ho, he⟩ : ∃ o, R.u0Full tau anti retErr retTau = .ok o ∧ o.values = A
      ∧ o.extra = (if retErr = true then [a.tauArr] else []) ++ if retTau = true then [c] else [] := by
    unfold Solved.u0Full
    unfold Solved.u0Reclass at hc
    rw [hA] at hc ⊢
    rw [hT]
    cases hc
    exact ⟨_, rfl, rfl, rfl⟩
  have fz : R.u0Full zero1 false false false = .ok ⟨Z, []⟩ := by
    unfold Solved.u0Full Solved.u0; rw [z1]; rfl
  obtain ⟨w, w1, w2, w3, w4, w5⟩ := C61_interpolate_u0 (nHalf_pos hacc) hE fz z2 fo (by rw [ho]; exact hr) hmu
  rw [ho] at w3 w5
  refine ⟨w, w1, w2, w3, ⟨c, hc, ?_⟩, w5⟩
  rw [w4, he]
  cases retErr <;> cases retTau <;> simp

/-- **C61 for `u` of `pydisort`, with any options.** Whenever `u` returns an array with a row for every stream, for the intensity or its antiderivative, `interpolate(u)` with the same
options returns in every direction the polynomial through it, followed, if requested, by the Fourier error that `u` returns and by `tau_arr`. -/
theorem C61_pydisort_u_options (h : pydisort E J a = .ok R) (hE : GaussContract E (nHalf a)) {mu tau phi : A1 ℝ} (hmu : ∀ i < mu.n, |mu.get i| ≤ 1)
    {anti : Bool} (retErr retTau : Bool) {A Z : A3 ℝ} (hA : R.u tau phi anti = .ok A) (hr : A.d0 = 2 * nHalf a) (hZ : R.u zero1 zero1 false = .ok Z)
    {e : ℝ} (he : retErr = true → R.fourierError tau phi anti = .ok e) :
    ∃ w, interpolate5 E R.uFull mu tau phi anti retErr retTau = .ok w ∧ w.values.r = mu.n ∧ w.values.c = A.d1 * A.d2 ∧
      w.extra = (if retErr = true then [⟨1, fun _ => e⟩] else []) ++ (if retTau = true then [a.tauArr] else []) ∧
      ∀ t < A.d1, ∀ p < A.d2, ∃ g, HemisphereInterpolant (nHalf a) (node E a) (fun j => A.get j t p) g ∧
        ∀ i < mu.n, w.values.get i (t * A.d2 + p) = g (mu.get i) := by
  obtain ⟨hacc, O, r, hO, hr', hI, _⟩ := pydisort_ok h
  have hT : (⟨R.I.NLayers, R.I.tauArr⟩ : A1 ℝ) = a.tauArr := by rw [hI]; rfl
  obtain ⟨z1, z2, z3⟩ := u_rows h (inRange_zero1 hacc) hZ
  have fo : R.uFull tau phi anti retErr retTau = .ok ⟨⟨A.d0, A.d1 * A.d2, fun i r => A.get i (r / A.d2) (r % A.d2)⟩,
      (if retErr = true then [⟨1, fun _ => e⟩] else []) ++ (if retTau = true then [a.tauArr] else [])⟩ := by
    unfold Solved.uFull; rw [hA, hT]
    cases retErr
    · rfl
    · rw [he rfl]; rfl
  have fz : R.uFull zero1 zero1 false false false = .ok ⟨⟨Z.d0, Z.d1 * Z.d2, fun i r => Z.get i (r / Z.d2) (r % Z.d2)⟩, []⟩ := by
    unfold Solved.uFull; rw [hZ]; rfl
  obtain ⟨w, w1, w2, w3, w4, w5⟩ := C61_interpolate_u (nHalf_pos hacc) hE fz z1 fo hr hmu
  refine ⟨w, w1, w2, w3, ?_, fun t htt p hp => ?_⟩
  · rw [w4]; cases retErr <;> cases retTau <;> simp
  have hlt : t * A.d2 + p < A.d1 * A.d2 := by
    calc t * A.d2 + p < t * A.d2 + A.d2 := by omega
      _ = (t + 1) * A.d2 := by ring
      _ ≤ A.d1 * A.d2 := Nat.mul_le_mul_right _ htt
  obtain ⟨g, hg, hw⟩ := w5 _ hlt
  refine ⟨g, ?_, hw⟩
  dsimp only at hg
  have hp0 : 0 < A.d2 := by omega
  rw [show (t * A.d2 + p) / A.d2 = t by
      rw [Nat.add_comm, Nat.add_mul_div_right _ _ hp0, Nat.div_eq_of_lt hp, Nat.zero_add],
    show (t * A.d2 + p) % A.d2 = p by rw [Nat.add_comm, Nat.add_mul_mod_self_right, Nat.mod_eq_of_lt hp]] at hg
  exact hg

/-- Non-trivial cases meet the hypotheses: a two-layer atmosphere with any number of streams, in directions which are no nodes. -/
example {n : ℕ} (hn : 0 < n) (J : Junk) : ∃ a R A Z, pydisort refExt J a = .ok R ∧ GaussContract refExt (nHalf a) ∧
    InRange a ⟨2, fun k => k⟩ ∧ (∀ i : ℕ, i < 3 → |(i : ℝ) - 1| ≤ 1) ∧ R.u ⟨2, fun k => k⟩ ⟨2, fun k => k⟩ false = .ok A ∧
    R.u zero1 zero1 false = .ok Z := by
  obtain ⟨x, R, h, hw, _⟩ := demo_call hn J
  have hin : InRange (demo n x) ⟨2, fun k => (k : ℝ)⟩ := by
    intro t ht
    have : (t : ℝ) ≤ 1 := by
      have : t ≤ 1 := by change t < 2 at ht; omega
      exact_mod_cast this
    refine ⟨Nat.cast_nonneg _, ?_⟩
    simp [demo]; linarith
  have hu : ∀ tau phi, R.u tau phi false = R.I.u R.S tau phi false := by
    obtain ⟨_, O, r, _, _, _, _, hof, _, hnn⟩ := pydisort_ok h
    intro tau phi
    have : R.onlyFlux = false := by rw [hof]; rfl
    have hnt : R.nt = none := hnn (fun hc => by simp [demo, Args.NTGate] at hc)
    unfold Solved.u
    rw [hnt]
    simp [this, Solved.uUncorrected]
  obtain ⟨A, h1, _⟩ := R.I.u_plain R.S ⟨2, fun k => (k : ℝ)⟩ (checkTau_of_inRange h hin)
  obtain ⟨Z, h2, _⟩ := R.I.u_plain R.S zero1 (checkTau_of_inRange h (inRange_zero1 (pydisort_ok h).1))
  refine ⟨demo n x, R, A, Z, h, hw.sound.gauss, hin, fun i hi => ?_, by rw [hu, h1], by rw [hu, h2]⟩
  interval_cases i <;> norm_num

/-- The hypotheses of the theorems with options are met by the antiderivatives of `u0` and `u` in several layers, with any number of streams. -/
example {n : ℕ} (hn : 0 < n) (J : Junk) (phi : A1 ℝ) : ∃ a R A B Z, pydisort refExt J a = .ok R ∧ GaussContract refExt (nHalf a) ∧ 2 ≤ a.tauArr.n ∧
    R.u0 zero1 true = .ok A ∧ A.r = 2 * nHalf a ∧ R.u zero1 phi true = .ok B ∧ B.d0 = 2 * nHalf a ∧ R.u zero1 zero1 false = .ok Z := by
  obtain ⟨x, hx⟩ := demo_wellPosed hn
  have hh : nHalf (demo n x) = n := demo_nHalf x
  have hw : WellPosed refExt (under (demo n x) ⟨1, .scalar 1, .vec ⟨n, fun _ => 1⟩, ⟨2, 2, fun _ _ => 0⟩⟩) :=
    wellPosed_under hx zero_le_one (fun _ => one_pos) trivial (Or.inr (Or.inr hh.symm)) trivial trivial rfl
  obtain ⟨R, h⟩ := pydisort_isOk hw J
  have hin := inRange_zero1 (pydisort_ok h).1
  obtain ⟨_, _, _, h1, _⟩ := C36_u0_antiderivative_partial h hw.sound one_pos (Or.inl fun _ _ _ _ => rfl)
  obtain ⟨_, _, h2, h3, _⟩ := C37_u_antiderivative_partial h hw.sound (Or.inl fun _ _ _ _ => rfl) rfl rfl
  obtain ⟨A, a1, a2, _⟩ := h1 zero1 hin
  obtain ⟨B, b1, b2, _⟩ := h3 zero1 phi hin
  obtain ⟨Z, c1, _⟩ := h2 zero1 zero1 hin
  exact ⟨_, R, A, B, Z, h, hw.sound.gauss, le_rfl, a1, a2, b1, b2, c1⟩

/-! ## C62 -/

/-- What `interpolate(u0)` returns beside the interpolated values: `return_Fourier_error=True` yields `tau_arr`, and `return_tau_arr=True`
yields the reclassification term that `u0` computes for the actinic fluxes. -/
theorem C62_returned (h : pydisort E J a = .ok R) (hE : GaussContract E (nHalf a)) {mu tau : A1 ℝ} (ht : InRange a tau)
    (hmu : ∀ i < mu.n, |mu.get i| ≤ 1) (retErr retTau : Bool) :
    ∃ w, interpolate4 E R.u0Full mu tau false retErr retTau = .ok w ∧
      w.extra = (if retErr = true then [a.tauArr] else []) ++ if retTau = true then [R.I.actReclass tau false] else [] := by
  obtain ⟨hacc, O, r, hO, hr, hI, _⟩ := pydisort_ok h
  have hN : R.I.N = nHalf a := by rw [hI]; rfl
  have hT : (⟨R.I.NLayers, R.I.tauArr⟩ : A1 ℝ) = a.tauArr := by rw [hI]; rfl
  obtain ⟨A, h1, h2, h3, _⟩ := R.I.u0_plain R.S (checkTau_of_inRange h ht)
  obtain ⟨Z, z1, z2, z3, _⟩ := R.I.u0_plain R.S (checkTau_of_inRange h (inRange_zero1 hacc))
  rw [hN] at h2 z2
  have fo : R.u0Full tau false retErr retTau = .ok ⟨A, (if retErr = true then [a.tauArr] else [])
      ++ if retTau = true then [R.I.actReclass tau false] else []⟩ := by
    unfold Solved.u0Full Solved.u0; rw [h1, hT]; rfl
  have fz : R.u0Full zero1 false false false = .ok ⟨Z, []⟩ := by
    unfold Solved.u0Full Solved.u0; rw [z1]; rfl
  obtain ⟨w, w1, w2, w3, w4, w5⟩ := C61_interpolate_u0 (nHalf_pos hacc) hE fz z2 fo h2 hmu
  refine ⟨w, w1, ?_⟩
  rw [w4]
  cases retErr <;> cases retTau <;> simp

/-- **C62 (partial).** Whatever the options, the interpolated values are right (the polynomial through `u0` in each hemisphere). Without
options nothing else is returned. Missing: `return_tau_arr=True` returns `tau_arr`; it does not (`C62_false`). -/
theorem C62_values_partial (h : pydisort E J a = .ok R) (hE : GaussContract E (nHalf a)) {mu tau : A1 ℝ} (ht : InRange a tau)
    (hmu : ∀ i < mu.n, |mu.get i| ≤ 1) (retErr retTau : Bool) : ∃ A w, R.u0 tau false = .ok A ∧
      interpolate4 E R.u0Full mu tau false retErr retTau = .ok w ∧ w.values.r = mu.n ∧ w.values.c = tau.n ∧
      (∀ t < tau.n, ∃ g, HemisphereInterpolant (nHalf a) (node E a) (fun j => A.get j t) g ∧
        ∀ i < mu.n, w.values.get i t = g (mu.get i)) ∧ (retErr = false → retTau = false → w.extra = []) := by
  obtain ⟨hacc, O, r, hO, hr, hI, _⟩ := pydisort_ok h
  have hN : R.I.N = nHalf a := by rw [hI]; rfl
  obtain ⟨A, h1, h2, h3, _⟩ := R.I.u0_plain R.S (checkTau_of_inRange h ht)
  obtain ⟨Z, z1, z2, z3, _⟩ := R.I.u0_plain R.S (checkTau_of_inRange h (inRange_zero1 hacc))
  rw [hN] at h2 z2
  obtain ⟨o, fo, ho⟩ : ∃ o, R.u0Full tau false retErr retTau = .ok o ∧ o.values = A := by
    unfold Solved.u0Full Solved.u0; rw [h1]; exact ⟨_, rfl, rfl⟩
  have fz : R.u0Full zero1 false false false = .ok ⟨Z, []⟩ := by
    unfold Solved.u0Full Solved.u0; rw [z1]; rfl
  obtain ⟨w, w1, w2, w3, w4, w5⟩ := C61_interpolate_u0 (nHalf_pos hacc) hE fz z2 fo (by rw [ho]; exact h2) hmu
  rw [ho] at w3 w5
  refine ⟨A, w, h1, w1, w2, w3.trans h3, fun t htt => w5 t (by rw [h3]; exact htt), ?_⟩
  rintro rfl rfl
  simpa using w4

/-- **C62 is false.** `interpolate(u0)(mu, tau, return_tau_arr=True)` does not return `tau_arr`: for a two-layer atmosphere and a single depth it
returns an array with one entry. -/
theorem C62_false {n : ℕ} (hn : 0 < n) (J : Junk) : ∃ a R w, pydisort refExt J a = .ok R ∧ WellPosed refExt a ∧ InRange a zero1 ∧
    interpolate4 refExt R.u0Full zero1 zero1 false false true = .ok w ∧ w.extra ≠ [a.tauArr] := by
  obtain ⟨x, R, h, hw, _⟩ := demo_call hn J
  have hin := inRange_zero1 (pydisort_ok h).1
  obtain ⟨w, w1, w2⟩ := C62_returned h hw.sound.gauss (mu := zero1) hin (fun _ _ => by simp [zero1]) false true
  refine ⟨demo n x, R, w, h, hw, hin, w1, ?_⟩
  rw [w2]
  intro he
  simp only [Bool.false_eq_true, if_false, if_true, List.nil_append, List.cons.injEq, and_true] at he
  have hn1 : (R.I.actReclass zero1 false).n = 1 := by
    unfold AsmIn.actReclass
    split_ifs <;> rfl
  rw [he] at hn1
  exact absurd hn1 (by simp [demo])

end Pydisort

import Verif.Props.Transfer
import Verif.Spec.Eigen

/-!
# C06, C07, C08: the building blocks of the solution in a layer

`R.S.G`, `R.S.K`, `R.S.B` are the arrays `G_collect`, `K_collect`, `B_collect` computed for a call.
-/

namespace Pydisort
open Finset Spec

variable {E : Ext} {J : Junk} {a : Args} {R : Solved}

theorem coefMatrix_apply {O : Optics} {r : ℝ} (hs : Args.OpticsSpec a O) (hg : GaussContract E (nHalf a)) {l : ℕ} (hl : l < a.NLayers)
    (m : ℕ) (u : Vec) {i : ℕ} (hi : i < 2 * nHalf a) :
    ∑ q ∈ range (2 * nHalf a), coefMatrix a (node E a) (weight E a) m l i q * u q
      = mulVec (2 * nHalf a) ((a.asm E O r).genIn.effA m l) u i := by
  have h1 := effA_spec (r := r) hs hg hl m u hi
  have hne := stream_ne hg hi
  rw [← mul_right_inj' hne, h1, mul_sum]
  unfold coefMatrix
  have e : ∀ q ∈ range (2 * nHalf a), stream (nHalf a) (node E a) i *
      (((if i = q then 1 else 0) - streamW (nHalf a) (weight E a) q *
        kernel a m l (stream (nHalf a) (node E a) i) (stream (nHalf a) (node E a) q))
          / stream (nHalf a) (node E a) i * u q)
      = (if i = q then 1 else 0) * u q - streamW (nHalf a) (weight E a) q *
        kernel a m l (stream (nHalf a) (node E a) i) (stream (nHalf a) (node E a) q) * u q := by
    intro q _
    field_simp
  rw [sum_congr rfl e, sum_sub_distrib]
  congr 1
  simp [hi]

/-- **C08.** In every layer and mode the columns of `G` are linearly independent eigenvectors of the coefficient
matrix with eigenvalues `K`; the eigenvalues come in pairs `∓k` with `k > 0`. This covers the layers with scattering
(assembled from the reduced `N × N` problem) and those without (shortcut). -/
theorem C08_eigenvectors_diagonalise (h : pydisort E J a = .ok R) (hS : Numerics E a) {m l : ℕ} (hm : m < nFourier a)
    (hl : l < a.tauArr.n) :
    (∀ i < 2 * nHalf a, ∀ j < 2 * nHalf a,
      ∑ q ∈ range (2 * nHalf a), coefMatrix a (node E a) (weight E a) m l i q * R.S.G m l q j
        = R.S.K m l j * R.S.G m l i j) ∧
    (toM (2 * nHalf a) (R.S.G m l)).det ≠ 0 ∧
    (∀ j < nHalf a, R.S.K m l j < 0 ∧ R.S.K m l (nHalf a + j) = -R.S.K m l j) := by
  obtain ⟨hacc, O, r, hO, hr, hI, hsol, _⟩ := pydisort_ok h
  have hs := Args.optics_spec hacc hO
  rw [hI] at hsol
  have hgood := asm_good (r := r) hacc hs hS
  have hnr := asm_nonRes hacc hs hS hsol
  obtain ⟨out, GC, h1, h2, hRS⟩ := AsmIn.solveAll_ok hsol
  rw [hRS]
  have hsp := genSol_spec hgood.F h1
  have hm' : m < (a.asm E O r).NFourier := by rw [← nFourier_eq] at hm; exact hm
  refine ⟨?_, ?_, ?_⟩
  · intro i hi j hj
    rw [coefMatrix_apply (r := r) hs hS.gauss hl m (fun q => out.G m l q j) hi]
    refine (slotOK_of_spec hgood.F hsp hgood.eig ?_).eig m hm' l hl i hi j hj
    intro hb hi l hl hsc j hj
    have := hnr hb hi l hl hsc j hj
    rw [hRS] at this
    exact this
  · by_cases hsc : (a.asm E O r).genIn.scatters m l
    · have hsig := (asm_scatters hs hl m).1 hsc
      obtain ⟨hb, he⟩ := eigOK_of (r := r) hs hS.eig hl hsig (hS.regular m hm l hl hsig)
      have := gScat_det he hb.1
      refine fun h0 => this ((congrArg Matrix.det ?_).trans h0)
      ext i j
      exact ((hsp.scatG m hm' l hl hsc).1 i i.2 j j.2).symm
    · change (toM (2 * nHalf a) (out.G m l)).det ≠ 0
      rw [(hsp.trivG m hm' l hl hsc).1]
      exact gTrivial_det _
  · intro j hj
    refine ⟨?_, AsmIn.K_sym hsp hm' hl hj⟩
    by_cases hsc : (a.asm E O r).genIn.scatters m l
    · have hsig := (asm_scatters hs hl m).1 hsc
      obtain ⟨hb, he⟩ := eigOK_of (r := r) hs hS.eig hl hsig (hS.regular m hm l hl hsig)
      change out.K m l j < 0
      rw [(hsp.scatG m hm' l hl hsc).2]
      unfold eigK
      rw [if_pos (show j < (a.asm E O r).genIn.N from hj)]
      exact neg_lt_zero.mpr (Real.sqrt_pos.mpr (he.2 j hj))
    · change out.K m l j < 0
      rw [(hsp.trivG m hm' l hl hsc).2.1]
      unfold kTrivial
      rw [if_pos (show j < (a.asm E O r).genIn.N from hj)]
      have := (node_pos hS.gauss hj).1
      have : 0 < (a.asm E O r).genIn.M_inv j := one_div_pos.mpr this
      linarith

/-- **C08, positivity.** If scattering dissipates energy then the reduced eigenvalue problems have real positive
eigenvalues and a basis of eigenvectors. -/
theorem C08_positive_eigenvalues (hg : GaussContract E (nHalf a)) (hd : Dissipates a (node E a) (weight E a)) :
    Regular a (node E a) (weight E a) := regular_of_dissipates hg hd

/-- The hypotheses are met in both layers and every mode of a problem with delta-M scaling. -/
example {n : ℕ} (hn : 0 < n) (J : Junk) : ∃ (x : ℝ) (R : Solved), pydisort refExt J (demo n x) = .ok R ∧
    Sound refExt (demo n x) ∧ 1 < (demo n x).tauArr.n ∧
    Dissipates (demo n x) (node refExt (demo n x)) (weight refExt (demo n x)) := by
  obtain ⟨x, R, h1, hw, h2, h3⟩ := demo_call hn J
  exact ⟨x, R, h1, h2, by norm_num [demo], hw.dissipates⟩

/-- **C06.** With a beam, the vector `B` used for a layer is the unique solution of `(A + 1/μ₀) B = X / μ` in every
layer and mode with scattering, where `A` is the coefficient matrix and `X` the beam source, whichever route the code
takes. (`B` is stored divided by the internal rescale factor.) -/
theorem C06_beam_particular_solution (h : pydisort E J a = .ok R) (hS : Numerics E a) (hres : Rescalable a)
    (hI0 : 0 < a.I0) {m l : ℕ} (hm : m < nFourier a) (hl : l < a.tauArr.n)
    (hsig : Significant (omegaStar a l) (nLeg a) (legStar a l) m) (B : Vec) :
    (∀ i < 2 * nHalf a, R.I.rescale * R.S.B m l i = B i) ↔
    (∀ i < 2 * nHalf a, ∑ q ∈ range (2 * nHalf a), coefMatrix a (node E a) (weight E a) m l i q * B q + B i / a.mu0
        = beamSource a m l (stream (nHalf a) (node E a) i) / stream (nHalf a) (node E a) i) := by
  obtain ⟨hacc, O, r, hO, hr, hI, hsol, _⟩ := pydisort_ok h
  have hs := Args.optics_spec hacc hO
  rw [hI] at hsol
  have hgood := asm_good (r := r) hacc hs hS
  have hnr := asm_nonRes hacc hs hS hsol
  obtain ⟨out, GC, h1, h2, hRS⟩ := AsmIn.solveAll_ok hsol
  have hsp := genSol_spec hgood.F h1
  have hm' : m < (a.asm E O r).NFourier := by rw [← nFourier_eq] at hm; exact hm
  have hnr' : (a.asm E O r).genIn.beam = true → (a.asm E O r).genIn.iso = true → ∀ l < (a.asm E O r).genIn.NLayers,
      (a.asm E O r).genIn.scatters 0 l → ∀ j < 2 * (a.asm E O r).genIn.N, 1 / (a.asm E O r).genIn.mu0 + out.K 0 l j ≠ 0 := by
    intro hb hi l hl hsc j hj
    have := hnr hb hi l hl hsc j hj
    rw [hRS] at this
    exact this
  have hslot := slotOK_of_spec hgood.F hsp hgood.eig hnr'
  have hbeam : (a.asm E O r).genIn.beam = true := by
    change (a.asm E O r).beam = true
    simpa [Args.asmIn, Args.Beam] using hI0
  have hrI : R.I.rescale = r := by rw [hI]; rfl
  rw [hrI, hRS]
  change (∀ i < 2 * nHalf a, r * out.B m l i = B i) ↔ _
  have key : ∀ i < 2 * nHalf a, ∑ q ∈ range (2 * nHalf a), coefMatrix a (node E a) (weight E a) m l i q
      * (r * out.B m l q) + (r * out.B m l i) / a.mu0
        = beamSource a m l (stream (nHalf a) (node E a) i) / stream (nHalf a) (node E a) i := by
    intro i hi
    have h3 := hslot.beam hbeam m hm' l hl i hi
    rw [eq_div_iff (stream_ne hS.gauss hi), ← effX_spec (r := r) hs hS.gauss hl m hi (rescale_I0 hacc hs hr hres), ← h3]
    have := coefMatrix_apply (r := r) hs hS.gauss hl m (fun q => r * out.B m l q) hi
    rw [this]
    have e : mulVec (2 * nHalf a) ((a.asm E O r).genIn.effA m l) (fun q => r * out.B m l q) i
        = r * mulVec (2 * nHalf a) ((a.asm E O r).genIn.effA m l) (out.B m l) i := by
      unfold mulVec
      rw [mul_sum]
      exact sum_congr rfl fun q _ => by ring
    rw [e]
    change _ = _ * (r * (mulVec (2 * nHalf a) ((a.asm E O r).genIn.effA m l) (out.B m l) i + out.B m l i / a.mu0))
    ring
  constructor
  · intro hB i hi
    rw [← key i hi, ← hB i hi]
    congr 1
    exact sum_congr rfl fun q hq => by rw [hB q (mem_range.mp hq)]
  · intro hB
    -- the system is non-singular
    have hdet : (toM (2 * nHalf a) (fun i j => (a.asm E O r).genIn.effA m l i j
        + if i = j then 1 / a.mu0 else 0)).det ≠ 0 := by
      have hsc := (asm_scatters (E := E) (r := r) hs hl m).2 hsig
      have heff : (a.asm E O r).genIn.effA m l = (a.asm E O r).genIn.coefA m l := by simp [GenIn.effA, hsc]
      rw [heff]
      by_cases hc : m = 0 ∧ (a.asm E O r).genIn.iso = true
      · obtain ⟨rfl, hiso⟩ := hc
        obtain ⟨hb, he⟩ := eigOK_of (r := r) hs hS.eig hl hsig (hS.regular 0 hm l hl hsig)
        refine beam_det he hb.1 (fun j hj => ?_)
        have := hnr' hbeam hiso l hl hsc j hj
        rw [(hsp.scatG 0 hm' l hl hsc).2] at this
        exact this
      · obtain ⟨A, hA, hd, _⟩ := hsp.beamSolve hbeam m hm' l hl hsc hc
        refine fun h0 => hd ((congrArg Matrix.det ?_).trans h0)
        ext i j
        exact fullA_eq hA i.2 j.2
    have hB' : ∀ i < 2 * nHalf a, mulVec (2 * nHalf a) (fun i j => (a.asm E O r).genIn.effA m l i j
        + if i = j then 1 / a.mu0 else 0) (fun q => r * out.B m l q) i
        = mulVec (2 * nHalf a) (fun i j => (a.asm E O r).genIn.effA m l i j
        + if i = j then 1 / a.mu0 else 0) B i := by
      intro i hi
      have e : ∀ u : Vec, mulVec (2 * nHalf a) (fun i j => (a.asm E O r).genIn.effA m l i j
        + if i = j then 1 / a.mu0 else 0) u i
          = ∑ q ∈ range (2 * nHalf a), coefMatrix a (node E a) (weight E a) m l i q * u q + u i / a.mu0 := by
        intro u
        rw [coefMatrix_apply (r := r) hs hS.gauss hl m u hi]
        unfold mulVec
        simp only [add_mul, sum_add_distrib]
        congr 1
        simp [hi]; ring
      rw [e, e, key i hi, hB i hi]
    exact solve_unique hdet hB'

/-- Without scattering there is no beam source and `B` is zero. -/
theorem C06_no_scattering (h : pydisort E J a = .ok R) (hS : Numerics E a) {m l : ℕ} (hm : m < nFourier a)
    (hl : l < a.tauArr.n) (hsig : ¬ Significant (omegaStar a l) (nLeg a) (legStar a l) m) :
    (∀ i, R.S.B m l i = 0) ∧ ∀ x, beamSource a m l x = 0 := by
  obtain ⟨hacc, O, r, hO, hr, hI, hsol, _⟩ := pydisort_ok h
  have hs := Args.optics_spec hacc hO
  rw [hI] at hsol
  have hgood := asm_good (r := r) hacc hs hS
  obtain ⟨out, GC, h1, h2, hRS⟩ := AsmIn.solveAll_ok hsol
  have hsp := genSol_spec hgood.F h1
  have hm' : m < (a.asm E O r).NFourier := by rw [← nFourier_eq] at hm; exact hm
  refine ⟨fun i => ?_, fun x => by simp [beamSource, hsig]⟩
  rw [hRS]
  exact congrFun (hsp.trivG m hm' l hl (fun hsc => hsig ((asm_scatters hs hl m).1 hsc))).2.2 i

/-- **C06.** The beam particular solution does not depend on the internal sources: the vectors used with any two source
polynomials (in particular none, so that mode zero takes the other route) agree. -/
theorem C06_independent_of_isotropic_source {s' : A2 ℝ} {J' : Junk} {R' : Solved} (h : pydisort E J a = .ok R)
    (h' : pydisort E J' { a with s := s' } = .ok R') (hS : Numerics E a) (hS' : Numerics E { a with s := s' })
    (hI0 : 0 < a.I0) {m l : ℕ} (hm : m < nFourier a) (hl : l < a.tauArr.n) :
    ∀ i < 2 * nHalf a, R.I.rescale * R.S.B m l i = R'.I.rescale * R'.S.B m l i := by
  by_cases hsig : Significant (omegaStar a l) (nLeg a) (legStar a l) m
  · have h1 := (C06_beam_particular_solution h' hS' (Or.inl (Or.inl hI0)) hI0 hm hl hsig
      (fun i => R'.I.rescale * R'.S.B m l i)).1 (fun _ _ => rfl)
    exact (C06_beam_particular_solution h hS (Or.inl (Or.inl hI0)) hI0 hm hl hsig _).2 h1
  · intro i _
    rw [(C06_no_scattering h hS hm hl hsig).1, (C06_no_scattering h' hS' (a := { a with s := s' }) hm hl hsig).1]
    ring

/-- The hypotheses are met with and without the internal source of the demonstration problem, whose first layer
scatters. -/
example {n : ℕ} (hn : 0 < n) (J J' : Junk) : ∃ (x : ℝ) (R R' : Solved), pydisort refExt J (demo n x) = .ok R ∧
    pydisort refExt J' { demo n x with s := ⟨1, 1, fun _ _ => 0⟩ } = .ok R' ∧ Sound refExt (demo n x) ∧
    Sound refExt { demo n x with s := ⟨1, 1, fun _ _ => 0⟩ } ∧ 0 < (demo n x).I0 ∧
    Significant (omegaStar (demo n x) 0) (nLeg (demo n x)) (legStar (demo n x) 0) 0 := by
  obtain ⟨x, R, h1, hw, h2, h3⟩ := demo_call hn J
  have hw' : WellPosed refExt { demo n x with s := ⟨1, 1, fun _ _ => 0⟩ } :=
    { hw with
      accepted := { hw.accepted with sourceRows := Or.inl fun _ _ _ _ => rfl }
      sourceShape := Or.inl rfl
      degree := Or.inr (by norm_num) }
  obtain ⟨R', hR'⟩ := pydisort_isOk hw' J'
  exact ⟨x, R, R', h1, hR', h2, hw'.sound, by simp [demo], 0, le_rfl, by simpa [nLeg, demo] using hn, by
    have hp : peak (demo n x) 0 = 1 / 8 := demo_peak (by norm_num [demo])
    simp only [omegaStar, scale, legStar, leg, hp]
    norm_num [demo]⟩

/-- **C07, the part that is true.** For any number `1 ≤ Nc ≤ 21` of source coefficients `s`, the particular solution computed by `_mathscr_v`
solves `v' = A v - S(τ) r` with `S(τ) = Σ_k s_k τ^k`, for every matrix `A` whose eigenvectors are the columns of `G`
with nonzero eigenvalues `K`, and `g = G⁻¹ r` (for the transfer equation `r_i = 1 / μ_i`). -/
theorem C07_polynomial_sources_solved_partial {n Nc : ℕ} (hN : 0 < Nc) (hN' : Nc ≤ 21) {A G : Mat} {K g r : Vec} (s : Vec)
    (hK : ∀ j < n, K j ≠ 0) (heig : ∀ i < n, ∀ j < n, ∑ q ∈ range n, A i q * G q j = K j * G i j)
    (hg : ∀ i < n, ∑ j ∈ range n, G i j * g j = r i) (t : ℝ) {i : ℕ} (hi : i < n) :
    HasDerivAt (fun x => mathscrV n Nc s G K g x i)
      (∑ q ∈ range n, A i q * mathscrV n Nc s G K g t q - (∑ k ∈ range Nc, s k * t ^ k) * r i) t := by
  refine (hasDerivAt_mathscrV hN s G K g t i).congr_deriv ?_
  rw [sum_eq_zero (s := range n) (f := fun k => G i k * (resid Nc s (K k) t * g k)) fun k hk => by
    rw [resid_eq_zero hN' s (hK k (mem_range.mp hk)), zero_mul, mul_zero], add_zero, hg i hi]
  congr 1
  have e : ∀ q ∈ range n, A i q * mathscrV n Nc s G K g t q
      = ∑ k ∈ range n, A i q * G q k * (sigma Nc s (K k) t * g k) := by
    intro q _
    rw [mathscrV_eq hN, mul_sum]
    exact sum_congr rfl fun k _ => by ring
  rw [sum_congr rfl e, sum_comm]
  refine sum_congr rfl fun k hk => ?_
  rw [← sum_mul, heig i hi k (mem_range.mp hk)]

/-- The hypotheses are met, for example by the `2 × 2` matrix of two streams without scattering, and a quadratic
source. -/
example : ∃ (A G : Mat) (K g r : Vec), (∀ j < 2, K j ≠ 0) ∧
    (∀ i < 2, ∀ j < 2, ∑ q ∈ range 2, A i q * G q j = K j * G i j) ∧
    (∀ i < 2, ∑ j ∈ range 2, G i j * g j = r i) := by
  refine ⟨fun i j => if i = j then (if i = 0 then 2 else -2) else 0, fun i j => if i = j then 0 else 1,
    fun j => if j = 0 then -2 else 2, fun j => if j = 0 then -2 else 2, fun i => if i = 0 then 2 else -2, ?_, ?_, ?_⟩
  · intro j hj; interval_cases j <;> norm_num
  · intro i hi j hj; interval_cases i <;> interval_cases j <;> norm_num [sum_range_succ]
  · intro i hi; interval_cases i <;> norm_num [sum_range_succ]

/-- **C07, specialised branches.** Writing the same polynomial with more coefficients (zeros at the top) does not
change the particular solution: with `k = 2` the one- and the two-coefficient branch are compared with the general
branch, with `k = 1` with each other. (From `66!` on the wrapped factorials are zero and the code divides by them.) -/
theorem C07_branches_agree {n Nc : ℕ} (hN : 0 < Nc) (k : ℕ) (_hk : Nc + k ≤ 66) (s : Vec) (G : Mat) (K g : Vec) (t : ℝ) (i : ℕ) :
    mathscrV n (Nc + k) (fun j => if j < Nc then s j else 0) G K g t i = mathscrV n Nc s G K g t i := by
  rw [mathscrV_eq (by omega), mathscrV_eq hN]
  refine sum_congr rfl fun q _ => ?_
  congr 2
  unfold sigma
  rw [sum_range_add]
  have h0 : ∑ j ∈ range k, sigC (Nc + k) (fun j => if j < Nc then s j else 0) (K q) (Nc + j) * t ^ (Nc + j) = 0 := by
    refine sum_eq_zero fun j _ => ?_
    have : sigC (Nc + k) (fun j => if j < Nc then s j else 0) (K q) (Nc + j) = 0 := by
      unfold sigC
      refine sum_eq_zero fun p _ => ?_
      beta_reduce
      rw [if_neg (by omega)]; ring
    rw [this]; ring
  rw [h0, add_zero]
  refine sum_congr rfl fun j hj => ?_
  rw [mem_range] at hj
  congr 1
  unfold sigC
  rw [show Nc + k - j = (Nc - j) + k by omega, sum_range_add]
  have h1 : ∑ p ∈ range k, (1 / K q) ^ (Nc - j + p + 1) * ((if j + (Nc - j + p) < Nc then s (j + (Nc - j + p)) else 0)
      * fac64 (j + (Nc - j + p))) * (1 / fac64 j) = 0 := by
    refine sum_eq_zero fun p _ => ?_
    rw [if_neg (by omega)]; ring
  rw [h1, add_zero]
  refine sum_congr rfl fun p hp => ?_
  rw [mem_range] at hp
  beta_reduce
  rw [if_pos (by omega)]

/-- `R.S.Gim` represents the constant source `1 / μ` in the basis of the eigenvectors. -/
theorem gim_spec (h : pydisort E J a = .ok R) (hS : Numerics E a) (hsrc : ¬ NoSource a) {l : ℕ} (hl : l < a.tauArr.n) {i : ℕ}
    (hi : i < 2 * nHalf a) : ∑ k ∈ range (2 * nHalf a), R.S.G 0 l i k * R.S.Gim l k = (stream (nHalf a) (node E a) i)⁻¹ := by
  obtain ⟨hacc, O, r, hO, hr, hI, hsol, _⟩ := pydisort_ok h
  have hs := Args.optics_spec hacc hO
  have hgood := asm_good (r := r) hacc hs hS
  have hiso : (a.asm E O r).iso = true := by
    have : a.Iso := Args.iso_iff.2 hsrc
    simpa [Args.asmIn] using this
  rw [hI] at hsol
  have hnr := asm_nonRes hacc hs hS hsol
  obtain ⟨out, GC, h1, h2, hRS⟩ := AsmIn.solveAll_ok hsol
  have hsp := genSol_spec hgood.F h1
  have hslot := slotOK_of_spec hgood.F hsp hgood.eig (by
    intro hb hi l hl hsc j hj
    have := hnr hb hi l hl hsc j hj
    rw [hRS] at this
    exact this)
  rw [hRS]
  change ∑ j ∈ range (2 * nHalf a), out.G 0 l i j * ∑ q ∈ range (2 * nHalf a), out.Ginv0 l j q * (a.asm E O r).muInv q = _
  have e : ∀ j ∈ range (2 * nHalf a), out.G 0 l i j * ∑ q ∈ range (2 * nHalf a), out.Ginv0 l j q * (a.asm E O r).muInv q
      = ∑ q ∈ range (2 * nHalf a), out.G 0 l i j * out.Ginv0 l j q * (a.asm E O r).muInv q := by
    intro j _
    rw [mul_sum]; exact sum_congr rfl fun q _ => by ring
  rw [sum_congr rfl e, sum_comm]
  simp_rw [← sum_mul]
  have e2 : ∀ q ∈ range (2 * nHalf a), (∑ j ∈ range (2 * nHalf a), out.G 0 l i j * out.Ginv0 l j q) * (a.asm E O r).muInv q
      = (if i = q then 1 else 0) * (a.asm E O r).muInv q := by
    intro q hq
    have := hslot.inv hiso l hl i hi q (mem_range.mp hq)
    change ∑ j ∈ range (2 * nHalf a), out.G 0 l i j * out.Ginv0 l j q = _ at this
    rw [this]
  rw [sum_congr rfl e2]
  have := mul_muInv (O := O) (r := r) hS.gauss hi
  simp only [ite_mul, one_mul, zero_mul, sum_ite_eq, mem_range, hi, if_true]
  exact eq_inv_of_mul_eq_one_right this

/-- The eigenvalues are not zero. -/
theorem K_ne_zero_of (h : pydisort E J a = .ok R) (hS : Numerics E a) {m l : ℕ} (hm : m < nFourier a) (hl : l < a.tauArr.n) {j : ℕ}
    (hj : j < 2 * nHalf a) : R.S.K m l j ≠ 0 := by
  obtain ⟨_, _, hK⟩ := C08_eigenvectors_diagonalise h hS hm hl
  by_cases hj' : j < nHalf a
  · exact (hK j hj').1.ne
  · have := hK (j - nHalf a) (by omega)
    rw [show nHalf a + (j - nHalf a) = j by omega] at this
    rw [this.2]; exact (neg_pos.mpr this.1).ne'

/-- **C07, in a call; the part that is true.** With at most 21 coefficients (part of `Sound`) the particular solution of the code solves the
mode-zero equation of the caller's problem for the internal source alone: `μ_i dv_i/dτ* = v_i - Σ_q w_q D(μ_i, μ_q) v_q - S*(τ*)`, where `S*`
is the internally used (delta-M scaled and rescaled, see C25) source polynomial. -/
theorem C07_particular_solution_in_call_partial (h : pydisort E J a = .ok R) (hS : Sound E a) (hsrc : ¬ NoSource a) {l : ℕ}
    (hl : l < a.tauArr.n) (t : ℝ) {i : ℕ} (hi : i < 2 * nHalf a) :
    HasDerivAt (fun x => mathscrV (2 * nHalf a) R.I.Nscoeffs (R.I.s l) (R.S.G 0 l) (R.S.K 0 l) (R.S.Gim l) x i)
      (∑ q ∈ range (2 * nHalf a), coefMatrix a (node E a) (weight E a) 0 l i q *
          mathscrV (2 * nHalf a) R.I.Nscoeffs (R.I.s l) (R.S.G 0 l) (R.S.K 0 l) (R.S.Gim l) t q
        - (∑ k ∈ range R.I.Nscoeffs, R.I.s l k * t ^ k) / stream (nHalf a) (node E a) i) t := by
  obtain ⟨hacc, O, r, hO, hr, hI, hsol, _⟩ := pydisort_ok h
  have hgood := asm_good (r := r) hacc (Args.optics_spec hacc hO) hS.toNumerics
  have hm : 0 < nFourier a := by rw [← nFourier_eq]; exact hgood.F
  have hc : R.I.Nscoeffs = a.s.c := by rw [hI]; exact Args.nsc_of_iso (Args.iso_iff.2 hsrc)
  have hNc : 0 < R.I.Nscoeffs := by
    rw [hI]
    exact Args.iso_iff.2 hsrc
  rw [div_eq_mul_inv]
  exact C07_polynomial_sources_solved_partial (r := fun i => (stream (nHalf a) (node E a) i)⁻¹) hNc (by rw [hc]; exact hS.degree.resolve_left hsrc)
    (R.I.s l) (fun j hj => K_ne_zero_of h hS.toNumerics hm hl hj) (C08_eigenvectors_diagonalise h hS.toNumerics hm hl).1
    (fun i hi => gim_spec h hS.toNumerics hsrc hl hi) t hi

/-- The hypotheses are met. -/
example {n : ℕ} (hn : 0 < n) (J : Junk) : ∃ (x : ℝ) (R : Solved), pydisort refExt J (demo n x) = .ok R ∧
    Sound refExt (demo n x) ∧ ¬ NoSource (demo n x) := by
  obtain ⟨x, R, h1, _, h2, _⟩ := demo_call hn J
  refine ⟨x, R, h1, h2, fun hh => ?_⟩
  have := hh 0 (by norm_num [demo]) 0 (by norm_num [demo])
  norm_num [demo] at this

end Pydisort

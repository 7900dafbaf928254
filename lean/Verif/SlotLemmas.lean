import Verif.EigenLemmas

/-! Helper lemmas: what `genSol` returns for every Fourier mode and layer, in terms of the matrix of the
discretised equation. -/

namespace Pydisort
open Finset

namespace GenIn
variable (I : GenIn)

open Classical in
/-- Matrix actually solved for: multiple scattering is dropped where it is insignificant. -/
noncomputable def effA (m l : ℕ) : Mat := if I.scatters m l then I.coefA m l else diagA I.N I.M_inv

open Classical in
/-- Beam source actually solved for. -/
noncomputable def effX (m l : ℕ) : Vec := if I.scatters m l then I.Xrow m l else fun _ => 0

end GenIn

/-- Properties of the output of `genSol` that the later stages rely on. -/
structure SlotOK (I : GenIn) (out : GenOut) : Prop where
  eig : ∀ m < I.NFourier, ∀ l < I.NLayers, ∀ i < 2 * I.N, ∀ j < 2 * I.N,
    mulVec (2 * I.N) (I.effA m l) (fun q => out.G m l q j) i = out.K m l j * out.G m l i j
  inv : I.iso = true → ∀ l < I.NLayers, ∀ i < 2 * I.N, ∀ j < 2 * I.N,
    ∑ q ∈ range (2 * I.N), out.G 0 l i q * out.Ginv0 l q j = if i = j then 1 else 0
  beam : I.beam = true → ∀ m < I.NFourier, ∀ l < I.NLayers, ∀ i < 2 * I.N,
    mulVec (2 * I.N) (I.effA m l) (out.B m l) i + out.B m l i / I.mu0 = I.effX m l i

theorem fullA_eq {I : GenIn} {A : Mat} {m l : ℕ}
    (hA : ∀ a < I.N, ∀ b < I.N, A (I.N + a) (I.N + b) = I.alpha m l a b ∧ A (I.N + a) b = I.beta m l a b)
    {i j : ℕ} (hi : i < 2 * I.N) (hj : j < 2 * I.N) :
    fullA I.N I.mu0 A i j = I.coefA m l i j + if i = j then 1 / I.mu0 else 0 := by
  unfold fullA GenIn.coefA
  simp only [setBlock]
  congr 1
  by_cases h1 : i < I.N
  · by_cases h2 : j < I.N
    · have := (hA i h1 j h2).1
      simp [h1, h2, this]
    · have h3 : j < I.N + I.N := by omega
      have := (hA i h1 (j - I.N) (by omega)).2
      simp [h1, h2, hj, this, not_lt.mp h2]
  · by_cases h2 : j < I.N
    · have := (hA (i - I.N) (by omega) j h2).2
      rw [show I.N + (i - I.N) = i by omega] at this
      simp [h1, h2, this]
    · have := (hA (i - I.N) (by omega) (j - I.N) (by omega)).1
      rw [show I.N + (i - I.N) = i by omega, show I.N + (j - I.N) = j by omega] at this
      simp [h1, h2, this]

/-- `genSol` returns what is needed, provided `eig` did its job on the slots with scattering and no
eigenvalue is resonant with the beam (used only by the isotropic-source path, lines 213-222). -/
theorem eig_of_spec {E : Ext} {I : GenIn} {out : GenOut} (h : GenSpec E I out)
    (hE : ∀ m < I.NFourier, ∀ l < I.NLayers, I.scatters m l → I.EigOK E m l) :
    ∀ m < I.NFourier, ∀ l < I.NLayers, ∀ i < 2 * I.N, ∀ j < 2 * I.N,
      mulVec (2 * I.N) (I.effA m l) (fun q => out.G m l q j) i = out.K m l j * out.G m l i j := by
  intro m hm l hl i hi j hj
  unfold GenIn.effA
  by_cases hs : I.scatters m l
  · rw [if_pos hs]
    obtain ⟨h1, h2⟩ := h.scatG m hm l hl hs
    rw [h2, h1 i hi j hj, ← scat_eigen (hE m hm l hl hs) hi hj]
    unfold mulVec
    exact sum_congr rfl fun q hq => by simp only [h1 q (mem_range.mp hq) j hj]
  · rw [if_neg hs]
    obtain ⟨h1, h2, _⟩ := h.trivG m hm l hl hs
    rw [h1, h2]; exact triv_eigen _ hi hj

theorem slotOK_of_spec {E : Ext} {I : GenIn} {out : GenOut} (hF : 0 < I.NFourier) (h : GenSpec E I out)
    (hE : ∀ m < I.NFourier, ∀ l < I.NLayers, I.scatters m l → I.EigOK E m l)
    (hres : I.beam = true → I.iso = true → ∀ l < I.NLayers, I.scatters 0 l →
      ∀ j < 2 * I.N, 1 / I.mu0 + out.K 0 l j ≠ 0) :
    SlotOK I out := by
  have heig := eig_of_spec h hE
  have hinv : I.iso = true → ∀ l < I.NLayers, ∀ i < 2 * I.N, ∀ j < 2 * I.N,
      ∑ q ∈ range (2 * I.N), out.G 0 l i q * out.Ginv0 l q j = if i = j then 1 else 0 := by
    intro hiso l hl i hi j hj
    obtain ⟨h1, h2⟩ := h.ginv hiso l hl
    by_cases hs : I.scatters 0 l
    · obtain ⟨h3, h4⟩ := h2 hs
      have h5 : toM (2 * I.N) (out.G 0 l) * toM (2 * I.N) (out.Ginv0 l) = 1 := by
        rw [h4]; exact Matrix.mul_nonsing_inv _ (isUnit_iff_ne_zero.mpr h3)
      have h6 := congrFun (congrFun h5 ⟨i, hi⟩) ⟨j, hj⟩
      rw [Matrix.mul_apply, Matrix.one_apply] at h6
      simp only [toM, Fin.mk.injEq] at h6
      rw [← h6, Finset.sum_range]
    · rw [h1 hs, (h.trivG 0 hF l hl hs).1]
      exact gTrivial_sq hi hj
  refine ⟨heig, hinv, ?_⟩
  intro hb m hm l hl i hi
  by_cases hs : I.scatters m l
  · have hX : I.effX m l = I.Xrow m l := by simp [GenIn.effX, hs]
    rw [hX]
    by_cases hc : m = 0 ∧ I.iso = true
    · obtain ⟨hm0, hiso⟩ := hc
      subst hm0
      have hB := h.beamIso hb hiso l hl hs
      set y : Vec := fun j => (∑ q ∈ range (2 * I.N), out.Ginv0 l j q * I.Xrow 0 l q)
        / (1 / I.mu0 + out.K 0 l j) with hy
      have hBy : ∀ a, out.B 0 l a = ∑ j ∈ range (2 * I.N), out.G 0 l a j * y j := by
        intro a
        rw [hB]
        refine sum_congr rfl fun j _ => ?_
        rw [hy]; simp only
        rw [sum_div, mul_sum]
        exact sum_congr rfl fun q _ => by ring
      have hAB : mulVec (2 * I.N) (I.effA 0 l) (out.B 0 l) i
          = ∑ j ∈ range (2 * I.N), out.K 0 l j * out.G 0 l i j * y j := by
        unfold mulVec
        simp_rw [hBy, mul_sum]
        rw [sum_comm]
        refine sum_congr rfl fun j hj => ?_
        rw [← heig 0 hm l hl i hi j (mem_range.mp hj)]
        unfold mulVec
        rw [sum_mul]
        exact sum_congr rfl fun q _ => by ring
      rw [hAB, hBy, sum_div, ← sum_add_distrib]
      have e : ∀ j ∈ range (2 * I.N), out.K 0 l j * out.G 0 l i j * y j + out.G 0 l i j * y j / I.mu0
          = ∑ q ∈ range (2 * I.N), out.G 0 l i j * out.Ginv0 l j q * I.Xrow 0 l q := by
        intro j hj
        have hr := hres hb hiso l hl hs j (mem_range.mp hj)
        have : y j * (1 / I.mu0 + out.K 0 l j) = ∑ q ∈ range (2 * I.N), out.Ginv0 l j q * I.Xrow 0 l q := by
          rw [hy]; simp only; rw [div_mul_cancel₀ _ hr]
        calc _ = out.G 0 l i j * (y j * (1 / I.mu0 + out.K 0 l j)) := by ring
          _ = _ := by rw [this, mul_sum]; exact sum_congr rfl fun q _ => by ring
      rw [sum_congr rfl e, sum_comm]
      simp_rw [← sum_mul]
      rw [sum_eq_single i]
      · rw [hinv hiso l hl i hi i hi]; simp
      · intro b hb' hne
        rw [hinv hiso l hl i hi b (mem_range.mp hb')]; simp [Ne.symm hne]
      · intro hn; exact absurd (mem_range.mpr hi) hn
    · obtain ⟨A, hA, _, hsol⟩ := h.beamSolve hb m hm l hl hs hc
      rw [← hsol i hi]
      have : I.effA m l = I.coefA m l := by simp [GenIn.effA, hs]
      rw [this]
      unfold mulVec
      have e : ∀ j ∈ range (2 * I.N), fullA I.N I.mu0 A i j * out.B m l j
          = I.coefA m l i j * out.B m l j + (if i = j then 1 / I.mu0 else 0) * out.B m l j := by
        intro j hj; rw [fullA_eq hA hi (mem_range.mp hj)]; ring
      rw [sum_congr rfl e, sum_add_distrib]
      congr 1
      simp [hi]; ring
  · have hB := (h.trivG m hm l hl hs).2.2
    simp [GenIn.effX, hs, hB, mulVec]

end Pydisort

import Verif.NumPyLemmas
import Verif.Model.GenSol

/-! Helper lemmas: what the loops and the gather/scatter bookkeeping of
`_solve_for_gen_and_part_sols` leave in each `(m, l)` slot. -/

namespace Pydisort
open Classical

section
variable (I : GenIn)

/-- Does flattened slot `i` hold a scattering layer/mode? -/
def slotScat (i : ℕ) : Prop := I.scatters (i / I.NLayers) (i % I.NLayers)

/-- Loop invariant after `c` iterations of the flattened double loop. -/
structure GenInv (c : ℕ) (s : GenState) : Prop where
  ind : s.ind = c
  ns : s.ns = (List.range c).filter (fun i => decide (slotScat I i))
  ns0 : s.ns0 = if I.iso = true then (List.range (min c I.NLayers)).filter
    (fun l => decide (I.scatters 0 l)) else []
  triv : ∀ i < c, ¬ slotScat I i → s.G i = gTrivial I.N ∧ s.K i = kTrivial I.N I.M_inv
  scat : ∀ i < c, slotScat I i →
    (∀ a < I.N, ∀ b < I.N, s.A i (I.N + a) (I.N + b) = I.alpha (i / I.NLayers) (i % I.NLayers) a b ∧
      s.A i (I.N + a) b = I.beta (i / I.NLayers) (i % I.NLayers) a b)
  scatX : ∀ i < c, slotScat I i → I.beam = true → s.X i = I.Xrow (i / I.NLayers) (i % I.NLayers)
  ginv : I.iso = true → ∀ l < min c I.NLayers, ¬ I.scatters 0 l → s.Ginv0 l = gTrivial I.N

theorem genInv_init (junk : GenState) : GenInv I 0 (genInit junk) := by
  constructor <;> simp [genInit]

theorem genInv_step {m l : ℕ} (hl : l < I.NLayers) {s : GenState}
    (h : GenInv I (m * I.NLayers + l) s) : GenInv I (m * I.NLayers + l + 1) (genBody I m l s) := by
  have hdiv : (m * I.NLayers + l) / I.NLayers = m := by
    rw [mul_comm, Nat.mul_add_div (by omega), Nat.div_eq_of_lt hl, Nat.add_zero]
  have hmod : (m * I.NLayers + l) % I.NLayers = l := by
    rw [mul_comm, Nat.mul_add_mod, Nat.mod_eq_of_lt hl]
  have hslot : slotScat I (m * I.NLayers + l) ↔ I.scatters m l := by
    unfold slotScat; rw [hdiv, hmod]
  set c := m * I.NLayers + l with hc
  have hm0 : m = 0 → c = l := by rintro rfl; simp [hc]
  have hm1 : m ≠ 0 → min c I.NLayers = I.NLayers ∧ min (c + 1) I.NLayers = I.NLayers := by
    intro hm
    have : I.NLayers ≤ m * I.NLayers := Nat.le_mul_of_pos_left _ (Nat.pos_of_ne_zero hm)
    omega
  by_cases hs : I.scatters m l
  · constructor
    · simp [genBody, hs, h.ind]
    · simp [genBody, hs, h.ns, h.ind, List.range_succ, hslot]
    · by_cases hiso : I.iso = true
      · by_cases hm : m = 0
        · have := hm0 hm
          have h1 : min l I.NLayers = l := by omega
          have h2 : min (l + 1) I.NLayers = l + 1 := by omega
          subst hm
          simp [genBody, hs, h.ns0, hiso, this, h1, h2, List.range_succ]
        · obtain ⟨h1, h2⟩ := hm1 hm
          simp [genBody, hs, h.ns0, hiso, h1, h2, hm]
      · simp [genBody, hs, h.ns0, hiso]
    · intro i hi hni
      have hne : i ≠ c := by rintro rfl; exact hni (hslot.mpr hs)
      simpa [genBody, hs] using h.triv i (by omega) hni
    · intro i hi hsi a ha b hb
      by_cases hic : i = c
      · subst hic
        rw [hdiv, hmod]
        have h1 : ¬ (I.N ≤ b) := by omega
        simp [genBody, hs, h.ind, setBlock, hb, h1]
        omega
      · have := h.scat i (by omega) hsi a ha b hb
        simpa [genBody, hs, h.ind, Function.update_of_ne hic] using this
    · intro i hi hsi hb
      by_cases hic : i = c
      · subst hic
        rw [hdiv, hmod]
        simp [genBody, hs, h.ind, hb]
      · have := h.scatX i (by omega) hsi hb
        simpa [genBody, hs, h.ind, hb, Function.update_of_ne hic] using this
    · intro hiso l' hl' hns
      have : (genBody I m l s).Ginv0 = s.Ginv0 := by simp [genBody, hs]
      rw [this]
      apply h.ginv hiso l' _ hns
      by_cases hm : m = 0
      · have h0 := hm0 hm
        have : l' ≠ l := by rintro rfl; subst hm; exact hns hs
        omega
      · obtain ⟨h1, h2⟩ := hm1 hm
        omega
  · constructor
    · simp [genBody, hs, h.ind]
    · simp [genBody, hs, h.ns, List.range_succ, hslot]
    · by_cases hiso : I.iso = true
      · by_cases hm : m = 0
        · have := hm0 hm
          have h1 : min l I.NLayers = l := by omega
          have h2 : min (l + 1) I.NLayers = l + 1 := by omega
          subst hm
          simp [genBody, hs, h.ns0, hiso, this, h1, h2, List.range_succ]
        · obtain ⟨h1, h2⟩ := hm1 hm
          simp [genBody, hs, h.ns0, hiso, h1, h2]
      · simp [genBody, hs, h.ns0, hiso]
    · intro i hi hni
      by_cases hic : i = c
      · subst hic
        simp [genBody, hs, h.ind]
      · have := h.triv i (by omega) hni
        simpa [genBody, hs, h.ind, Function.update_of_ne hic] using this
    · intro i hi hsi
      have hne : i ≠ c := by rintro rfl; exact hs (hslot.mp hsi)
      simpa [genBody, hs] using h.scat i (by omega) hsi
    · intro i hi hsi hb
      have hne : i ≠ c := by rintro rfl; exact hs (hslot.mp hsi)
      simpa [genBody, hs] using h.scatX i (by omega) hsi hb
    · intro hiso l' hl' hns
      by_cases hm : m = 0
      · have h0 := hm0 hm
        by_cases hll : l' = l
        · subst hll
          subst hm
          simp [genBody, hs, hiso]
        · have := h.ginv hiso l' (by omega) hns
          subst hm
          simpa [genBody, hs, hiso, Function.update_of_ne hll] using this
      · obtain ⟨h1, h2⟩ := hm1 hm
        have := h.ginv hiso l' (by omega) hns
        simpa [genBody, hs, hm, hiso] using this

theorem genInv_loop (junk : GenState) :
    GenInv I (I.NFourier * I.NLayers) (genLoop I (genInit junk)) := by
  unfold genLoop
  refine forRange_inv (fun m s => GenInv I (m * I.NLayers) s) ?_ ?_
  · simpa using genInv_init I junk
  · intro m hm s hs
    have := forRange_inv (fun l s => GenInv I (m * I.NLayers + l) s) (n := I.NLayers)
      (f := fun l s => genBody I m l s) (s := s) (by simpa using hs)
      (fun l hl s h => genInv_step I hl h)
    simpa [Nat.succ_mul] using this

end

/-- Entries of `gBlocks`. -/
theorem gBlocks_apply (N : ℕ) (P M old : Mat) {i j : ℕ} (hi : i < 2 * N) (hj : j < 2 * N) :
    gBlocks N P M old i j =
      if i < N then (if j < N then P i j + M i j else P i (j - N) - M i (j - N))
      else (if j < N then P (i - N) j - M (i - N) j else P (i - N) (j - N) + M (i - N) (j - N)) := by
  unfold gBlocks setBlock
  split_ifs <;> first | rfl | (exfalso; omega)

theorem gTrivial_apply {N i j : ℕ} (hi : i < 2 * N) (hj : j < 2 * N) :
    gTrivial N i j = if i + N = j ∨ j + N = i then 1 else 0 := by
  unfold gTrivial
  congr 1
  apply propext
  have hN : 0 < 2 * N := by omega
  have key : ∀ a b c d : ℕ, b < 2 * N → d < 2 * N → (a * (2 * N) + b = c * (2 * N) + d ↔ a = c ∧ b = d) := by
    intro a b c d hb hd
    constructor
    · intro h
      have h1 : (a * (2 * N) + b) / (2 * N) = (c * (2 * N) + d) / (2 * N) := by rw [h]
      rw [mul_comm a, mul_comm c, Nat.mul_add_div hN, Nat.mul_add_div hN, Nat.div_eq_of_lt hb,
        Nat.div_eq_of_lt hd] at h1
      have h2 : a = c := by simpa using h1
      subst h2
      exact ⟨rfl, by omega⟩
    · rintro ⟨rfl, rfl⟩; rfl
  constructor
  · rintro (⟨t, ht, h⟩ | ⟨t, ht, h⟩)
    · have h' : i * (2 * N) + j = t * (2 * N) + (N + t) := by rw [h]; ring
      rw [key _ _ _ _ hj (by omega)] at h'
      omega
    · have h' : i * (2 * N) + j = (N + t) * (2 * N) + t := by rw [h]; ring
      rw [key _ _ _ _ hj (by omega)] at h'
      omega
  · rintro (h | h)
    · left
      refine ⟨i, by omega, ?_⟩
      rw [← h]; ring
    · right
      refine ⟨j, by omega, ?_⟩
      rw [← h]; ring

namespace GenIn
variable (I : GenIn)
/-- `alpha + beta` of slot `(m, l)`. -/
noncomputable def apb (m l : ℕ) : Mat := fun i j => I.alpha m l i j + I.beta m l i j
/-- `alpha - beta` of slot `(m, l)`. -/
noncomputable def amb (m l : ℕ) : Mat := fun i j => I.alpha m l i j - I.beta m l i j
/-- The reduced eigenproblem of slot `(m, l)`. -/
noncomputable def ev (E : Ext) (m l : ℕ) : Vec × Mat :=
  E.eig I.N (toM I.N (matMul I.N (I.amb m l) (I.apb m l)))
/-- Eigenvector matrix of a scattering slot. -/
noncomputable def gScat (E : Ext) (m l : ℕ) : Mat :=
  gBlocks I.N (gpg (I.ev E m l).2) (gmg I.N (I.apb m l) (I.ev E m l).1 (I.ev E m l).2) (fun _ _ => 0)
end GenIn

/-- What `genSol` returns, slot by slot. -/
structure GenSpec (E : Ext) (I : GenIn) (out : GenOut) : Prop where
  trivG : ∀ m < I.NFourier, ∀ l < I.NLayers, ¬ I.scatters m l →
    out.G m l = gTrivial I.N ∧ out.K m l = kTrivial I.N I.M_inv ∧ out.B m l = fun _ => 0
  scatG : ∀ m < I.NFourier, ∀ l < I.NLayers, I.scatters m l →
    (∀ i < 2 * I.N, ∀ j < 2 * I.N, out.G m l i j = I.gScat E m l i j) ∧
    out.K m l = eigK I.N (I.ev E m l).1
  ginv : I.iso = true → ∀ l < I.NLayers,
    (¬ I.scatters 0 l → out.Ginv0 l = gTrivial I.N) ∧
    (I.scatters 0 l → (toM (2 * I.N) (out.G 0 l)).det ≠ 0 ∧
      toM (2 * I.N) (out.Ginv0 l) = (toM (2 * I.N) (out.G 0 l))⁻¹)
  beamIso : I.beam = true → I.iso = true → ∀ l < I.NLayers, I.scatters 0 l →
    out.B 0 l = fun i => ∑ j ∈ Finset.range (2 * I.N), ∑ q ∈ Finset.range (2 * I.N),
      out.G 0 l i j / (1 / I.mu0 + out.K 0 l j) * out.Ginv0 l j q * I.Xrow 0 l q
  beamSolve : I.beam = true → ∀ m < I.NFourier, ∀ l < I.NLayers, I.scatters m l →
    ¬ (m = 0 ∧ I.iso = true) →
    ∃ A : Mat, (∀ a < I.N, ∀ b < I.N, A (I.N + a) (I.N + b) = I.alpha m l a b ∧
        A (I.N + a) b = I.beta m l a b) ∧
      (toM (2 * I.N) (fullA I.N I.mu0 A)).det ≠ 0 ∧
      ∀ i < 2 * I.N, mulVec (2 * I.N) (fullA I.N I.mu0 A) (out.B m l) i = I.Xrow m l i


theorem genInv_filter_split (I : GenIn) (hF : 0 < I.NFourier) :
    (List.range (I.NFourier * I.NLayers)).filter (fun i => decide (slotScat I i))
      = (List.range I.NLayers).filter (fun l => decide (I.scatters 0 l))
        ++ ((List.range ((I.NFourier - 1) * I.NLayers)).map (fun i => I.NLayers + i)).filter
            (fun i => decide (slotScat I i)) := by
  have : I.NFourier * I.NLayers = I.NLayers + (I.NFourier - 1) * I.NLayers := by
    obtain ⟨k, hk⟩ : ∃ k, I.NFourier = k + 1 := ⟨I.NFourier - 1, by omega⟩
    rw [hk]; simp; ring
  rw [this, List.range_add, List.filter_append]
  congr 1
  apply List.filter_congr
  intro l hl
  rw [List.mem_range] at hl
  simp [slotScat, Nat.div_eq_of_lt hl, Nat.mod_eq_of_lt hl]

theorem genSol_spec {E : Ext} {junk : GenState} {I : GenIn} {out : GenOut} (hF : 0 < I.NFourier)
    (h : genSol E junk I = .ok out) : GenSpec E I out := by
  unfold genSol at h
  have inv := genInv_loop I junk
  set s := genLoop I (genInit junk) with hs
  clear_value s
  -- slots
  have slot : ∀ m < I.NFourier, ∀ l < I.NLayers, m * I.NLayers + l < I.NFourier * I.NLayers ∧
      (slotScat I (m * I.NLayers + l) ↔ I.scatters m l) ∧ (m * I.NLayers + l) / I.NLayers = m ∧
      (m * I.NLayers + l) % I.NLayers = l := by
    intro m hm l hl
    have hdiv : (m * I.NLayers + l) / I.NLayers = m := by
      rw [mul_comm, Nat.mul_add_div (by omega), Nat.div_eq_of_lt hl, Nat.add_zero]
    have hmod : (m * I.NLayers + l) % I.NLayers = l := by
      rw [mul_comm, Nat.mul_add_mod, Nat.mod_eq_of_lt hl]
    refine ⟨?_, ?_, hdiv, hmod⟩
    · have : (m + 1) * I.NLayers ≤ I.NFourier * I.NLayers := Nat.mul_le_mul_right _ hm
      rw [Nat.succ_mul] at this; omega
    · unfold slotScat; rw [hdiv, hmod]
  have hnd : s.ns.Nodup := by rw [inv.ns]; exact (List.nodup_range).filter _
  have hmem : ∀ i, i ∈ s.ns ↔ i < I.NFourier * I.NLayers ∧ slotScat I i := by
    intro i; rw [inv.ns]; simp
  unfold genFinish at h
  by_cases hlen : s.ns.length > 0
  swap
  · -- no scattering anywhere
    simp only [hlen, if_false, pure, Except.pure, Except.ok.injEq] at h
    subst h
    have hnil : s.ns = [] := by
      rcases hs' : s.ns with _ | _
      · rfl
      · rw [hs'] at hlen; simp at hlen
    have none : ∀ m < I.NFourier, ∀ l < I.NLayers, ¬ I.scatters m l := by
      intro m hm l hl hsc
      obtain ⟨h1, h2, _, _⟩ := slot m hm l hl
      have := (hmem (m * I.NLayers + l)).mpr ⟨h1, h2.mpr hsc⟩
      rw [hnil] at this; simp at this
    constructor
    · intro m hm l hl hns
      obtain ⟨h1, h2, _, _⟩ := slot m hm l hl
      have := inv.triv _ h1 (fun h => hns (h2.mp h))
      exact ⟨this.1, this.2, rfl⟩
    · exact fun m hm l hl hsc => absurd hsc (none m hm l hl)
    · intro hiso l hl
      refine ⟨fun hns => inv.ginv hiso l ?_ hns, fun hsc => absurd hsc (none 0 hF l hl)⟩
      have : I.NLayers ≤ I.NFourier * I.NLayers := Nat.le_mul_of_pos_left _ hF
      omega
    · exact fun _ _ l hl hsc => absurd hsc (none 0 hF l hl)
    · exact fun _ m hm l hl hsc => absurd hsc (none m hm l hl)
  -- some scattering
  simp only [hlen, if_true] at h
  set G := finG E I.N s with hG
  set K := finK E I.N s with hK
  rcases hgi : finGinv I.N G s with e | Ginv0
  · rw [hgi] at h; cases h
  rw [hgi] at h
  have hgetns : ∀ k < s.ns.length, s.ns.getD k 0 < I.NFourier * I.NLayers ∧ slotScat I (s.ns.getD k 0) := by
    intro k hk
    have := (hmem (s.ns.getD k 0)).mp (by rw [getD_lt _ _ hk]; exact List.getElem_mem hk)
    exact this
  have hfind : ∀ i, i < I.NFourier * I.NLayers → slotScat I i → ∃ k, ∃ hk : k < s.ns.length, s.ns[k] = i := by
    intro i hi hsl
    exact List.getElem_of_mem ((hmem i).mpr ⟨hi, hsl⟩)
  have hGt : ∀ i < I.NFourier * I.NLayers, ¬ slotScat I i → G i = gTrivial I.N ∧ K i = kTrivial I.N I.M_inv := by
    intro i hi hn
    have hni : i ∉ s.ns := fun h => hn ((hmem i).mp h).2
    rw [hG, hK, finG, finK, scatter_not_mem _ _ _ _ hni, scatter_not_mem _ _ _ _ hni]
    exact inv.triv i hi hn
  -- the ns0 list
  have hmin : min (I.NFourier * I.NLayers) I.NLayers = I.NLayers := by
    have : I.NLayers ≤ I.NFourier * I.NLayers := Nat.le_mul_of_pos_left _ hF
    omega
  have hns0 := inv.ns0
  rw [hmin] at hns0
  have hnd0 : s.ns0.Nodup := by
    rw [hns0]; split_ifs
    · exact (List.nodup_range).filter _
    · exact List.nodup_nil
  have hmem0 : ∀ l, l ∈ s.ns0 ↔ I.iso = true ∧ l < I.NLayers ∧ I.scatters 0 l := by
    intro l; rw [hns0]; split_ifs with hiso <;> simp [hiso]
  -- Ginv0
  have hGinv : I.iso = true → ∀ l < I.NLayers,
      (¬ I.scatters 0 l → Ginv0 l = gTrivial I.N) ∧
      (I.scatters 0 l → (toM (2 * I.N) (G l)).det ≠ 0 ∧
        toM (2 * I.N) (Ginv0 l) = (toM (2 * I.N) (G l))⁻¹) := by
    intro hiso l hl
    unfold finGinv at hgi
    by_cases h0 : s.ns0.length > 0
    · simp only [h0, if_true] at hgi
      rcases hinv : npInvBatch s.ns0.length (2 * I.N) (fun k => G (s.ns0.getD k 0)) with e | x
      · rw [hinv] at hgi; cases hgi
      rw [hinv] at hgi
      have hgi' : Ginv0 = scatter s.ns0 x s.Ginv0 := by cases hgi; rfl
      have hok := npInvBatch_ok hinv
      constructor
      · intro hn
        rw [hgi', scatter_not_mem _ _ _ _ (fun h => hn ((hmem0 l).mp h).2.2)]
        exact inv.ginv hiso l (by omega) hn
      · intro hsc
        obtain ⟨k, hk, hkl⟩ := List.getElem_of_mem ((hmem0 l).mpr ⟨hiso, hl, hsc⟩)
        have h1 := hok k hk
        rw [getD_lt _ _ hk, hkl] at h1
        refine ⟨h1.1, ?_⟩
        rw [← h1.2, hgi', ← hkl, scatter_getElem _ hnd0]
    · simp only [h0, if_false] at hgi
      have hgi' : Ginv0 = s.Ginv0 := by cases hgi; rfl
      constructor
      · intro hn; rw [hgi']; exact inv.ginv hiso l (by omega) hn
      · intro hsc
        exact absurd (List.length_pos_of_mem ((hmem0 l).mpr ⟨hiso, hl, hsc⟩)) h0
  -- finNs
  have hfin : finNs s = s.ns.drop s.ns0.length := by
    unfold finNs; split_ifs with h0
    · rfl
    · have : s.ns0.length = 0 := by omega
      rw [this, List.drop_zero]
  have hmemN : ∀ i, i ∈ finNs s ↔ i < I.NFourier * I.NLayers ∧ slotScat I i ∧ ¬ (I.iso = true ∧ i < I.NLayers) := by
    intro i
    rw [hfin]
    by_cases hiso : I.iso = true
    · have hsplit := genInv_filter_split I hF
      rw [← inv.ns] at hsplit
      rw [hns0, if_pos hiso, hsplit, List.drop_left]
      simp only [List.mem_filter, List.mem_map, List.mem_range, decide_eq_true_eq, hiso, true_and]
      have hNF : I.NFourier * I.NLayers = I.NLayers + (I.NFourier - 1) * I.NLayers := by
        obtain ⟨k, hk⟩ : ∃ k, I.NFourier = k + 1 := ⟨I.NFourier - 1, by omega⟩
        rw [hk]; simp; ring
      constructor
      · rintro ⟨⟨a, ha, rfl⟩, h2⟩
        exact ⟨by omega, h2, by omega⟩
      · rintro ⟨h1, h2, h3⟩
        exact ⟨⟨i - I.NLayers, by omega, by omega⟩, h2⟩
    · rw [hns0, if_neg hiso]
      simp only [List.length_nil, List.drop_zero, hmem, hiso, Bool.false_eq_true, false_and, not_false_eq_true, and_true]
  have hndN : (finNs s).Nodup := by rw [hfin]; exact hnd.sublist (List.drop_sublist _ _)
  -- B
  obtain ⟨B, hB, hout⟩ : ∃ B, finBeam I G K Ginv0 s = Except.ok B ∧
      out = genReshape I.NLayers G K B Ginv0 := by
    rcases hB : finBeam I G K Ginv0 s with e | B
    · simp only [bind, Except.bind, hB] at h; cases h
    · refine ⟨B, rfl, ?_⟩
      simp only [bind, Except.bind, hB] at h; cases h; rfl
  unfold finBeam at hB
  have hB1out : ∀ i, i ∉ s.ns0 → finB1 I.N I.mu0 G K Ginv0 s i = fun _ => 0 := by
    intro i hi
    unfold finB1
    split_ifs
    · rw [scatter_not_mem _ _ _ _ hi]
    · rfl
  have hBcases : I.beam = true →
      (∀ i, i ∉ finNs s → B i = finB1 I.N I.mu0 G K Ginv0 s i) ∧
      (∀ k, ∀ hk : k < (finNs s).length,
        (toM (2 * I.N) (fullA I.N I.mu0 (s.A (finNs s)[k]))).det ≠ 0 ∧
        ∀ i < 2 * I.N, mulVec (2 * I.N) (fullA I.N I.mu0 (s.A (finNs s)[k])) (B (finNs s)[k]) i
          = s.X (finNs s)[k] i) := by
    intro hb
    rw [if_pos hb] at hB
    unfold finB at hB
    by_cases h0 : (finNs s).length > 0
    · simp only [h0, if_true] at hB
      rcases hx : npSolveBatch (finNs s).length (2 * I.N)
        (fun k => fullA I.N I.mu0 (batchA s (s.ns0.length + k))) (fun k => s.X ((finNs s).getD k 0)) with e | x
      · rw [hx] at hB; cases hB
      rw [hx] at hB
      have hB' : B = scatter (finNs s) x (finB1 I.N I.mu0 G K Ginv0 s) := by cases hB; rfl
      refine ⟨fun i hi => by rw [hB', scatter_not_mem _ _ _ _ hi], fun k hk => ?_⟩
      have := npSolveBatch_ok hx k hk
      have hA : batchA s (s.ns0.length + k) = s.A (finNs s)[k] := by
        unfold batchA
        congr 1
        have h2 : s.ns0.length + k < s.ns.length := by
          rw [hfin, List.length_drop] at hk; omega
        rw [getD_lt _ _ h2]
        simp only [hfin, List.getElem_drop]
      rw [hA, getD_lt _ _ hk] at this
      rw [hB', scatter_getElem _ hndN]
      exact this
    · simp only [h0, if_false] at hB
      have hB' : B = finB1 I.N I.mu0 G K Ginv0 s := by cases hB; rfl
      exact ⟨fun i _ => by rw [hB'], fun k hk => absurd (by omega) h0⟩
  subst hout
  constructor
  · intro m hm l hl hns
    obtain ⟨h1, h2, _, _⟩ := slot m hm l hl
    have hns' : ¬ slotScat I (m * I.NLayers + l) := fun h => hns (h2.mp h)
    refine ⟨(hGt _ h1 hns').1, (hGt _ h1 hns').2, ?_⟩
    show B (m * I.NLayers + l) = _
    by_cases hb : I.beam = true
    · rw [(hBcases hb).1 _ (fun h => hns' ((hmemN _).mp h).2.1)]
      apply hB1out
      intro h
      rw [hmem0] at h
      apply hns'
      rw [slotScat, Nat.div_eq_of_lt h.2.1, Nat.mod_eq_of_lt h.2.1]; exact h.2.2
    · rw [if_neg hb] at hB; cases hB; rfl
  · intro m hm l hl hsc
    obtain ⟨h1, h2, h3, h4⟩ := slot m hm l hl
    obtain ⟨k, hk, hki⟩ := hfind _ h1 (h2.mpr hsc)
    have hbA : batchA s k = s.A (m * I.NLayers + l) := by
      unfold batchA; rw [getD_lt _ _ hk, hki]
    have hab := inv.scat _ h1 (h2.mpr hsc)
    rw [h3, h4] at hab
    have hapb : ∀ a < I.N, ∀ b < I.N, batchApb I.N s k a b = I.apb m l a b := by
      intro a ha b hb
      rw [batchApb, hbA, GenIn.apb, (hab a ha b hb).1, (hab a ha b hb).2]
    have hamb : ∀ a < I.N, ∀ b < I.N, batchAmb I.N s k a b = I.amb m l a b := by
      intro a ha b hb
      rw [batchAmb, hbA, GenIn.amb, (hab a ha b hb).1, (hab a ha b hb).2]
    have hev : batchEig E I.N s k = I.ev E m l := by
      unfold batchEig GenIn.ev
      congr 1
      ext i j
      simp only [toM, matMul]
      refine Finset.sum_congr rfl fun q hq => ?_
      rw [Finset.mem_range] at hq
      rw [hapb q hq j j.2, hamb i i.2 q hq]
    have hgm : ∀ a < I.N, ∀ b, gmg I.N (batchApb I.N s k) (I.ev E m l).1 (I.ev E m l).2 a b
        = gmg I.N (I.apb m l) (I.ev E m l).1 (I.ev E m l).2 a b := by
      intro a ha b
      simp only [gmg, matMul]
      refine Finset.sum_congr rfl fun q hq => ?_
      rw [Finset.mem_range] at hq
      rw [hapb a ha q hq]
    constructor
    · intro i hi j hj
      show G (m * I.NLayers + l) i j = _
      rw [hG, finG, ← hki, scatter_getElem _ hnd, GenIn.gScat, gBlocks_apply _ _ _ _ hi hj,
        gBlocks_apply _ _ _ _ hi hj, hev]
      split_ifs with h5 h6 h6
      · rw [hgm _ h5]
      · rw [hgm _ h5]
      · rw [hgm _ (by omega)]
      · rw [hgm _ (by omega)]
    · show K (m * I.NLayers + l) = _
      rw [hK, finK, ← hki, scatter_getElem _ hnd, hev]
  · intro hiso l hl
    have := hGinv hiso l hl
    simpa [genReshape] using this
  · intro hb hiso l hl hsc
    have hl0 : l ∈ s.ns0 := (hmem0 l).mpr ⟨hiso, hl, hsc⟩
    have hlN : l ∉ finNs s := fun h => ((hmemN l).mp h).2.2 ⟨hiso, hl⟩
    have e1 : B l = finB1 I.N I.mu0 G K Ginv0 s l := (hBcases hb).1 l hlN
    have hX : s.X l = I.Xrow 0 l := by
      have := inv.scatX l (by omega) (by
        rw [slotScat, Nat.div_eq_of_lt hl, Nat.mod_eq_of_lt hl]; exact hsc) hb
      rwa [Nat.div_eq_of_lt hl, Nat.mod_eq_of_lt hl] at this
    obtain ⟨k, hk, hkl⟩ := List.getElem_of_mem hl0
    simp only [genReshape, Nat.zero_mul, Nat.zero_add]
    rw [e1, finB1, if_pos (by omega)]
    funext i
    have e2 := congrFun (scatter_getElem s.ns0 hnd0 (fun k i => ∑ j ∈ Finset.range (2 * I.N),
      ∑ q ∈ Finset.range (2 * I.N), G (s.ns0.getD k 0) i j / (1 / I.mu0 + K (s.ns0.getD k 0) j)
        * Ginv0 (s.ns0.getD k 0) j q * s.X (s.ns0.getD k 0) q) (fun _ _ => 0) k hk) i
    rw [hkl] at e2
    rw [e2]
    simp only [getD_lt _ _ hk, hkl, hX]
  · intro hb m hm l hl hsc hni
    obtain ⟨h1, h2, h3, h4⟩ := slot m hm l hl
    have hN : m * I.NLayers + l ∈ finNs s := by
      rw [hmemN]
      refine ⟨h1, h2.mpr hsc, ?_⟩
      rintro ⟨hiso, hlt⟩
      apply hni
      refine ⟨?_, hiso⟩
      by_contra hm0
      have : I.NLayers ≤ m * I.NLayers := Nat.le_mul_of_pos_left _ (Nat.pos_of_ne_zero hm0)
      omega
    obtain ⟨k, hk, hki⟩ := List.getElem_of_mem hN
    have := (hBcases hb).2 k hk
    rw [hki] at this
    refine ⟨s.A (m * I.NLayers + l), ?_, this.1, ?_⟩
    · intro a ha b hb
      have := inv.scat _ h1 (h2.mpr hsc) a ha b hb
      rwa [h3, h4] at this
    · intro i hi
      have hX := inv.scatX _ h1 (h2.mpr hsc) hb
      rw [h3, h4] at hX
      rw [← hX]
      exact this.2 i hi

end Pydisort

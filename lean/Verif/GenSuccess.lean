import Verif.SlotLemmas

/-! When `_solve_for_gen_and_part_sols` raises no exception. -/

namespace Pydisort
open Finset

/-- `genSol` raises only through a singular eigenvector matrix (isotropic source) or a singular beam system. -/
theorem genSol_isOk {E : Ext} {junk : GenState} {I : GenIn} (hF : 0 < I.NFourier)
    (h1 : I.iso = true → ∀ l < I.NLayers, I.scatters 0 l → (toM (2 * I.N) (I.gScat E 0 l)).det ≠ 0)
    (h2 : I.beam = true → ∀ m < I.NFourier, ∀ l < I.NLayers, I.scatters m l → ¬ (m = 0 ∧ I.iso = true) →
      (toM (2 * I.N) (fun i j => I.coefA m l i j + if i = j then 1 / I.mu0 else 0)).det ≠ 0) :
    ∃ out, genSol E junk I = .ok out := by
  unfold genSol
  have inv := genInv_loop I junk
  set s := genLoop I (genInit junk) with hs
  clear_value s
  have hmem : ∀ i, i ∈ s.ns ↔ i < I.NFourier * I.NLayers ∧ slotScat I i := by
    intro i; rw [inv.ns]; simp
  have hnd : s.ns.Nodup := by rw [inv.ns]; exact (List.nodup_range).filter _
  unfold genFinish
  by_cases hlen : s.ns.length > 0
  swap
  · rw [if_neg hlen]; exact ⟨_, rfl⟩
  simp only [hlen, if_true]
  have hmin : min (I.NFourier * I.NLayers) I.NLayers = I.NLayers := by
    have : I.NLayers ≤ I.NFourier * I.NLayers := Nat.le_mul_of_pos_left _ hF
    omega
  have hns0 := inv.ns0
  rw [hmin] at hns0
  have hmem0 : ∀ l, l ∈ s.ns0 ↔ I.iso = true ∧ l < I.NLayers ∧ I.scatters 0 l := by
    intro l; rw [hns0]; split_ifs with hiso <;> simp [hiso]
  have hfin : finNs s = s.ns.drop s.ns0.length := by
    unfold finNs; split_ifs with h0
    · rfl
    · have : s.ns0.length = 0 := by omega
      rw [this, List.drop_zero]
  have hmemN : ∀ i, i ∈ finNs s → i < I.NFourier * I.NLayers ∧ slotScat I i ∧ ¬ (I.iso = true ∧ i < I.NLayers) := by
    intro i
    rw [hfin]
    by_cases hiso : I.iso = true
    · have hsplit := genInv_filter_split I hF
      rw [← inv.ns] at hsplit
      rw [hns0, if_pos hiso, hsplit, List.drop_left]
      simp only [List.mem_filter, List.mem_map, List.mem_range, decide_eq_true_eq, hiso, true_and]
      have hNF : I.NFourier * I.NLayers = I.NLayers + (I.NFourier - 1) * I.NLayers := by
        obtain ⟨k, hk⟩ : ∃ k, I.NFourier = k + 1 := ⟨I.NFourier - 1, by omega⟩
        rw [hk]; simp; ring
      rintro ⟨⟨a, ha, rfl⟩, h2⟩
      exact ⟨by omega, h2, by omega⟩
    · rw [hns0, if_neg hiso]
      simp only [List.length_nil, List.drop_zero, hmem, hiso, Bool.false_eq_true, false_and, not_false_eq_true, and_true]
      exact id
  have hG : ∃ Gi, finGinv I.N (finG E I.N s) s = .ok Gi := by
    unfold finGinv
    split_ifs with h0
    swap
    · exact ⟨_, rfl⟩
    have hx : npInvBatch s.ns0.length (2 * I.N) (fun k => finG E I.N s (s.ns0.getD k 0))
        = .ok (fun t => ofM (2 * I.N) (toM (2 * I.N) (finG E I.N s (s.ns0.getD t 0)))⁻¹) := by
      unfold npInvBatch
      refine if_neg ?_
      rintro ⟨t, ht, hdet⟩
      have hl := (hmem0 (s.ns0.getD t 0)).mp (by rw [getD_lt _ _ ht]; exact List.getElem_mem ht)
      set l := s.ns0.getD t 0
      have hl0 : l < I.NFourier * I.NLayers := by omega
      have hsl : slotScat I l := by
        rw [slotScat, Nat.div_eq_of_lt hl.2.1, Nat.mod_eq_of_lt hl.2.1]; exact hl.2.2
      apply h1 hl.1 l hl.2.1 hl.2.2
      rw [← hdet]
      congr 1
      obtain ⟨k, hk, hki⟩ := List.getElem_of_mem ((hmem l).mpr ⟨hl0, hsl⟩)
      have hbA : batchA s k = s.A l := by unfold batchA; rw [getD_lt _ _ hk, hki]
      have hab := inv.scat l hl0 hsl
      rw [Nat.div_eq_of_lt hl.2.1, Nat.mod_eq_of_lt hl.2.1] at hab
      have hapb : ∀ a < I.N, ∀ b < I.N, batchApb I.N s k a b = I.apb 0 l a b := by
        intro a ha b hb
        rw [batchApb, hbA, GenIn.apb, (hab a ha b hb).1, (hab a ha b hb).2]
      have hamb : ∀ a < I.N, ∀ b < I.N, batchAmb I.N s k a b = I.amb 0 l a b := by
        intro a ha b hb
        rw [batchAmb, hbA, GenIn.amb, (hab a ha b hb).1, (hab a ha b hb).2]
      have hev : batchEig E I.N s k = I.ev E 0 l := by
        unfold batchEig GenIn.ev
        congr 1
        ext i j
        simp only [toM, matMul]
        refine Finset.sum_congr rfl fun q hq => ?_
        rw [Finset.mem_range] at hq
        rw [hapb q hq j j.2, hamb i i.2 q hq]
      have hgm : ∀ a < I.N, ∀ b, gmg I.N (batchApb I.N s k) (I.ev E 0 l).1 (I.ev E 0 l).2 a b
          = gmg I.N (I.apb 0 l) (I.ev E 0 l).1 (I.ev E 0 l).2 a b := by
        intro a ha b
        simp only [gmg, matMul]
        refine Finset.sum_congr rfl fun q hq => ?_
        rw [Finset.mem_range] at hq
        rw [hapb a ha q hq]
      ext i j
      have hi := i.2
      have hj := j.2
      simp only [toM]
      change I.gScat E 0 l i j = finG E I.N s l i j
      have hf : finG E I.N s l = gBlocks I.N (gpg (batchEig E I.N s k).2)
          (gmg I.N (batchApb I.N s k) (batchEig E I.N s k).1 (batchEig E I.N s k).2) (s.G (s.ns.getD k 0)) := by
        rw [finG, ← hki, scatter_getElem _ hnd]
      rw [hf, GenIn.gScat, gBlocks_apply _ _ _ _ hi hj, gBlocks_apply _ _ _ _ hi hj, hev]
      split_ifs with h5 h6 h6
      · rw [hgm _ h5]
      · rw [hgm _ h5]
      · rw [hgm _ (by omega)]
      · rw [hgm _ (by omega)]
    rw [hx]
    exact ⟨_, rfl⟩
  obtain ⟨Gi, hGi⟩ := hG
  have hB : ∃ B, finBeam I (finG E I.N s) (finK E I.N s) Gi s = .ok B := by
    unfold finBeam
    split_ifs with hb
    swap
    · exact ⟨_, rfl⟩
    unfold finB
    split_ifs with h0
    swap
    · exact ⟨_, rfl⟩
    have hx : npSolveBatch (finNs s).length (2 * I.N)
        (fun k => fullA I.N I.mu0 (batchA s (s.ns0.length + k))) (fun k => s.X ((finNs s).getD k 0))
        = .ok (fun t => ofV (2 * I.N) ((toM (2 * I.N) (fullA I.N I.mu0 (batchA s (s.ns0.length + t))))⁻¹.mulVec
            (toV (2 * I.N) (s.X ((finNs s).getD t 0))))) := by
      unfold npSolveBatch
      refine if_neg ?_
      rintro ⟨k, hk, hdet⟩
      have hA : batchA s (s.ns0.length + k) = s.A (finNs s)[k] := by
        unfold batchA
        congr 1
        have h2 : s.ns0.length + k < s.ns.length := by
          rw [hfin, List.length_drop] at hk; omega
        rw [getD_lt _ _ h2]
        simp only [hfin, List.getElem_drop]
      have hl := hmemN _ (List.getElem_mem hk)
      simp only [hA] at hdet
      set q := (finNs s)[k]
      have hL0 : 0 < I.NLayers := by
        rcases Nat.eq_zero_or_pos I.NLayers with h | h
        · rw [h] at hl; omega
        · exact h
      have hm : q / I.NLayers < I.NFourier := Nat.div_lt_of_lt_mul (by rw [mul_comm]; exact hl.1)
      have hll : q % I.NLayers < I.NLayers := Nat.mod_lt _ hL0
      refine h2 hb _ hm _ hll hl.2.1 ?_ ?_
      · rintro ⟨h3, h4⟩
        exact hl.2.2 ⟨h4, (Nat.div_eq_zero_iff_lt hL0).mp h3⟩
      · refine (congrArg Matrix.det ?_).trans hdet
        ext i j
        exact (fullA_eq (inv.scat q hl.1 hl.2.1) i.2 j.2).symm
    rw [hx]
    exact ⟨_, rfl⟩
  obtain ⟨B, hB⟩ := hB
  simp only [hGi, hB, bind, Except.bind]
  exact ⟨_, rfl⟩

end Pydisort

import Verif.Model.Overflow
import Verif.UnderflowLemmas
import Verif.PochLemmas

/-! Helper lemmas for C137: Legendre functions that overflow. -/

namespace Pydisort
open Finset Classical

variable {po : ℕ → ℕ → ℝ} {lp : ℕ → ℕ → ℝ → Fl} {I : GenIn}

section inv
variable (po lp I)

/-- Loop invariant after `c` iterations of the flattened double loop. -/
structure GenInvF (c : ℕ) (s : GenStateF) : Prop where
  ind : s.ind = c
  ns : s.ns = (List.range c).filter (fun i => decide (slotScat I i))
  scat : ∀ i < c, slotScat I i →
    (∀ a < I.N, ∀ b < I.N, s.A i (I.N + a) (I.N + b) = I.alphaF po lp (i / I.NLayers) (i % I.NLayers) a b ∧
      s.A i (I.N + a) b = I.betaF po lp (i / I.NLayers) (i % I.NLayers) a b)
  scatX : ∀ i < c, slotScat I i → I.beam = true → s.X i = I.XrowF po lp (i / I.NLayers) (i % I.NLayers)

theorem genInvF_step {m l : ℕ} (hl : l < I.NLayers) {s : GenStateF} (h : GenInvF po lp I (m * I.NLayers + l) s) :
    GenInvF po lp I (m * I.NLayers + l + 1) (genBodyF po lp I m l s) := by
  have hdiv : (m * I.NLayers + l) / I.NLayers = m := by
    rw [mul_comm, Nat.mul_add_div (by omega), Nat.div_eq_of_lt hl, Nat.add_zero]
  have hmod : (m * I.NLayers + l) % I.NLayers = l := by
    rw [mul_comm, Nat.mul_add_mod, Nat.mod_eq_of_lt hl]
  have hslot : slotScat I (m * I.NLayers + l) ↔ I.scatters m l := by
    unfold slotScat; rw [hdiv, hmod]
  set c := m * I.NLayers + l with hc
  by_cases hs : I.scatters m l
  · constructor
    · simp [genBodyF, hs, h.ind]
    · simp [genBodyF, hs, h.ns, h.ind, List.range_succ, hslot]
    · intro i hi hsi a ha b hb
      by_cases hic : i = c
      · subst hic
        rw [hdiv, hmod]
        have h1 : ¬ (I.N ≤ b) := by omega
        simp [genBodyF, hs, h.ind, setBlockF, hb, h1]
        omega
      · have := h.scat i (by omega) hsi a ha b hb
        simpa [genBodyF, hs, h.ind, Function.update_of_ne hic] using this
    · intro i hi hsi hb
      by_cases hic : i = c
      · subst hic
        rw [hdiv, hmod]
        simp [genBodyF, hs, h.ind, hb]
      · have := h.scatX i (by omega) hsi hb
        simpa [genBodyF, hs, h.ind, hb, Function.update_of_ne hic] using this
  · constructor
    · simp [genBodyF, hs, h.ind]
    · simp [genBodyF, hs, h.ns, List.range_succ, hslot]
    · intro i hi hsi
      have hne : i ≠ c := by rintro rfl; exact hs (hslot.mp hsi)
      simpa [genBodyF, hs] using h.scat i (by omega) hsi
    · intro i hi hsi hb
      have hne : i ≠ c := by rintro rfl; exact hs (hslot.mp hsi)
      simpa [genBodyF, hs] using h.scatX i (by omega) hsi hb

theorem genInvF_loop (junk : GenStateF) : GenInvF po lp I (I.NFourier * I.NLayers) (genLoopF po lp I (genInitF junk)) := by
  unfold genLoopF
  refine forRange_inv (fun m s => GenInvF po lp I (m * I.NLayers) s) ?_ ?_
  · constructor <;> simp [genInitF]
  · intro m hm s hs
    have := forRange_inv (fun l s => GenInvF po lp I (m * I.NLayers + l) s) (n := I.NLayers)
      (f := fun l s => genBodyF po lp I m l s) (s := s) (by simpa using hs)
      (fun l hl s h => genInvF_step po lp I hl h)
    simpa [Nat.succ_mul] using this

end inv

section finite

theorem sub_finite (x y : Fl) : (Fl.sub x y).Finite ↔ x.Finite ∧ y.Finite := by
  have : (Fl.neg y).Finite ↔ y.Finite := by cases y <;> simp [Fl.neg, Fl.Finite]
  rw [Fl.sub, Fl.add_finite, this]

theorem finite_fin (x : ℝ) : (Fl.fin x).Finite := trivial

theorem alphaF_finite (m l i j : ℕ) : (I.alphaF po lp m l i j).Finite ↔ ∀ k < I.NLeg - m, (lp m (m + k) (I.mu i)).Finite ∧ (lp m (m + k) (I.mu j)).Finite := by
  simp only [GenIn.alphaF, GenIn.DposF, GenIn.DtempF, GenIn.alpPF, Fl.mul_finite, sub_finite, Fl.sum_finite, finite_fin, true_and, and_true]

theorem betaF_finite (m l i j : ℕ) : (I.betaF po lp m l i j).Finite ↔ ∀ k < I.NLeg - m, (lp m (m + k) (I.mu i)).Finite ∧ (lp m (m + k) (I.mu j)).Finite := by
  simp only [GenIn.betaF, GenIn.DnegF, GenIn.DtempF, GenIn.alpPF, GenIn.alpNF, Fl.mul_finite, Fl.sum_finite, finite_fin, true_and, and_true]

/-- The matrix given to `eig` for entry `k` of the batch is finite when the Legendre functions are. -/
theorem batchProdF_finite {s : GenStateF} (hs : GenInvF po lp I (I.NFourier * I.NLayers) s) {k : ℕ} (hk : k < s.ns.length) {m l : ℕ} (hm : s.ns.getD k 0 / I.NLayers = m)
    (hl : s.ns.getD k 0 % I.NLayers = l) : (∀ i < I.N, ∀ j < I.N, (batchProdF I.N s k i j).Finite) ↔ ∀ i < I.N, ∀ q < I.NLeg - m, (lp m (m + q) (I.mu i)).Finite := by
  have hmem : s.ns.getD k 0 ∈ s.ns := by
    rw [getD_lt _ _ hk]; exact List.getElem_mem hk
  rw [hs.ns, List.mem_filter, List.mem_range, decide_eq_true_eq, ← hs.ns] at hmem
  have hA := hs.scat _ hmem.1 hmem.2
  rw [hm, hl] at hA
  have key : ∀ i < I.N, ∀ j < I.N, (batchProdF I.N s k i j).Finite ↔
      ∀ q < I.N, (I.alphaF po lp m l i q).Finite ∧ (I.betaF po lp m l i q).Finite ∧ (I.alphaF po lp m l q j).Finite ∧ (I.betaF po lp m l q j).Finite := by
    intro i hi j hj
    unfold batchProdF
    rw [Fl.sum_finite]
    refine forall₂_congr fun q hq => ?_
    unfold batchAmbF batchApbF
    rw [Fl.mul_finite, sub_finite, Fl.add_finite, (hA i hi q hq).1, (hA i hi q hq).2, (hA q hq j hj).1, (hA q hq j hj).2]
    tauto
  constructor
  · intro h i hi q hq
    exact ((alphaF_finite m l i i).1 ((key i hi i hi).1 (h i hi i hi) i hi).1 q hq).1
  · intro h i hi j hj
    refine (key i hi j hj).2 fun q hq => ?_
    rw [alphaF_finite, betaF_finite, alphaF_finite, betaF_finite]
    exact ⟨fun p hp => ⟨h i hi p hp, h q hq p hp⟩, fun p hp => ⟨h i hi p hp, h q hq p hp⟩, fun p hp => ⟨h q hq p hp, h j hj p hp⟩, fun p hp => ⟨h q hq p hp, h j hj p hp⟩⟩

theorem genSolF_raises (rest : GenStateF → Py GenOut) (E : Ext) (junk : GenStateF) {m l i q : ℕ} (hm : m < I.NFourier) (hl : l < I.NLayers) (hs : I.scatters m l) (hi : i < I.N)
    (hq : q < I.NLeg - m) (hn : ¬ (lp m (m + q) (I.mu i)).Finite) : genSolF po lp rest E junk I = .error .linAlgError := by
  unfold genSolF
  set s := genLoopF po lp I (genInitF junk) with hsdef
  have hinv : GenInvF po lp I (I.NFourier * I.NLayers) s := genInvF_loop po lp I junk
  have hdiv : (m * I.NLayers + l) / I.NLayers = m := by
    rw [mul_comm, Nat.mul_add_div (by omega), Nat.div_eq_of_lt hl, Nat.add_zero]
  have hmod : (m * I.NLayers + l) % I.NLayers = l := by
    rw [mul_comm, Nat.mul_add_mod, Nat.mod_eq_of_lt hl]
  have hmem : m * I.NLayers + l ∈ s.ns := by
    rw [hinv.ns, List.mem_filter, List.mem_range, decide_eq_true_eq]
    refine ⟨?_, by unfold slotScat; rwa [hdiv, hmod]⟩
    calc m * I.NLayers + l < m * I.NLayers + I.NLayers := by omega
      _ = (m + 1) * I.NLayers := by ring
      _ ≤ _ := Nat.mul_le_mul_right _ hm
  obtain ⟨k, hk, he⟩ := List.getElem_of_mem hmem
  have hd : s.ns.getD k 0 = m * I.NLayers + l := by rw [getD_lt _ _ hk, he]
  unfold genFinishF
  rw [if_pos]
  by_contra hc
  push Not at hc
  exact hn ((batchProdF_finite hinv hk (by rw [hd, hdiv]) (by rw [hd, hmod])).1 (fun i hi j hj => hc k hk i hi j hj) i hi q hq)

end finite

section exact

/-- `lpmv` is computed exactly for the orders and degrees that occur. -/
def LpExact (I : GenIn) (lp : ℕ → ℕ → ℝ → Fl) : Prop := ∀ m < I.NFourier, ∀ n < I.NLeg, ∀ x, lp m n x = .fin (Spec.assocLegendre m n x)

variable (h : LpExact I lp)
include h

theorem alphaF_fin {m : ℕ} (hm : m < I.NFourier) (l i j : ℕ) : I.alphaF po lp m l i j = .fin (I.alphaP po m l i j) := by
  have : I.DposF po lp m l i j = .fin (I.DposP po m l i j) := by
    unfold GenIn.DposF GenIn.DposP
    rw [← Fl.sum_fin]
    refine Fl.sum_congr fun k hk => ?_
    simp only [GenIn.DtempF, GenIn.alpPF, h m hm (m + k) (by omega), Fl.fin_mul, GenIn.DtempP, GenIn.alpP]
  simp only [GenIn.alphaF, this, Fl.fin_mul, Fl.fin_sub, GenIn.alphaP]

theorem betaF_fin {m : ℕ} (hm : m < I.NFourier) (l i j : ℕ) : I.betaF po lp m l i j = .fin (I.betaP po m l i j) := by
  have : I.DnegF po lp m l i j = .fin (I.DnegP po m l i j) := by
    unfold GenIn.DnegF GenIn.DnegP
    rw [← Fl.sum_fin]
    refine Fl.sum_congr fun k hk => ?_
    simp only [GenIn.DtempF, GenIn.alpNF, GenIn.alpPF, h m hm (m + k) (by omega), Fl.fin_mul, GenIn.DtempP, GenIn.alpP, GenIn.alpN]
  simp only [GenIn.betaF, this, Fl.fin_mul, GenIn.betaP]

theorem XrowF_fin {m : ℕ} (hm : m < I.NFourier) (l i : ℕ) : I.XrowF po lp m l i = .fin (I.XrowP po m l i) := by
  have hT : ∀ k < I.NLeg - m, I.XtempF po lp m l k = .fin (I.XtempP po m l k) := fun k hk => by
    simp only [GenIn.XtempF, GenIn.scalarFacF, h m hm (m + k) (by omega), Fl.fin_mul, GenIn.XtempP, GenIn.scalarFacP]
  have h1 : ∀ i, I.XposF po lp m l i = .fin (I.XposP po m l i) := fun i => by
    unfold GenIn.XposF GenIn.XposP
    rw [← Fl.sum_fin]
    refine Fl.sum_congr fun k hk => ?_
    simp only [hT k hk, GenIn.alpPF, h m hm (m + k) (by omega), Fl.fin_mul, GenIn.alpP]
  have h2 : ∀ i, I.XnegF po lp m l i = .fin (I.XnegP po m l i) := fun i => by
    unfold GenIn.XnegF GenIn.XnegP
    rw [← Fl.sum_fin]
    refine Fl.sum_congr fun k hk => ?_
    simp only [hT k hk, GenIn.alpNF, GenIn.alpPF, h m hm (m + k) (by omega), Fl.fin_mul, GenIn.alpP, GenIn.alpN]
  unfold GenIn.XrowF GenIn.XrowP
  split_ifs <;> simp only [h1, h2, Fl.fin_mul]

theorem genBodyF_val {m : ℕ} (hm : m < I.NFourier) (l : ℕ) (s : GenStateF) : (genBodyF po lp I m l s).val = genBodyP po I m l s.val := by
  have hset : ∀ (M : ℕ → ℕ → Fl) (i0 i1 j0 j1 : ℕ) (B : ℕ → ℕ → Fl), (fun i j => (setBlockF M i0 i1 j0 j1 B i j).val) =
      setBlock (fun i j => (M i j).val) i0 i1 j0 j1 fun i j => (B i j).val := fun M i0 i1 j0 j1 B => by
    funext i j; unfold setBlockF setBlock; split_ifs <;> rfl
  by_cases hs : I.scatters m l
  · unfold genBodyF genBodyP
    rw [if_pos hs, if_pos hs]
    unfold GenStateF.val
    congr 1
    · funext i
      by_cases hi : i = s.ind
      · subst hi
        simp only [Function.update_self]
        rw [hset, hset]
        congr 1
        · congr 1
          funext a b; rw [betaF_fin h hm]; rfl
        · funext a b; rw [alphaF_fin h hm]; rfl
      · simp only [Function.update_of_ne hi]
    · by_cases hb : I.beam = true
      · simp only [hb, if_true]
        funext i
        by_cases hi : i = s.ind
        · subst hi
          simp only [Function.update_self]
          funext a; rw [XrowF_fin h hm]; rfl
        · simp only [Function.update_of_ne hi]
      · simp only [hb]; rfl
  · unfold genBodyF genBodyP
    rw [if_neg hs, if_neg hs]
    rfl

theorem genLoopF_val (s : GenStateF) : (genLoopF po lp I s).val = genLoopP po I s.val := by
  unfold genLoopF genLoopP
  have inner : ∀ m < I.NFourier, ∀ n (s : GenStateF), (forRange n (fun l s => genBodyF po lp I m l s) s).val = forRange n (fun l s => genBodyP po I m l s) s.val := by
    intro m hm n s
    induction n with
    | zero => rfl
    | succ n ih => rw [forRange_succ, forRange_succ, genBodyF_val h hm, ih]
  have outer : ∀ n ≤ I.NFourier, (forRange n (fun m s => forRange I.NLayers (fun l s => genBodyF po lp I m l s) s) s).val =
      forRange n (fun m s => forRange I.NLayers (fun l s => genBodyP po I m l s) s) s.val := by
    intro n
    induction n with
    | zero => intro _; rfl
    | succ n ih => intro hn; rw [forRange_succ, forRange_succ, inner n (by omega), ih (by omega)]
  exact outer _ le_rfl

theorem genSolF_exact (rest : GenStateF → Py GenOut) (E : Ext) (junk : GenStateF) : genSolF po lp rest E junk I = genSolP po E junk.val I := by
  unfold genSolF genSolP
  have hinv := genInvF_loop po lp I junk
  rw [show genInit junk.val = (genInitF junk).val from rfl, ← genLoopF_val h]
  set s := genLoopF po lp I (genInitF junk)
  have hmem : ∀ k < s.ns.length, s.ns.getD k 0 < I.NFourier * I.NLayers ∧ slotScat I (s.ns.getD k 0) := fun k hk => by
    have : s.ns.getD k 0 ∈ s.ns := by
      rw [getD_lt _ _ hk]; exact List.getElem_mem hk
    rwa [hinv.ns, List.mem_filter, List.mem_range, decide_eq_true_eq, ← hinv.ns] at this
  have hlt : ∀ k < s.ns.length, s.ns.getD k 0 / I.NLayers < I.NFourier := fun k hk => Nat.div_lt_of_lt_mul (by rw [mul_comm]; exact (hmem k hk).1)
  unfold genFinishF
  rw [if_neg, if_neg]
  · rintro ⟨hb, k, hk, i, _, hn⟩
    apply hn
    rw [hinv.scatX _ (hmem k hk).1 (hmem k hk).2 hb, XrowF_fin h (hlt k hk)]
    trivial
  · rintro ⟨k, hk, i, hi, j, hj, hn⟩
    refine hn ((batchProdF_finite hinv hk rfl rfl).2 (fun i _ q hq => ?_) i hi j hj)
    rw [h _ (hlt k hk) _ (by omega)]
    trivial

end exact

end Pydisort

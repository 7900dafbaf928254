import Verif.CoreLemmas
import Verif.Spec.Field

/-! Helper lemmas: the field computed by `pydisort`, in the caller's terms. -/

namespace Pydisort
open Finset
open Spec (bdry)

/-! ### The rescaling factor -/

theorem npMax_ok {v : A1 ℝ} {x : ℝ} (h : npMax v = .ok x) :
    (∃ k < v.n, v.get k = x) ∧ ∀ k < v.n, v.get k ≤ x := by
  unfold npMax at h
  split_ifs at h with hne
  cases h
  refine ⟨?_, fun k hk => Finset.le_sup' v.get (mem_range.mpr hk)⟩
  obtain ⟨k, hk, he⟩ := Finset.exists_mem_eq_sup' hne v.get
  exact ⟨k, mem_range.mp hk, he.symm⟩

theorem BCv.max_pos {b : BCv} {x : ℝ} (h : b.max = .ok x) : 0 < x ↔ Spec.HasPos b := by
  cases b with
  | scalar y => cases h; rfl
  | vec v =>
    obtain ⟨⟨k, hk, he⟩, hle⟩ := npMax_ok h
    exact ⟨fun hx => ⟨k, hk, by rw [he]; exact hx⟩, fun ⟨i, hi, hp⟩ => lt_of_lt_of_le hp (hle i hi)⟩
  | mat v =>
    obtain ⟨⟨k, hk, he⟩, hle⟩ := npMax_ok h
    change k < v.r * v.c at hk
    change v.get (k / v.c) (k % v.c) = x at he
    have hc : 0 < v.c := by
      rcases Nat.eq_zero_or_pos v.c with h0 | h0
      · rw [h0] at hk; simp at hk
      · exact h0
    constructor
    · intro hx
      exact ⟨k / v.c, Nat.div_lt_of_lt_mul (by rw [mul_comm]; exact hk), k % v.c, Nat.mod_lt _ hc, by rw [he]; exact hx⟩
    · rintro ⟨i, hi, j, hj, hp⟩
      have hlt : i * v.c + j < v.r * v.c := by
        have := Nat.mul_le_mul_right v.c (show i + 1 ≤ v.r by omega)
        rw [Nat.succ_mul] at this; omega
      have := hle (i * v.c + j) hlt
      simp only at this
      rw [mul_comm i, Nat.mul_add_div hc, Nat.div_eq_of_lt hj, Nat.mul_add_mod, Nat.mod_eq_of_lt hj, Nat.add_zero] at this
      exact lt_of_lt_of_le hp this

theorem zeroBC_iff (b : BCv) : Spec.ZeroBC b ↔ b.AllZero := by cases b <;> rfl

theorem HasPos.not_zero {b : BCv} (h : Spec.HasPos b) : ¬ b.AllZero := by
  intro hz
  cases b with
  | scalar x => exact absurd hz (ne_of_gt h)
  | vec v => obtain ⟨i, hi, hp⟩ := h; rw [hz i hi] at hp; exact lt_irrefl _ hp
  | mat v => obtain ⟨i, hi, j, hj, hp⟩ := h; rw [hz i hi j hj] at hp; exact lt_irrefl _ hp

open Classical in
theorem hasPos_fix (b : BCv) : Spec.HasPos (if b.AllZero then .scalar 0 else b) ↔ Spec.HasPos b := by
  split_ifs with h
  · exact ⟨fun h' => absurd h' (lt_irrefl (0 : ℝ)), fun h' => absurd h (HasPos.not_zero h')⟩
  · rfl

section
variable {E : Ext} {a : Args} {O : Optics} {r : ℝ}

theorem bdryStar_eq (a : Args) (l : ℕ) : Spec.bdryStar a (l + 1) = Spec.tauStar a l (bdry a.tauArr.get (l + 1)) := by
  simp [Spec.bdryStar, Spec.tauStar, sum_range_succ]

theorem rescale_spec (h : Spec.Accepted a) (hs : Args.OpticsSpec a O) (hr : a.rescaleFactor O = .ok r) :
    0 ≤ r ∧ (0 < r ↔ Spec.Lit a) := by
  unfold Args.rescaleFactor at hr
  rcases h1 : a.bpos'.max with e | mp
  · rw [h1] at hr; cases hr
  rcases h2 : a.bneg'.max with e | mn
  · rw [h1] at hr; simp only [bind, Except.bind] at hr; rw [h2] at hr; cases hr
  rw [h1] at hr; simp only [bind, Except.bind] at hr; rw [h2] at hr; simp only [pure, Except.pure] at hr
  have hp : 0 < mp ↔ Spec.HasPos a.bpos := by
    rw [BCv.max_pos h1]; unfold Args.bpos'; exact hasPos_fix _
  have hn : 0 < mn ↔ Spec.HasPos a.bneg := by
    rw [BCv.max_pos h2]; unfold Args.bneg'; exact hasPos_fix _
  have hI := h.beam
  have hL : 0 < a.tauArr.n := h.layers
  injection hr with hr
  by_cases hi : a.Iso
  · rw [if_pos hi] at hr
    unfold Args.isoMax at hr
    have hr0 : 0 ≤ r := by
      rw [← hr]; exact le_max_of_le_left (le_max_of_le_left (le_max_of_le_left (le_max_of_le_left hI)))
    refine ⟨hr0, ?_⟩
    have hc : 0 < a.s.c := by
      rw [← Args.nsc_of_iso hi]; exact hi
    have e1 : 0 < O.s.get 0 0 ↔ 0 < Spec.source a 0 0 := by
      have hsrc := hs.src hi 0 hL 0
      have ht : Spec.tauStar a 0 0 = 0 := by simp [Spec.tauStar, Spec.bdryStar, bdry]
      rw [ht] at hsrc
      have : ∑ k ∈ range a.s.c, O.s.get 0 k * (0 : ℝ) ^ k = O.s.get 0 0 := by
        rw [sum_eq_single 0]
        · simp
        · intro k _ hk; rw [zero_pow hk, mul_zero]
        · intro hh; exact absurd (mem_range.mpr hc) hh
      rw [this] at hsrc
      have h3 := Args.scale_pos h (l := 0) hL
      have h4 := (h.omega 0 hL).2
      constructor
      · intro hh
        have : 0 < (1 - a.omega.get 0) * Spec.source a 0 0 := by rw [← hsrc]; positivity
        exact (mul_pos_iff_of_pos_left (by linarith)).mp this
      · intro hh
        have : 0 < Spec.scale a 0 * O.s.get 0 0 := by
          rw [hsrc]; exact mul_pos (by linarith) hh
        exact (mul_pos_iff_of_pos_left h3).mp this
    have e2 : 0 < ∑ k ∈ range a.nsc, O.s.get (O.s.r - 1) k * O.tau0 a.NLayers ^ k
        ↔ 0 < Spec.source a (a.tauArr.n - 1) (a.tauArr.get (a.tauArr.n - 1)) := by
      have hL1 : a.tauArr.n - 1 < a.NLayers := by unfold Args.NLayers; omega
      have hsrc := hs.src hi (a.tauArr.n - 1) hL1 (a.tauArr.get (a.tauArr.n - 1))
      have ht : Spec.tauStar a (a.tauArr.n - 1) (a.tauArr.get (a.tauArr.n - 1)) = O.tau0 a.NLayers := by
        rw [hs.tau0 _ le_rfl]
        have := bdryStar_eq a (a.tauArr.n - 1)
        rw [Spec.bdry_succ, show a.tauArr.n - 1 + 1 = a.tauArr.n by omega] at this
        exact this.symm
      rw [hs.srcRows hi, Args.nsc_of_iso hi]
      change 0 < ∑ k ∈ range a.s.c, O.s.get (a.tauArr.n - 1) k * _ ↔ _
      rw [← ht]
      have h3 := Args.scale_pos h (l := a.tauArr.n - 1) hL1
      have h4 := (h.omega _ hL1).2
      constructor
      · intro hh
        have : 0 < (1 - a.omega.get (a.tauArr.n - 1)) * Spec.source a (a.tauArr.n - 1) (a.tauArr.get (a.tauArr.n - 1)) := by
          rw [← hsrc]; positivity
        exact (mul_pos_iff_of_pos_left (by linarith)).mp this
      · intro hh
        have : 0 < Spec.scale a (a.tauArr.n - 1) * ∑ k ∈ range a.s.c, O.s.get (a.tauArr.n - 1) k
            * Spec.tauStar a (a.tauArr.n - 1) (a.tauArr.get (a.tauArr.n - 1)) ^ k := by
          rw [hsrc]; exact mul_pos (by linarith) hh
        exact (mul_pos_iff_of_pos_left h3).mp this
    rw [← hr]
    simp only [lt_max_iff, e1, e2, hp, hn]
    unfold Spec.Lit
    tauto
  · rw [if_neg hi] at hr
    have hns : Spec.NoSource a := by
      by_contra hc; exact hi (Args.iso_iff.2 hc)
    have hz : ∀ l t, ¬ 0 < Spec.source a l t := by
      intro l t
      unfold Spec.source
      split_ifs with hl
      · rw [sum_eq_zero fun k hk => by rw [hns l hl k (mem_range.mp hk), zero_mul]]
        exact lt_irrefl 0
      · exact lt_irrefl 0
    refine ⟨by rw [← hr]; exact le_max_of_le_left (le_max_of_le_left hI), ?_⟩
    rw [← hr]
    simp only [lt_max_iff, hp, hn]
    unfold Spec.Lit
    have := hz 0 0
    have := hz (a.tauArr.n - 1) (a.tauArr.get (a.tauArr.n - 1))
    tauto

/-- Normalising and scaling back is the identity on the sources. -/
theorem rescale_cases (h : Spec.Accepted a) (hs : Args.OpticsSpec a O) (hr : a.rescaleFactor O = .ok r)
    (hres : Spec.Rescalable a) :
    (0 < r ∧ a.rescaleDiv r = r) ∨ (r = 0 ∧ a.rescaleDiv r = 1 ∧ ¬ a.Iso ∧ a.I0 = 0 ∧
      a.bpos.AllZero ∧ a.bneg.AllZero) := by
  obtain ⟨h0, hl⟩ := rescale_spec h hs hr
  by_cases hlit : Spec.Lit a
  · left
    have := hl.2 hlit
    exact ⟨this, by unfold Args.rescaleDiv; rw [if_pos (Or.inr this.ne')]⟩
  · right
    rcases hres with h1 | ⟨h1, h2, h3⟩
    · exact absurd h1 hlit
    · have hr0 : r = 0 := le_antisymm (not_lt.mp fun hh => hlit (hl.1 hh)) h0
      have hni : ¬ a.Iso := fun hi => Args.iso_iff.1 hi h1
      refine ⟨hr0, ?_, hni, ?_, (zeroBC_iff _).1 h2, (zeroBC_iff _).1 h3⟩
      · unfold Args.rescaleDiv; rw [if_neg (by simp [hni, hr0])]
      · exact le_antisymm (not_lt.mp fun hh => hlit (Or.inl hh)) h.beam

theorem rescale_I0 (h : Spec.Accepted a) (hs : Args.OpticsSpec a O) (hr : a.rescaleFactor O = .ok r)
    (hres : Spec.Rescalable a) : r * (a.I0 / a.rescaleDiv r) = a.I0 := by
  rcases rescale_cases h hs hr hres with ⟨h1, h2⟩ | ⟨h1, h2, _, h3, _⟩
  · rw [h2]; field_simp
  · rw [h1, h3]; ring

theorem rescale_s (h : Spec.Accepted a) (hs : Args.OpticsSpec a O) (hr : a.rescaleFactor O = .ok r)
    (hres : Spec.Rescalable a) (hi : a.Iso) (x : ℝ) : r * (x / r) = x := by
  rcases rescale_cases h hs hr hres with ⟨h1, h2⟩ | ⟨_, _, h3, _⟩
  · field_simp
  · exact absurd hi h3

/-! ### Boundary values -/

theorem bcVal_zero {b : BCv} (h : b.AllZero) (m i : ℕ) : Spec.bcVal b m i = 0 := by
  cases b with
  | scalar x => simp only [Spec.bcVal]; split_ifs; exacts [h, rfl]
  | vec v =>
    simp only [Spec.bcVal]
    split_ifs with h1 h2 h3
    · exact h 0 (by omega)
    · exact h i h3
    · rfl
    · rfl
  | mat v =>
    simp only [Spec.bcVal]
    split_ifs with h1
    · exact h i h1.1 m h1.2
    · rfl

/-- Value imposed on mode `m`, scaled back. -/
theorem bcMode_spec {n : ℕ} {b b' : BCv} {d : ℝ} {sc ve : Bool} {v : Vec} {m : ℕ}
    (hr : (0 < r ∧ d = r) ∨ (r = 0 ∧ b.AllZero)) (hb : Spec.Azimuthless b)
    (hb' : (b.AllZero ∧ b' = .scalar 0) ∨ (¬ b.AllZero ∧ b' = b))
    (hsc : sc = true ↔ b'.len = 1) (hve : ve = true ↔ ¬ b'.len = 1 ∧ b'.len = n)
    (h : bcMode n m sc ve (b'.div d) = .ok v) {i : ℕ} (hi : i < n) : r * v i = Spec.bcVal b m i := by
  rcases hb' with ⟨hz, rfl⟩ | ⟨hz, rfl⟩
  · rw [bcVal_zero hz]
    have hs : sc = true := hsc.2 rfl
    unfold bcMode at h
    by_cases hm : m = 0
    · rw [if_pos ⟨hs, hm⟩] at h
      cases h; simp
    · rw [if_neg (by tauto), if_neg (by tauto), if_pos ⟨Or.inl hs, hm⟩] at h
      cases h; simp
  · obtain ⟨hr, rfl⟩ : 0 < r ∧ d = r := by
      rcases hr with hr | hr
      · exact hr
      · exact absurd hr.2 hz
    cases b' with
    | scalar x =>
      have hs : sc = true := hsc.2 rfl
      unfold bcMode at h
      by_cases hm : m = 0
      · rw [if_pos ⟨hs, hm⟩] at h
        cases h; simp only [Spec.bcVal, if_pos hm]; field_simp
      · rw [if_neg (by tauto), if_neg (by tauto), if_pos ⟨Or.inl hs, hm⟩] at h
        cases h; simp only [Spec.bcVal, if_neg hm, mul_zero]
    | vec x =>
      simp only [BCv.len] at hsc hve
      unfold bcMode at h
      simp only [BCv.div] at h
      have hflag : sc = true ∨ ve = true := by
        by_contra hc
        push Not at hc
        rw [if_neg (by tauto), if_neg (by tauto), if_neg (by tauto)] at h
        cases h
      by_cases hm : m = 0
      · have h2 : assign1 n (x.map fun y => y / d) = .ok v := by
          by_cases hs : sc = true
          · rwa [if_pos ⟨hs, hm⟩] at h
          · rwa [if_neg (by tauto), if_pos ⟨by tauto, hm⟩] at h
        unfold assign1 at h2
        simp only [Spec.bcVal, if_pos hm]
        change (if x.n = n then _ else if x.n = 1 then _ else _) = _ at h2
        split_ifs at h2 with h3 h4
        · cases h2
          simp only [A1.map]
          by_cases h5 : x.n = 1
          · rw [if_pos h5, show i = 0 by omega]; field_simp
          · rw [if_neg h5, if_pos (by omega)]; field_simp
        · cases h2
          rw [if_pos h4]
          simp only [A1.map]; field_simp
      · rw [if_neg (by tauto), if_neg (by tauto), if_pos ⟨hflag, hm⟩] at h
        cases h; simp only [Spec.bcVal, if_neg hm, mul_zero]
    | mat x => exact absurd hb hz

/-! ### The reflecting surface -/

theorem stream_up {n : ℕ} {mu : Vec} {i : ℕ} (h : i < n) : Spec.stream n mu i = mu i := by simp [Spec.stream, h]
theorem stream_down {n : ℕ} {mu : Vec} (i : ℕ) : Spec.stream n mu (n + i) = -mu i := by simp [Spec.stream]

/-- Diffuse reflection coefficients. -/
theorem coefR_spec {c : CoefIn} {m : ℕ} {R : Mat} {M : BDRFMode} {rho : ℝ → ℝ → ℝ} (hM : c.bdrf[m]? = some M)
    (hrep : Spec.Represents M rho) (h : coefR c m = .ok (some R)) {i j : ℕ} (hi : i < c.N) (hj : j < c.N) :
    R i j = (1 + if m = 0 then 1 else 0) * rho (c.mu i) (c.mu j) * c.muW j := by
  unfold coefR at h
  rw [hM] at h
  cases M with
  | scalar x => cases h; rw [hrep]
  | func f =>
    simp only at h
    obtain ⟨v, hv, h1, h2, h3⟩ := hrep ⟨c.N, c.mu⟩ ⟨c.N, c.mu⟩
    rw [hv] at h
    simp only at h
    rw [if_pos ⟨Or.inr h1, Or.inr h2⟩] at h
    cases h
    simp only at h1 h2 h3
    rw [h1, h2]
    simp only
    rw [bix_of_lt hi, bix_of_lt hj, h3 i hi j hj]

theorem coefR_some {c : CoefIn} {m : ℕ} {R : Option Mat} {M : BDRFMode} (hM : c.bdrf[m]? = some M)
    (h : coefR c m = .ok R) : ∃ R', R = some R' := by
  unfold coefR at h
  rw [hM] at h
  cases M with
  | scalar x => cases h; exact ⟨_, rfl⟩
  | func f =>
    simp only at h
    split at h
    · cases h; exact ⟨_, rfl⟩
    · split_ifs at h <;> (cases h; exact ⟨_, rfl⟩)

theorem coefR_none {c : CoefIn} {m : ℕ} {R : Option Mat} (hM : c.bdrf[m]? = none)
    (h : coefR c m = .ok R) : R = none := by
  unfold coefR at h
  rw [hM] at h
  cases h; rfl

/-- Reflection of the direct beam. -/
theorem coefX_spec {c : CoefIn} {m : ℕ} {X : Vec} {M : BDRFMode} {rho : ℝ → ℝ → ℝ} (hM : c.bdrf[m]? = some M)
    (hrep : Spec.Represents M rho) (hb : c.beam = true) (h : coefX c m = .ok X) {i : ℕ} (hi : i < c.N) :
    X i = (c.mu0 * c.I0div4pi * 4) * rho (c.mu i) c.mu0 := by
  unfold coefX at h
  rw [hM, if_pos hb] at h
  cases M with
  | scalar x => cases h; rw [hrep]
  | func f =>
    simp only at h
    obtain ⟨v, hv, h1, h2, h3⟩ := hrep ⟨c.N, c.mu⟩ ⟨1, fun _ => c.mu0⟩
    rw [hv] at h
    simp only at h h1 h2 h3
    rw [if_neg (by omega), if_pos (Or.inr h1)] at h
    cases h
    rw [h1]
    simp only
    rw [bix_of_lt hi, h3 i hi 0 (by omega)]

/-! ### The equation -/

theorem mul_muInv (hg : Spec.GaussContract E (Spec.nHalf a)) {i : ℕ} (hi : i < 2 * Spec.nHalf a) :
    Spec.stream (Spec.nHalf a) (Spec.node E a) i * (a.asm E O r).muInv i = 1 := by
  unfold Spec.stream AsmIn.muInv
  change (if i < Spec.nHalf a then _ else _) * (if i < Spec.nHalf a then 1 / Spec.node E a i else
    -(1 / Spec.node E a (i - Spec.nHalf a))) = 1
  split_ifs with h
  · have := (node_pos hg h).1; field_simp
  · have := (node_pos (i := i - Spec.nHalf a) hg (by omega)).1; field_simp

theorem stream_ne (hg : Spec.GaussContract E (Spec.nHalf a)) {i : ℕ} (hi : i < 2 * Spec.nHalf a) :
    Spec.stream (Spec.nHalf a) (Spec.node E a) i ≠ 0 := by
  intro h
  unfold Spec.stream at h
  split_ifs at h with h1
  · exact (node_pos hg h1).1.ne' h
  · exact (node_pos (i := i - Spec.nHalf a) hg (by omega)).1.ne' (neg_eq_zero.mp h)

theorem effA_spec (hs : Args.OpticsSpec a O) (hg : Spec.GaussContract E (Spec.nHalf a)) {l : ℕ} (hl : l < a.NLayers)
    (m : ℕ) (u : Vec) {i : ℕ} (hi : i < 2 * Spec.nHalf a) :
    Spec.stream (Spec.nHalf a) (Spec.node E a) i * mulVec (2 * Spec.nHalf a) ((a.asm E O r).genIn.effA m l) u i
      = u i - ∑ j ∈ range (2 * Spec.nHalf a), Spec.streamW (Spec.nHalf a) (Spec.weight E a) j *
          Spec.kernel a m l (Spec.stream (Spec.nHalf a) (Spec.node E a) i)
            (Spec.stream (Spec.nHalf a) (Spec.node E a) j) * u j := by
  unfold GenIn.effA
  by_cases hsc : (a.asm E O r).genIn.scatters m l
  · rw [if_pos hsc]
    have hsig := (asm_scatters hs hl m).1 hsc
    have := GenIn.coefA_spec (asm_wLegOK (E := E) (a := a) (O := O) (r := r)) (asm_quadOK hg) hl m u (i := i) hi
    refine this.trans ?_
    congr 1
    refine sum_congr rfl fun j _ => ?_
    rw [asm_kernel hs hl hsig]
    rfl
  · rw [if_neg hsc]
    have hsig : ¬ Spec.Significant (Spec.omegaStar a l) (Spec.nLeg a) (Spec.legStar a l) m :=
      fun hh => hsc ((asm_scatters hs hl m).2 hh)
    have hk : ∀ x y, Spec.kernel a m l x y = 0 := fun x y => by unfold Spec.kernel; rw [if_neg hsig]
    simp only [hk, mul_zero, zero_mul, sum_const_zero, sub_zero]
    have hd := mulVec_diagA (N := Spec.nHalf a) (a.asm E O r).genIn.M_inv u hi
    change _ * mulVec (2 * Spec.nHalf a) (diagA (Spec.nHalf a) (a.asm E O r).genIn.M_inv) u i = _
    rw [hd]
    have := mul_muInv (O := O) (r := r) hg hi
    unfold AsmIn.muInv at this
    rw [← mul_assoc]
    rw [show (if i < Spec.nHalf a then (a.asm E O r).genIn.M_inv i else -(a.asm E O r).genIn.M_inv (i - Spec.nHalf a))
      = (if i < (a.asm E O r).N then (a.asm E O r).M_inv i else -(a.asm E O r).M_inv (i - (a.asm E O r).N)) from rfl,
      this, one_mul]

theorem effX_spec (hs : Args.OpticsSpec a O) (hg : Spec.GaussContract E (Spec.nHalf a)) {l : ℕ} (hl : l < a.NLayers)
    (m : ℕ) {i : ℕ} (hi : i < 2 * Spec.nHalf a) (hI : r * (a.I0 / a.rescaleDiv r) = a.I0) :
    Spec.stream (Spec.nHalf a) (Spec.node E a) i * (r * (a.asm E O r).genIn.effX m l i)
      = Spec.beamSource a m l (Spec.stream (Spec.nHalf a) (Spec.node E a) i) := by
  unfold GenIn.effX Spec.beamSource
  by_cases hsc : (a.asm E O r).genIn.scatters m l
  · have hsig := (asm_scatters hs hl m).1 hsc
    rw [if_pos hsc, if_pos hsig, ← asm_beamX hs hl]
    have h0 : (a.asm E O r).genIn.I0div4pi = (a.I0 / a.rescaleDiv r) / (4 * Real.pi) := rfl
    have hx : ∀ x, r * Spec.beamX (O.omega l) (Spec.nLeg a) (gEff O l) (a.I0 / a.rescaleDiv r) a.mu0 m x
        = Spec.beamX (O.omega l) (Spec.nLeg a) (gEff O l) a.I0 a.mu0 m x := by
      intro x
      unfold Spec.beamX
      rw [← hI]
      simp only [hI]
      conv_rhs => rw [← hI]
      ring
    unfold GenIn.Xrow
    by_cases h : i < Spec.nHalf a
    · have hmu := (node_pos hg h).1
      rw [stream_up h, ← hx]
      rw [if_pos (show i < (a.asm E O r).genIn.N from h), GenIn.Xpos_eq (asm_wLegOK (a := a) (r := r)) hl h0]
      change Spec.node E a i * (r * (1 / Spec.node E a i * Spec.beamX (O.omega l) (Spec.nLeg a) (gEff O l)
        (a.I0 / a.rescaleDiv r) a.mu0 m (Spec.node E a i))) = _
      field_simp
    · obtain ⟨k, rfl⟩ : ∃ k, i = Spec.nHalf a + k := ⟨i - Spec.nHalf a, by omega⟩
      have hmu := (node_pos (i := k) hg (by omega)).1
      rw [stream_down, ← hx]
      rw [if_neg (show ¬ Spec.nHalf a + k < (a.asm E O r).genIn.N from h),
        GenIn.Xneg_eq (asm_wLegOK (a := a) (r := r)) hl h0]
      rw [show Spec.nHalf a + k - (a.asm E O r).genIn.N = k from Nat.add_sub_cancel_left _ _]
      change -Spec.node E a k * (r * (-(1 / Spec.node E a k) * Spec.beamX (O.omega l) (Spec.nLeg a) (gEff O l)
        (a.I0 / a.rescaleDiv r) a.mu0 m (-Spec.node E a k))) = _
      field_simp
  · have hsig : ¬ Spec.Significant (Spec.omegaStar a l) (Spec.nLeg a) (Spec.legStar a l) m :=
      fun hh => hsc ((asm_scatters hs hl m).2 hh)
    rw [if_neg hsc, if_neg hsig]; ring

theorem beamSource_zero (h : a.I0 = 0) (m l : ℕ) (x : ℝ) : Spec.beamSource a m l x = 0 := by
  unfold Spec.beamSource Spec.beamX
  simp [h]

theorem odeRHS_spec (h : Spec.Accepted a) (hs : Args.OpticsSpec a O) (hr : a.rescaleFactor O = .ok r)
    (hres : Spec.Rescalable a) (hg : Spec.GaussContract E (Spec.nHalf a)) {l : ℕ} (hl : l < a.NLayers)
    (m : ℕ) (t : ℝ) (u : Vec) {i : ℕ} (hi : i < 2 * Spec.nHalf a) :
    Spec.stream (Spec.nHalf a) (Spec.node E a) i
        * (r * (Spec.scale a l * (a.asm E O r).odeRHS m l (Spec.tauStar a l t) u i))
      = Spec.rteUser a (Spec.node E a) (Spec.weight E a) m l t (fun j => r * u j) i := by
  have hI := rescale_I0 h hs hr hres
  have hA := effA_spec (r := r) hs hg hl m u hi
  have hX := effX_spec (O := O) (r := r) hs hg hl m hi hI
  have hM := mul_muInv (O := O) (r := r) hg hi
  unfold AsmIn.odeRHS Spec.rteUser Spec.rteRHS
  have e1 : ∀ y, Spec.stream (Spec.nHalf a) (Spec.node E a) i
      * (r * (if (a.asm E O r).beam = true then (a.asm E O r).genIn.effX m l i * y else 0))
      = Spec.beamSource a m l (Spec.stream (Spec.nHalf a) (Spec.node E a) i) * y := by
    intro y
    split_ifs with hb
    · rw [← hX]; ring
    · have : a.I0 = 0 := by
        have : ¬ a.I0 > 0 := by simpa [Args.asmIn, Args.Beam] using hb
        exact le_antisymm (not_lt.mp this) h.beam
      rw [beamSource_zero this]; ring
  have e2 : Spec.scale a l * (r * (if m = 0 ∧ (a.asm E O r).iso = true then
        (∑ k ∈ range (a.asm E O r).Nscoeffs, (a.asm E O r).s l k * Spec.tauStar a l t ^ k) else 0))
      = if m = 0 then (1 - a.omega.get l) * Spec.source a l t else 0 := by
    by_cases hm : m = 0
    · by_cases hi : a.Iso
      · have hiso : (a.asm E O r).iso = true := by simpa [Args.asmIn] using hi
        rw [if_pos ⟨hm, hiso⟩, if_pos hm, ← hs.src hi l hl t]
        congr 1
        have hsl : ∀ k, (a.asm E O r).s l k = O.s.get l k / r := by
          intro k; simp [Args.asmIn, hi]
        change r * ∑ k ∈ range a.nsc, (a.asm E O r).s l k * _ = _
        rw [Args.nsc_of_iso hi, mul_sum]
        refine sum_congr rfl fun k _ => ?_
        rw [hsl, ← mul_assoc, rescale_s h hs hr hres hi]
      · have hiso : ¬ (a.asm E O r).iso = true := by simpa [Args.asmIn] using hi
        have hns : Spec.NoSource a := by
          by_contra hc; exact hi (Args.iso_iff.2 hc)
        have : Spec.source a l t = 0 := by
          unfold Spec.source
          split_ifs with hl'
          · exact sum_eq_zero fun k hk => by rw [hns l hl' k (mem_range.mp hk), zero_mul]
          · rfl
        rw [if_neg (by tauto), this]; simp
    · rw [if_neg (by tauto), if_neg hm]; ring
  have e3 : ∀ q : ℝ, (if m = 0 ∧ (a.asm E O r).iso = true then q * (a.asm E O r).muInv i else 0)
      = (if m = 0 ∧ (a.asm E O r).iso = true then q else 0) * (a.asm E O r).muInv i := by
    intro q; split_ifs <;> ring
  rw [e3, ← e2]
  have e1' := e1 (Real.exp (-Spec.tauStar a l t / a.mu0))
  rw [← e1']
  have e4 : ∑ j ∈ range (2 * Spec.nHalf a), Spec.streamW (Spec.nHalf a) (Spec.weight E a) j *
          Spec.kernel a m l (Spec.stream (Spec.nHalf a) (Spec.node E a) i)
            (Spec.stream (Spec.nHalf a) (Spec.node E a) j) * (r * u j)
      = r * ∑ j ∈ range (2 * Spec.nHalf a), Spec.streamW (Spec.nHalf a) (Spec.weight E a) j *
          Spec.kernel a m l (Spec.stream (Spec.nHalf a) (Spec.node E a) i)
            (Spec.stream (Spec.nHalf a) (Spec.node E a) j) * u j := by
    rw [mul_sum]; exact sum_congr rfl fun j _ => by ring
  rw [e4]
  change _ * (r * (_ * (mulVec (2 * Spec.nHalf a) _ u i - _ - _))) = _
  generalize (if m = 0 ∧ (a.asm E O r).iso = true then
        (∑ k ∈ range (a.asm E O r).Nscoeffs, (a.asm E O r).s l k * Spec.tauStar a l t ^ k) else 0) = Q at *
  change _ * (r * (_ * (_ - (if (a.asm E O r).beam = true then _ * Real.exp (-Spec.tauStar a l t / a.mu0) else 0) - _))) = _
  linear_combination (r * Spec.scale a l) * hA - (r * Spec.scale a l * Q) * hM

end
end Pydisort

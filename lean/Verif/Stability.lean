import Verif.Spec.Same
import Verif.SuccessLemmas

/-! Helper lemmas: results depend only on the meaningful entries of arrays. -/

namespace Pydisort
open Finset Spec

/-! ### Array operations -/

theorem bix_lt {a b n i : ℕ} (h : bdim a b = .ok n) (hi : i < n) : bix a i < a := by
  unfold bix
  split_ifs with h1
  · omega
  · unfold bdim at h
    split_ifs at h with h2 h3 <;> cases h <;> omega

theorem bix_lt' {a b n i : ℕ} (h : bdim a b = .ok n) (hi : i < n) : bix b i < b := by
  unfold bix
  split_ifs with h1
  · omega
  · unfold bdim at h
    split_ifs at h with h2 h3 <;> cases h <;> omega

theorem A1.bin_same' {α β γ : Type} (f : α → β → γ) {x x' : A1 α} {y y' : A1 β} (hx : A1.Same x x') (hy : A1.Same y y') :
    SameOutcome A1.Same (A1.bin f x y) (A1.bin f x' y') := by
  unfold A1.bin
  rw [← hx.1, ← hy.1]
  rcases h : bdim x.n y.n with e | n
  · simp [bind, Except.bind, SameOutcome]
  · refine ⟨rfl, fun i hi => ?_⟩
    change i < n at hi
    show f _ _ = f _ _
    rw [hx.2 _ (bix_lt h hi), hy.2 _ (bix_lt' h hi)]

theorem A2.bin_same' {α β γ : Type} (f : α → β → γ) {x x' : A2 α} {y y' : A2 β} (hx : A2.Same x x') (hy : A2.Same y y') :
    SameOutcome A2.Same (A2.bin f x y) (A2.bin f x' y') := by
  unfold A2.bin
  rw [← hx.1, ← hy.1, ← hx.2.1, ← hy.2.1]
  rcases h : bdim x.r y.r with e | n
  · simp [bind, Except.bind, SameOutcome]
  rcases h' : bdim x.c y.c with e | k
  · simp [bind, Except.bind, SameOutcome]
  · refine ⟨rfl, rfl, fun i hi j hj => ?_⟩
    change i < n at hi
    change j < k at hj
    show f _ _ = f _ _
    rw [hx.2.2 _ (bix_lt h hi) _ (bix_lt h' hj), hy.2.2 _ (bix_lt' h hi) _ (bix_lt' h' hj)]

theorem A1.Same.refl {α : Type*} (x : A1 α) : A1.Same x x := ⟨rfl, fun _ _ => rfl⟩
theorem A2.Same.refl {α : Type*} (x : A2 α) : A2.Same x x := ⟨rfl, rfl, fun _ _ _ _ => rfl⟩
theorem A3.Same.refl {α : Type*} (x : A3 α) : A3.Same x x := ⟨rfl, rfl, rfl, fun _ _ _ _ _ _ => rfl⟩

theorem SameOutcome.of_eq {α : Type} {rel : α → α → Prop} (hr : ∀ x, rel x x) {x y : Py α} (h : x = y) :
    SameOutcome rel x y := by
  subst h
  rcases x with e | x
  · exact rfl
  · exact hr x

theorem SameOutcome.bind {α α' β β' : Type} {rel : α → α' → Prop} {rel' : β → β' → Prop} {x : Py α} {y : Py α'}
    {f : α → Py β} {g : α' → Py β'} (h : SameOutcome rel x y) (hf : ∀ u v, rel u v → SameOutcome rel' (f u) (g v)) :
    SameOutcome rel' (x >>= f) (y >>= g) := by
  rcases x with e | x <;> rcases y with e' | y
  · exact h
  · exact h.elim
  · exact h.elim
  · exact hf x y h

/-! ### The system of one Fourier mode -/

theorem mathscrV_congr {n Nc : ℕ} {s : Vec} {G G' : Mat} {K K' g g' : Vec} {tau : ℝ} {q : ℕ}
    (hG : ∀ k < n, G q k = G' q k) (hK : ∀ k < n, K k = K' k) (hg : ∀ k < n, g k = g' k) :
    mathscrV n Nc s G K g tau q = mathscrV n Nc s G' K' g' tau q := by
  have hb : ∀ k < n, ∀ i, bSigma Nc s K k i = bSigma Nc s K' k i := fun k hk i => by
    unfold bSigma; rw [hK k hk]
  unfold mathscrV
  split_ifs
  · congr 1
    exact sum_congr rfl fun k hk => by rw [mem_range] at hk; rw [hG k hk, hK k hk, hg k hk]
  · refine congrArg₂ (· + ·) ?_ ?_
    · congr 1
      exact sum_congr rfl fun k hk => by rw [mem_range] at hk; rw [hG k hk, hK k hk, hg k hk]
    · congr 1
      exact sum_congr rfl fun k hk => by rw [mem_range] at hk; rw [hG k hk, hK k hk, hg k hk]
  · refine sum_congr rfl fun i _ => ?_
    congr 1
    exact sum_congr rfl fun k hk => by rw [mem_range] at hk; rw [hG k hk, hb k hk, hg k hk]

/-- Two boundary systems for mode `m` with the same meaningful entries. -/
structure CoefIn.Agree (c c' : CoefIn) (m : ℕ) : Prop where
  N : c'.N = c.N
  L : c'.NLayers = c.NLayers
  tau0 : c'.tau0 = c.tau0
  mu0 : c'.mu0 = c.mu0
  beam : c'.beam = c.beam
  iso : c'.iso = c.iso
  Nc : c'.Nscoeffs = c.Nscoeffs
  s : c'.s = c.s
  G : ∀ l < c.NLayers, ∀ i < 2 * c.N, ∀ j < 2 * c.N, c'.G m l i j = c.G m l i j
  K : ∀ l < c.NLayers, ∀ j < 2 * c.N, c'.K m l j = c.K m l j
  B : c.beam = true → ∀ l < c.NLayers, ∀ i < 2 * c.N, c'.B m l i = c.B m l i
  Gim : c.iso = true → ∀ l < c.NLayers, ∀ j < 2 * c.N, c'.Gim l j = c.Gim l j

/-- Reflection matrices with the same meaningful entries. -/
def AgreeR (N : ℕ) : Option Mat → Option Mat → Prop
  | none, none => True
  | some R, some R' => ∀ i < N, ∀ j < N, R' i j = R i j
  | _, _ => False

namespace CoefIn
variable {c c' : CoefIn} {m : ℕ}

theorem Agree.dim (h : Agree c c' m) : c'.dim = c.dim := by unfold CoefIn.dim; rw [h.N, h.L]

theorem Agree.part (h : Agree c c' m) {l : ℕ} (hl : l < c.NLayers) (t : ℝ) {q : ℕ} (hq : q < 2 * c.N) :
    c'.part m l t q = c.part m l t q := by
  unfold CoefIn.part
  rw [h.iso, h.beam, h.mu0]
  refine congrArg₂ (· + ·) ?_ ?_
  · by_cases hc : m = 0 ∧ c.iso = true
    · rw [if_pos hc, if_pos hc]
      obtain ⟨rfl, hi⟩ := hc
      unfold vIso
      rw [h.N, h.Nc, h.s]
      exact mathscrV_congr (fun k hk => h.G l hl q hq k hk) (fun k hk => h.K l hl k hk) (fun k hk => h.Gim hi l hl k hk)
    · rw [if_neg hc, if_neg hc]
  · split_ifs with hb
    · rw [h.B hb l hl q hq]
    · rfl

theorem Agree.lhs (h : Agree c c' m) (hN : 0 < c.N) (hL : 0 < c.NLayers) {R R' : Option Mat} (hR : AgreeR c.N R R') :
    ∀ i < c.dim, ∀ j < c.dim, c'.lhs m R' i j = c.lhs m R i j := by
  intro i hi j hj
  have e := lhs_isLhs hN hL m R
  have e' := lhs_isLhs (I := c') (by rw [h.N]; exact hN) (by rw [h.L]; exact hL) m R'
  have hd := h.dim
  have hdp := c.dim_pred hL
  have hj' : j < c'.dim := by rw [hd]; exact hj
  rcases row_cases hN hL hi with hi' | ⟨k, hk, q, hq, rfl⟩ | ⟨t, ht, rfl⟩
  · rw [e.top i hi' j hj, e'.top i (by rw [h.N]; exact hi') j hj']
    unfold topRow E01
    rw [h.N, h.tau0]
    split_ifs with h1 h2
    · rw [h.G 0 hL _ (by omega) _ (by omega)]
    · rw [h.G 0 hL _ (by omega) _ (by omega), h.K 0 hL _ (by omega)]
    · rfl
  · have hj2 := e'.mid k (by rw [h.L]; exact hk) q (by rw [h.N]; exact hq) j hj'
    rw [h.N] at hj2
    rw [e.mid k hk q hq j hj, hj2]
    unfold midRow midBlock Elm1l Ellp1
    rw [h.N, h.tau0]
    split_ifs with h0 h1 h2 h3 h4
    · rfl
    · rw [h.G k (by omega) _ (by omega) _ (by omega), h.K k (by omega) _ (by omega)]
    · rw [h.G k (by omega) _ (by omega) _ (by omega)]
    · rw [h.G (k + 1) (by omega) _ (by omega) _ (by omega)]
    · rw [h.G (k + 1) (by omega) _ (by omega) _ (by omega), h.K (k + 1) (by omega) _ (by omega)]
    · rfl
  · have hj2 := e'.bot t (by rw [h.N]; exact ht) j hj'
    rw [h.N, hd] at hj2
    rw [e.bot t ht j hj, hj2]
    unfold botRow botL botR ELm1L
    rw [h.N, hd, h.L, h.tau0]
    have hLm : c.NLayers - 1 < c.NLayers := by omega
    split_ifs with h0 h1
    · rfl
    · have hb : j - (c.dim - 2 * c.N) < c.N := by omega
      cases R <;> cases R' <;> simp only [AgreeR] at hR
      · simp only
        rw [h.G _ hLm _ (by omega) _ (by omega), h.K _ hLm _ (by omega)]
      · simp only
        rw [h.G _ hLm _ (by omega) _ (by omega), h.K _ hLm _ (by omega)]
        congr 2
        refine sum_congr rfl fun q hq => ?_
        rw [mem_range] at hq
        rw [hR t ht q hq, h.G _ hLm _ (by omega) _ (by omega)]
    · have hb : j - (c.dim - c.N) < c.N := by omega
      cases R <;> cases R' <;> simp only [AgreeR] at hR
      · simp only
        rw [h.G _ hLm _ (by omega) _ (by omega)]
      · simp only
        rw [h.G _ hLm _ (by omega) _ (by omega)]
        congr 1
        refine sum_congr rfl fun q hq => ?_
        rw [mem_range] at hq
        rw [hR t ht q hq, h.G _ hLm _ (by omega) _ (by omega)]

theorem Agree.rhs (h : Agree c c' m) (hN : 0 < c.N) (hL : 0 < c.NLayers) {R R' : Option Mat} (hR : AgreeR c.N R R')
    {bneg bneg' bpos bpos' X X' : Vec} (h1 : ∀ i < c.N, bneg' i = bneg i) (h2 : ∀ i < c.N, bpos' i = bpos i)
    (h3 : c.beam = true → R.isSome → ∀ i < c.N, X' i = X i) (r r' : Vec) :
    ∀ i < c.dim, c'.rhs m bneg' bpos' R' X' r' i = c.rhs m bneg bpos R X r i := by
  intro i hi
  have hd := h.dim
  have hN' : 0 < c'.N := by rw [h.N]; exact hN
  have hL' : 0 < c'.NLayers := by rw [h.L]; exact hL
  rcases row_cases hN hL hi with hi' | ⟨k, hk, q, hq, rfl⟩ | ⟨t, ht, rfl⟩
  · rw [rhs_top c hN hL m _ _ _ _ _ hi', rhs_top c' hN' hL' m _ _ _ _ _ (by rw [h.N]; exact hi'), h1 i hi', h.N,
      h.part hL _ (by omega)]
  · have hx := rhs_mid c' m bneg' bpos' R' X' r' (k := k) (q := q) (by rw [h.L]; exact hk) (by rw [h.N]; exact hq)
    rw [h.N, h.tau0] at hx
    rw [rhs_mid c m _ _ _ _ _ hk hq, hx, h.part (by omega) _ hq, h.part (by omega) _ hq]
  · have hx := rhs_bot c' hN' hL' m bneg' bpos' R' X' r' (i := t) (by rw [h.N]; exact ht)
    rw [h.N, hd, h.tau0, h.L, h.beam, h.mu0] at hx
    have hLm : c.NLayers - 1 < c.NLayers := by omega
    rw [rhs_bot c hN hL m _ _ _ _ _ ht, hx, h2 t ht, h.part hLm _ (by omega)]
    refine congrArg₂ (· + ·) rfl ?_
    cases R <;> cases R' <;> simp only [AgreeR] at hR
    · rfl
    · simp only
      refine congrArg₂ (· + ·) ?_ ?_
      · refine sum_congr rfl fun q hq => ?_
        rw [mem_range] at hq
        rw [hR t ht q hq, h.part hLm _ (by omega)]
      · split_ifs with hb
        · rw [h3 hb rfl t ht]
        · rfl

/-- What the boundary data of mode `m` have to do for the systems to agree. -/
structure AgreeBC (c c' : CoefIn) (m : ℕ) : Prop where
  R : ∀ R, coefR c m = .ok R → ∃ R', coefR c' m = .ok R' ∧ AgreeR c.N R R'
  X : ∀ X, coefX c m = .ok X → ∃ X', coefX c' m = .ok X' ∧
    (c.beam = true → ∀ R, coefR c m = .ok (some R) → ∀ i < c.N, X' i = X i)
  bpos : ∀ v, bcMode c.N m c.bposScalar c.bposVector c.bpos = .ok v →
    ∃ v', bcMode c'.N m c'.bposScalar c'.bposVector c'.bpos = .ok v' ∧ ∀ i < c.N, v' i = v i
  bneg : ∀ v, bcMode c.N m c.bnegScalar c.bnegVector c.bneg = .ok v →
    ∃ v', bcMode c'.N m c'.bnegScalar c'.bnegVector c'.bneg = .ok v' ∧ ∀ i < c.N, v' i = v i

theorem Agree.coefMode (h : Agree c c' m) (hb : AgreeBC c c' m) (hN : 0 < c.N) (hL : 0 < c.NLayers) {x : Vec}
    (hx : coefMode c m = .ok x) : Pydisort.coefMode c' m = .ok x := by
  unfold Pydisort.coefMode at hx ⊢
  rcases hR : coefR c m with e | R
  · rw [hR] at hx; cases hx
  rcases hX : coefX c m with e | X
  · rw [hR] at hx; simp only [bind, Except.bind] at hx; rw [hX] at hx; cases hx
  rcases hp : bcMode c.N m c.bposScalar c.bposVector c.bpos with e | bp
  · rw [hR] at hx; simp only [bind, Except.bind] at hx; rw [hX] at hx; simp only at hx; rw [hp] at hx; cases hx
  rcases hn : bcMode c.N m c.bnegScalar c.bnegVector c.bneg with e | bn
  · rw [hR] at hx; simp only [bind, Except.bind] at hx; rw [hX] at hx; simp only at hx; rw [hp] at hx
    simp only at hx; rw [hn] at hx; cases hx
  obtain ⟨R', hR', aR⟩ := hb.R R hR
  obtain ⟨X', hX', aX⟩ := hb.X X hX
  obtain ⟨bp', hp', ap⟩ := hb.bpos bp hp
  obtain ⟨bn', hn', an⟩ := hb.bneg bn hn
  rw [hR] at hx; simp only [bind, Except.bind] at hx ⊢; rw [hX] at hx; simp only at hx; rw [hp] at hx
  simp only at hx; rw [hn] at hx; simp only at hx
  rw [hR']; simp only; rw [hX']; simp only; rw [hp']; simp only; rw [hn']; simp only
  rw [← hx, h.dim]
  refine npSolve_congr (h.lhs hN hL aR) (h.rhs hN hL aR an ap (fun hbm hs => ?_) _ _)
  obtain ⟨R0, rfl⟩ := Option.isSome_iff_exists.1 hs
  exact aX hbm R0 hR

end CoefIn

/-! ### Eigenvectors and particular solutions -/

/-- Success of the first stage does not depend on uninitialised memory, nor on how many further modes there are. -/
theorem genSol_transfer {E : Ext} {j j' : GenState} {I : GenIn} {out : GenOut} {F : ℕ} (hF : 0 < F) (hFI : F ≤ I.NFourier)
    (h : genSol E j I = .ok out) : ∃ out', genSol E j' { I with NFourier := F } = .ok out' ∧
      (∀ m < F, ∀ l < I.NLayers, (∀ i < 2 * I.N, ∀ k < 2 * I.N, out'.G m l i k = out.G m l i k) ∧
        out'.K m l = out.K m l ∧ (I.beam = true → ∀ i < 2 * I.N, out'.B m l i = out.B m l i)) ∧
      (I.iso = true → ∀ l < I.NLayers, ∀ i < 2 * I.N, ∀ k < 2 * I.N, out'.Ginv0 l i k = out.Ginv0 l i k) := by
  have hs := genSol_spec (by omega) h
  have hok : ∃ out', genSol E j' { I with NFourier := F } = .ok out' := by
    refine genSol_isOk hF (fun hi l hl hsc => ?_) (fun hb m hm l hl hsc hn => ?_)
    · have := ((hs.ginv hi l hl).2 hsc).1
      have e : toM (2 * I.N) (out.G 0 l) = toM (2 * I.N) (I.gScat E 0 l) := by
        ext p q; exact (hs.scatG 0 (by omega) l hl hsc).1 p p.2 q q.2
      rw [e] at this
      exact this
    · have hm' : m < I.NFourier := lt_of_lt_of_le hm hFI
      obtain ⟨A, hA, hd, _⟩ := hs.beamSolve hb m hm' l hl hsc hn
      have e : toM (2 * I.N) (fullA I.N I.mu0 A)
          = toM (2 * I.N) (fun i j => I.coefA m l i j + if i = j then 1 / I.mu0 else 0) := by
        ext p q; exact fullA_eq hA p.2 q.2
      rw [e] at hd
      exact hd
  obtain ⟨out', h'⟩ := hok
  have hs' := genSol_spec (I := { I with NFourier := F }) hF h'
  refine ⟨out', h', ?_⟩
  have hG : ∀ m < F, ∀ l < I.NLayers, (∀ i < 2 * I.N, ∀ k < 2 * I.N, out'.G m l i k = out.G m l i k) ∧
      out'.K m l = out.K m l := by
    intro m hm l hl
    have hm' : m < I.NFourier := lt_of_lt_of_le hm hFI
    by_cases hsc : I.scatters m l
    · have a1 := hs.scatG m hm' l hl hsc
      have a2 := hs'.scatG m hm l hl hsc
      exact ⟨fun i hi k hk => (a2.1 i hi k hk).trans (a1.1 i hi k hk).symm, a2.2.trans a1.2.symm⟩
    · have a1 := hs.trivG m hm' l hl hsc
      have a2 := hs'.trivG m hm l hl hsc
      exact ⟨fun i _ k _ => congrFun (congrFun (a2.1.trans a1.1.symm) i) k, a2.2.1.trans a1.2.1.symm⟩
  have hinv : I.iso = true → ∀ l < I.NLayers, ∀ i < 2 * I.N, ∀ k < 2 * I.N, out'.Ginv0 l i k = out.Ginv0 l i k := by
    intro hi l hl i hi' k hk
    have a1 := hs.ginv hi l hl
    have a2 := hs'.ginv hi l hl
    by_cases hsc : I.scatters 0 l
    · have e : toM (2 * I.N) (out'.G 0 l) = toM (2 * I.N) (out.G 0 l) := by
        ext p q; exact (hG 0 hF l hl).1 p p.2 q q.2
      have b1 := (a1.2 hsc).2
      have b2 := (a2.2 hsc).2
      change toM (2 * I.N) (out'.Ginv0 l) = (toM (2 * I.N) (out'.G 0 l))⁻¹ at b2
      rw [e, ← b1] at b2
      exact congrFun (congrFun b2 ⟨i, hi'⟩) ⟨k, hk⟩
    · exact congrFun (congrFun ((a2.1 hsc).trans (a1.1 hsc).symm) i) k
  refine ⟨fun m hm l hl => ⟨(hG m hm l hl).1, (hG m hm l hl).2, fun hb i hi => ?_⟩, hinv⟩
  have hm' : m < I.NFourier := lt_of_lt_of_le hm hFI
  by_cases hsc : I.scatters m l
  · by_cases hc : m = 0 ∧ I.iso = true
    · obtain ⟨rfl, hiso⟩ := hc
      rw [hs.beamIso hb hiso l hl hsc, hs'.beamIso hb hiso l hl hsc]
      refine sum_congr rfl fun p hp => sum_congr rfl fun q hq => ?_
      rw [mem_range] at hp hq
      rw [(hG 0 hm l hl).1 i hi p hp, (hG 0 hm l hl).2, hinv hiso l hl p hp q hq]
      rfl
    · obtain ⟨A, hA, hd, hB⟩ := hs.beamSolve hb m hm' l hl hsc hc
      obtain ⟨A', hA', hd', hB'⟩ := hs'.beamSolve hb m hm l hl hsc hc
      refine solve_unique hd' (fun i hi => (hB' i hi).trans ?_) i hi
      change i < 2 * I.N at hi
      have : ∀ p < 2 * I.N, ∀ q < 2 * I.N, fullA I.N I.mu0 A' p q = fullA I.N I.mu0 A p q := fun p hp q hq =>
        (fullA_eq (I := { I with NFourier := F }) hA' hp hq).trans (fullA_eq hA hp hq).symm
      refine Eq.symm (Eq.trans ?_ (hB i hi))
      refine sum_congr rfl fun q hq => ?_
      rw [mem_range] at hq
      exact congrArg (· * _) (this i hi q hq)
  · have a1 := hs.trivG m hm' l hl hsc
    have a2 := hs'.trivG m hm l hl hsc
    rw [a1.2.2, a2.2.2]

end Pydisort

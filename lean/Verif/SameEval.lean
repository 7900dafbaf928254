import Verif.Stability

/-! Helper lemmas: calls that differ only in the number of modes, the boundary data or the solver agree. -/

namespace Pydisort
open Finset Spec

/-- The data of a call that only concern the boundary systems. -/
structure BCData where
  bdrf : List BDRFMode
  bpos : BCv
  bneg : BCv
  bposScalar : Bool
  bnegScalar : Bool
  bposVector : Bool
  bnegVector : Bool
  useBanded : Bool

/-- The same problem with other boundary data and number of modes. -/
def AsmIn.withBC (I : AsmIn) (F : ℕ) (D : BCData) : AsmIn :=
  { I with
    NFourier := F, bdrf := D.bdrf, bpos := D.bpos, bneg := D.bneg, bposScalar := D.bposScalar,
    bnegScalar := D.bnegScalar, bposVector := D.bposVector, bnegVector := D.bnegVector, useBanded := D.useBanded }

/-- Two solutions with the same meaningful entries for the first `F` modes. -/
structure SolsAgree (I : AsmIn) (F : ℕ) (S S' : Sols) : Prop where
  GC : ∀ m < F, ∀ l < I.NLayers, ∀ i < 2 * I.N, ∀ k < 2 * I.N, S'.GC m l i k = S.GC m l i k
  G : ∀ m < F, ∀ l < I.NLayers, ∀ i < 2 * I.N, ∀ k < 2 * I.N, S'.G m l i k = S.G m l i k
  K : ∀ m < F, ∀ l < I.NLayers, S'.K m l = S.K m l
  B : I.beam = true → ∀ m < F, ∀ l < I.NLayers, ∀ i < 2 * I.N, S'.B m l i = S.B m l i
  Gim : I.iso = true → ∀ l < I.NLayers, ∀ k < 2 * I.N, S'.Gim l k = S.Gim l k

/-- Two solutions that are evaluated alike in the first `F` modes: eigenvectors and coefficients may differ, but not the sums in which they occur. -/
structure EvalAgree (I : AsmIn) (F : ℕ) (S S' : Sols) : Prop where
  hom : ∀ m < F, ∀ l < I.NLayers, ∀ i < 2 * I.N, ∀ f g : ℝ → ℝ,
    ∑ j ∈ range (2 * I.N), S'.GC m l i j * (if j < I.N then f (S'.K m l j) else g (S'.K m l j))
      = ∑ j ∈ range (2 * I.N), S.GC m l i j * (if j < I.N then f (S.K m l j) else g (S.K m l j))
  B : I.beam = true → ∀ m < F, ∀ l < I.NLayers, ∀ i < 2 * I.N, S'.B m l i = S.B m l i
  iso : I.iso = true → ∀ l < I.NLayers, ∀ i < 2 * I.N, ∀ f : ℝ → ℝ,
    ∑ k ∈ range (2 * I.N), S'.G 0 l i k * (f (S'.K 0 l k) * S'.Gim l k) = ∑ k ∈ range (2 * I.N), S.G 0 l i k * (f (S.K 0 l k) * S.Gim l k)

theorem SolsAgree.eval {I : AsmIn} {F : ℕ} {S S' : Sols} (h : SolsAgree I F S S') (hF : 0 < F) : EvalAgree I F S S' where
  hom m hm l hl i hi f g := sum_congr rfl fun j hj => by rw [h.GC m hm l hl i hi j (mem_range.1 hj), h.K m hm l hl]
  B := h.B
  iso hi l hl i hi' f := sum_congr rfl fun j hj => by
    rw [h.G 0 hF l hl i hi' j (mem_range.1 hj), h.K 0 hF l hl, h.Gim hi l hl j (mem_range.1 hj)]

theorem solveAll_transfer {E : Ext} {J J' : Junk} {I : AsmIn} {S : Sols} {F : ℕ} {D : BCData} (hN : 0 < I.N)
    (hL : 0 < I.NLayers) (hF : 0 < F) (hFI : F ≤ I.NFourier)
    (hbc : ∀ out out', ∀ m < F, CoefIn.AgreeBC (I.coefIn out) ((I.withBC F D).coefIn out') m)
    (h : solveAll E J I = .ok S) : ∃ S', solveAll E J' (I.withBC F D) = .ok S' ∧ SolsAgree I F S S' := by
  unfold solveAll at h ⊢
  rcases hg : genSol E J.gen I.genIn with e | out
  · rw [hg] at h; cases h
  rw [hg] at h
  simp only [bind, Except.bind] at h ⊢
  rcases hc : solveCoeffs (I.coefIn out) J.coef J.rhs with e | GC
  · rw [hc] at h; cases h
  rw [hc] at h
  cases h
  obtain ⟨out', hg', h1, h2⟩ := genSol_transfer (j' := J'.gen) hF (I := I.genIn) hFI hg
  have hg'' : genSol E J'.gen (I.withBC F D).genIn = .ok out' := hg'
  rw [hg'']
  simp only
  obtain ⟨C, hGC, hC⟩ := solveCoeffs_ok (I := I.coefIn out) hN hL hc
  have hgim : I.iso = true → ∀ l < I.NLayers, ∀ k < 2 * I.N, I.gim out'.Ginv0 l k = I.gim out.Ginv0 l k := by
    intro hi l hl k hk
    unfold AsmIn.gim
    refine sum_congr rfl fun q hq => ?_
    rw [mem_range] at hq
    rw [h2 hi l hl k hk q hq]
  have hag : ∀ m < F, CoefIn.Agree (I.coefIn out) ((I.withBC F D).coefIn out') m := fun m hm =>
    ⟨rfl, rfl, rfl, rfl, rfl, rfl, rfl, rfl, fun l hl i hi j hj => (h1 m hm l hl).1 i hi j hj,
      fun l hl j _ => congrFun (h1 m hm l hl).2.1 j, fun hb l hl i hi => (h1 m hm l hl).2.2 hb i hi, hgim⟩
  have hC' : ∀ m < F, coefMode ((I.withBC F D).coefIn out') m = .ok (C m) := fun m hm =>
    (hag m hm).coefMode (hbc out out' m hm) hN hL (hC m (lt_of_lt_of_le hm hFI))
  obtain ⟨GC', hs'⟩ := solveCoeffs_isOk (I := (I.withBC F D).coefIn out') hN hL J'.coef J'.rhs (fun m hm => ⟨_, hC' m hm⟩)
  rw [hs']
  obtain ⟨C', hGC', hC''⟩ := solveCoeffs_ok (I := (I.withBC F D).coefIn out') hN hL hs'
  refine ⟨_, rfl, ⟨fun m hm l hl i hi k hk => ?_, fun m hm l hl => (h1 m hm l hl).1, fun m hm l hl => (h1 m hm l hl).2.1,
    fun hb m hm l hl => (h1 m hm l hl).2.2 hb, hgim⟩⟩
  have e : C' m = C m := by
    have := (hC'' m hm).symm.trans (hC' m hm)
    simpa using this
  simp only [hGC, hGC']
  rw [e]
  show out'.G m l i k * _ = out.G m l i k * _
  rw [(h1 m hm l hl).1 i hi k hk]
  rfl

/-! ### Evaluation -/

theorem mathscrV_same {n Nc : ℕ} {s : Vec} {G G' : Mat} {K K' g g' : Vec} {q : ℕ} (tau : ℝ)
    (h : ∀ f : ℝ → ℝ, ∑ k ∈ range n, G q k * (f (K k) * g k) = ∑ k ∈ range n, G' q k * (f (K' k) * g' k)) :
    mathscrV n Nc s G K g tau q = mathscrV n Nc s G' K' g' tau q := by
  unfold mathscrV
  split_ifs
  · rw [h fun x => s 0 * (1 / x)]
  · rw [h fun x => s 1 * (1 / x), h fun x => s 0 * (1 / x) + s 1 * ((1 / x) * (1 / x))]
  · exact sum_congr rfl fun i _ => congrArg (· * tau ^ (Nc - 1 - i)) (h fun x => bSigma Nc s (fun _ => x) 0 i)

theorem mathscrVAnti_same {n Nc rows : ℕ} {tau sc : A1 ℝ} {l : A1 ℕ} {s : Mat} {G G' : ℕ → Mat} {K K' g g' : ℕ → Vec}
    (hl : ∀ t < l.n, ∀ q < rows, ∀ f : ℝ → ℝ, ∑ k ∈ range n, G (l.get t) q k * (f (K (l.get t) k) * g (l.get t) k)
      = ∑ k ∈ range n, G' (l.get t) q k * (f (K' (l.get t) k) * g' (l.get t) k)) :
    SameOutcome A2.Same (mathscrVAnti n Nc rows tau sc l s G K g) (mathscrVAnti n Nc rows tau sc l s G' K' g') := by
  unfold mathscrVAnti
  split_ifs
  · refine SameOutcome.bind (rel := A1.Same) (SameOutcome.of_eq A1.Same.refl rfl) fun u v huv =>
      A2.bin_same' _ ⟨rfl, rfl, fun q hq t ht => ?_⟩ ⟨rfl, huv.1, fun _ _ j hj => huv.2 j hj⟩
    exact hl t ht q hq fun x => s (l.get t) 0 * (1 / x)
  · refine A2.bin_same' _ ⟨rfl, rfl, fun q hq t ht => ?_⟩ (A2.Same.refl _)
    refine congrArg₂ (· + ·) ?_ ?_
    · exact congrArg (· * (tau.get t * tau.get t / 2)) (hl t ht q hq fun x => s (l.get t) 1 * (1 / x))
    · exact congrArg (· * tau.get t) (hl t ht q hq fun x => s (l.get t) 0 * (1 / x) + s (l.get t) 1 * ((1 / x) * (1 / x)))
  · rcases A1.bin (fun a b => a * b) ⟨Nc, fun i => (((Nc - 1 - i) + 1 : ℕ) : ℝ)⟩ sc with e | den
    · exact rfl
    simp only [bind, Except.bind]
    rcases bdim Nc den.n with e | d
    · exact rfl
    refine ⟨rfl, rfl, fun q hq t ht => ?_⟩
    show ∑ i ∈ range Nc, _ = ∑ i ∈ range Nc, _
    refine sum_congr rfl fun i _ => ?_
    exact congrArg (· * (tau.get t ^ ((Nc - 1 - i) + 1) / den.get (bix den.n i))) (hl t ht q hq fun x => bSigma Nc (s (l.get t)) (fun _ => x) 0 i)

namespace AsmIn
variable {I : AsmIn} {S S' : Sols} {F F' : ℕ} {D : BCData}

theorem layer_lt' (hL : 0 < I.NLayers) (t : ℝ) : I.layer t < I.NLayers := by
  unfold layer argmaxTrue
  split_ifs with hx
  · classical exact (Nat.find_spec hx).1
  · exact hL

theorem exp_exponent (t : ℝ) (m j : ℕ) : Real.exp (I.exponent S m t j) = if j < I.N then Real.exp (S.K m (I.layer t) j * (I.scaledTau t - I.tau0 (I.layer t)))
    else Real.exp (S.K m (I.layer t) j * (I.scaledTau t - I.tau0 (I.layer t + 1))) := by
  unfold exponent
  split_ifs <;> rfl

theorem homSum_same (hS : EvalAgree I F S S') (hL : 0 < I.NLayers) {m : ℕ} (hm : m < F) {i : ℕ} (hi : i < 2 * I.N) (t : ℝ) :
    (∑ j ∈ range (2 * I.N), S'.GC m (I.layer t) i j * Real.exp ((I.withBC F' D).exponent S' m t j))
    = ∑ j ∈ range (2 * I.N), S.GC m (I.layer t) i j * Real.exp (I.exponent S m t j) := by
  have e := hS.hom m hm _ (layer_lt' hL t) i hi (fun x => Real.exp (x * (I.scaledTau t - I.tau0 (I.layer t))))
    fun x => Real.exp (x * (I.scaledTau t - I.tau0 (I.layer t + 1)))
  rw [sum_congr rfl fun j _ => congrArg (S'.GC m (I.layer t) i j * ·) (exp_exponent (I := I.withBC F' D) (S := S') t m j),
    sum_congr rfl fun j _ => congrArg (S.GC m (I.layer t) i j * ·) (exp_exponent (I := I) (S := S) t m j)]
  exact e

theorem antiSum_same (hS : EvalAgree I F S S') (hL : 0 < I.NLayers) {m : ℕ} (hm : m < F) {i : ℕ} (hi : i < 2 * I.N) (t : ℝ) :
    (∑ j ∈ range (2 * I.N), S'.GC m (I.layer t) i j
      * (Real.exp ((I.withBC F' D).exponent S' m t j) / (I.scale (I.layer t) * S'.K m (I.layer t) j)))
    = ∑ j ∈ range (2 * I.N), S.GC m (I.layer t) i j
      * (Real.exp (I.exponent S m t j) / (I.scale (I.layer t) * S.K m (I.layer t) j)) := by
  have e := hS.hom m hm _ (layer_lt' hL t) i hi (fun x => Real.exp (x * (I.scaledTau t - I.tau0 (I.layer t))) / (I.scale (I.layer t) * x))
    fun x => Real.exp (x * (I.scaledTau t - I.tau0 (I.layer t + 1))) / (I.scale (I.layer t) * x)
  have h1 : ∀ (I : AsmIn) (S : Sols) (j : ℕ), Real.exp (I.exponent S m t j) / (I.scale (I.layer t) * S.K m (I.layer t) j)
      = if j < I.N then Real.exp (S.K m (I.layer t) j * (I.scaledTau t - I.tau0 (I.layer t))) / (I.scale (I.layer t) * S.K m (I.layer t) j)
        else Real.exp (S.K m (I.layer t) j * (I.scaledTau t - I.tau0 (I.layer t + 1))) / (I.scale (I.layer t) * S.K m (I.layer t) j) := by
    intro I S j
    rw [exp_exponent]
    split_ifs <;> rfl
  rw [sum_congr rfl fun j _ => congrArg (S.GC m (I.layer t) i j * ·) (h1 I S j)]
  rw [← e]
  exact sum_congr rfl fun j _ => congrArg (S'.GC m (I.layer t) i j * ·) (h1 (I.withBC F' D) S' j)

theorem umPlain_same (hS : EvalAgree I F S S') (hL : 0 < I.NLayers) {m : ℕ} (hm : m < F) {i : ℕ} (hi : i < 2 * I.N) (t : ℝ) :
    (I.withBC F' D).umPlain S' m i t = I.umPlain S m i t := by
  unfold umPlain
  refine congrArg₂ (· + ·) (homSum_same hS hL hm hi t) ?_
  change (if I.beam = true then S'.B m (I.layer t) i * Real.exp (-I.scaledTau t / I.mu0) else 0) = _
  split_ifs with hb
  · rw [hS.B hb m hm _ (layer_lt' hL t) i hi]
  · rfl

theorem umAnti_same (hS : EvalAgree I F S S') (hL : 0 < I.NLayers) {m : ℕ} (hm : m < F) {i : ℕ} (hi : i < 2 * I.N) (t : ℝ) :
    (I.withBC F' D).umAnti S' m i t = I.umAnti S m i t := by
  unfold umAnti
  refine congrArg₂ (· + ·) (antiSum_same hS hL hm hi t) ?_
  change (if I.beam = true then S'.B m (I.layer t) i / (-I.scale (I.layer t) / I.mu0)
    * Real.exp (-I.scaledTau t / I.mu0) else 0) = _
  split_ifs with hb
  · rw [hS.B hb m hm _ (layer_lt' hL t) i hi]
  · rfl

theorem isoPart_same (hS : EvalAgree I F S S') (hL : 0 < I.NLayers) (hi : I.iso = true) (tau : A1 ℝ) (anti : Bool)
    {row0 rows : ℕ} (hr : row0 + rows ≤ 2 * I.N) :
    SameOutcome A2.Same (I.isoPart S tau anti row0 rows) ((I.withBC F' D).isoPart S' tau anti row0 rows) := by
  unfold isoPart
  split_ifs with ha
  · exact mathscrVAnti_same fun t _ q hq f => (hS.iso hi _ (layer_lt' hL (tau.get t)) (row0 + q) (by omega) f).symm
  · refine ⟨rfl, rfl, fun q hq t _ => ?_⟩
    change q < rows at hq
    exact mathscrV_same _ fun f => (hS.iso hi _ (layer_lt' hL (tau.get t)) (row0 + q) (by omega) f).symm

theorem addIso_same (hS : EvalAgree I F S S') (hL : 0 < I.NLayers) (tau : A1 ℝ) (anti : Bool)
    {row0 rows : ℕ} (hr : row0 + rows ≤ 2 * I.N) {x x' : A2 ℝ} (hx : A2.Same x x') :
    SameOutcome A2.Same (I.addIso S tau anti row0 rows x) ((I.withBC F' D).addIso S' tau anti row0 rows x') := by
  unfold addIso
  change SameOutcome A2.Same _ (if I.iso = true then _ else _)
  split_ifs with hi
  · exact SameOutcome.bind (isoPart_same hS hL hi tau anti hr) fun u v huv => A2.bin_same' _ hx huv
  · exact hx

theorem checkTau_same (tau : A1 ℝ) : (I.withBC F' D).checkTau tau = I.checkTau tau := rfl

theorem u0_same (hS : EvalAgree I F S S') (hL : 0 < I.NLayers) (hF : 0 < F) (tau : A1 ℝ) (anti : Bool) :
    SameOutcome A2.Same (I.u0 S tau anti) ((I.withBC F' D).u0 S' tau anti) := by
  unfold u0
  refine SameOutcome.bind (rel := Eq) (SameOutcome.of_eq (fun _ => rfl) (checkTau_same tau).symm) fun _ _ _ => ?_
  refine SameOutcome.bind (addIso_same (rows := 2 * I.N) hS hL tau anti (by omega) ?_) fun u v huv => ?_
  · unfold u0Raw
    change A2.Same _ (if anti = true ∧ I.beam = true then _ else _)
    split_ifs
    · exact ⟨rfl, rfl, fun i hi t _ => (umAnti_same hS hL hF hi _).symm⟩
    · exact ⟨rfl, rfl, fun i hi t _ => (umPlain_same hS hL hF hi _).symm⟩
  · exact ⟨huv.1, huv.2.1, fun i hi j hj => congrArg (I.rescale * ·) (huv.2.2 i hi j hj)⟩

theorem fluxQuad_same {x x' : A2 ℝ} (h : A2.Same x x') (hr : I.N ≤ x.r) :
    A1.Same (I.fluxQuad x) ((I.withBC F' D).fluxQuad x') := by
  refine ⟨h.2.1, fun t ht => ?_⟩
  show ∑ i ∈ range I.N, (2 * Real.pi * (I.mu i * I.W i)) * x.get i t
    = ∑ i ∈ range I.N, (2 * Real.pi * (I.mu i * I.W i)) * x'.get i t
  exact sum_congr rfl fun i hi => congrArg ((2 * Real.pi * (I.mu i * I.W i)) * ·)
    (h.2.2 i (by rw [mem_range] at hi; omega) t ht)

/-- The rows of the array the isotropic part is added to. -/
theorem addIso_rows {tau : A1 ℝ} {anti : Bool} {row0 rows : ℕ} {x z : A2 ℝ} (hx : x.r = rows) (h0 : 0 < rows)
    (h : I.addIso S tau anti row0 rows x = .ok z) : z.r = rows := by
  have hv : ∀ v, I.isoPart S tau anti row0 rows = .ok v → v.r = rows := by
    intro v hv
    unfold isoPart at hv
    split_ifs at hv
    · unfold mathscrVAnti at hv
      split_ifs at hv
      · rcases hb : A1.bin (fun a b => a / b) (tau.map I.scaledTau) ⟨I.NLayers, I.scale⟩ with e | p
        · rw [hb] at hv; cases hv
        · rw [hb] at hv
          simp only [bind, Except.bind, A2.bin, A1.row] at hv
          rw [bdim_one_right] at hv
          simp only at hv
          split at hv <;> cases hv
          rfl
      · simp only [bind, Except.bind, A2.bin, A1.row] at hv
        rw [bdim_one_right] at hv
        simp only at hv
        split at hv <;> cases hv
        rfl
      · simp only [bind, Except.bind] at hv
        split at hv
        · cases hv
        · split at hv <;> cases hv
          rfl
    · cases hv; rfl
  unfold addIso at h
  split_ifs at h
  · rcases hb : I.isoPart S tau anti row0 rows with e | v
    · rw [hb] at h; cases h
    · rw [hb] at h
      simp only [bind, Except.bind, A2.bin, hv v hb, hx] at h
      rw [bdim_self] at h
      simp only at h
      split at h <;> cases h
      rfl
  · cases h; exact hx

theorem SameOutcome.bind' {α α' β β' : Type} {rel : α → α' → Prop} {rel' : β → β' → Prop} {x : Py α} {y : Py α'}
    {f : α → Py β} {g : α' → Py β'} (h : SameOutcome rel x y)
    (hf : ∀ u v, x = .ok u → rel u v → SameOutcome rel' (f u) (g v)) :
    SameOutcome rel' (x >>= f) (y >>= g) := by
  rcases x with e | x <;> rcases y with e' | y
  · exact h
  · exact h.elim
  · exact h.elim
  · exact hf x y rfl h

theorem fluxUp_same (hS : EvalAgree I F S S') (hN : 0 < I.N) (hL : 0 < I.NLayers) (hF : 0 < F) (tau : A1 ℝ) (anti : Bool) :
    SameOutcome A1.Same (I.fluxUp S tau anti) ((I.withBC F' D).fluxUp S' tau anti) := by
  unfold fluxUp
  refine SameOutcome.bind (rel := Eq) (SameOutcome.of_eq (fun _ => rfl) (checkTau_same tau).symm) fun _ _ _ => ?_
  refine SameOutcome.bind' (addIso_same (rows := I.N) hS hL tau anti (by omega) ?_) fun u v hu huv => ?_
  · refine ⟨rfl, rfl, fun i hi t _ => ?_⟩
    change i < I.N at hi
    show (if _ then _ else _) = if _ then _ else _
    rw [umAnti_same hS hL hF (by omega), umPlain_same hS hL hF (by omega)]
  · have := addIso_rows (x := ⟨I.N, tau.n, _⟩) rfl hN hu
    have h2 := fluxQuad_same (F' := F') (D := D) huv this.ge
    exact ⟨h2.1, fun i hi => congrArg (I.rescale * ·) (h2.2 i hi)⟩

theorem fluxDown_same (hS : EvalAgree I F S S') (hN : 0 < I.N) (hL : 0 < I.NLayers) (hF : 0 < F) (tau : A1 ℝ) (anti : Bool) :
    SameOutcome SameDown (I.fluxDown S tau anti) ((I.withBC F' D).fluxDown S' tau anti) := by
  unfold fluxDown
  refine SameOutcome.bind (rel := Eq) (SameOutcome.of_eq (fun _ => rfl) (checkTau_same tau).symm) fun _ _ _ => ?_
  have hraw : SameOutcome (fun x y => A2.Same x y ∧ x.r = I.N) (I.fluxDownRaw S tau anti) ((I.withBC F' D).fluxDownRaw S' tau anti) := by
    unfold fluxDownRaw
    change SameOutcome _ _ (if anti = true then if I.beam = true then _ else _ else _)
    split_ifs with ha hb
    · refine SameOutcome.bind (rel := fun x y => A2.Same x y ∧ x.r = I.N ∧ x.c = tau.n) ?_ fun u v huv => ?_
      · unfold fluxDownAntiBeam
        change SameOutcome _ _ (bdim I.NLayers tau.n >>= _)
        rcases bdim I.NLayers tau.n with e | d
        · exact rfl
        simp only [bind, Except.bind]
        change SameOutcome _ _ (if ∃ t < tau.n, d ≤ I.layer (tau.get t) then _ else _)
        split_ifs with hx
        · exact rfl
        · refine ⟨⟨rfl, rfl, fun i hi t ht => ?_⟩, rfl, rfl⟩
          change i < I.N at hi
          have hl := layer_lt' hL (tau.get t)
          show S.B 0 (bix I.NLayers (I.layer (tau.get t))) (I.N + i) / _ * _
            = S'.B 0 (bix I.NLayers (I.layer (tau.get t))) (I.N + i) / _ * _
          rw [hS.B hb 0 hF _ (by rw [bix_of_lt hl]; exact hl) _ (by omega)]
          rfl
      · refine ⟨⟨rfl, rfl, fun i hi t ht => ?_⟩, rfl⟩
        change i < I.N at hi
        change t < tau.n at ht
        refine congrArg₂ (· + ·) (antiSum_same (F' := F') (D := D) hS hL hF (i := I.N + i) (by omega) (tau.get t)).symm ?_
        exact huv.1.2.2 i (by rw [huv.2.1]; exact hi) t (by rw [huv.2.2]; exact ht)
    · exact ⟨⟨rfl, rfl, fun i hi t _ => (umAnti_same hS hL hF (by change i < I.N at hi; omega) _).symm⟩, rfl⟩
    · exact ⟨⟨rfl, rfl, fun i hi t _ => (umPlain_same hS hL hF (by change i < I.N at hi; omega) _).symm⟩, rfl⟩
  refine SameOutcome.bind hraw fun u v huv => ?_
  refine SameOutcome.bind' (addIso_same (rows := I.N) hS hL tau anti (by omega) huv.1) fun y z hy hyz => ?_
  have hrows := addIso_rows huv.2 hN hy
  have h2 := fluxQuad_same (F' := F') (D := D) hyz hrows.ge
  change SameOutcome _ _ (if I.beam = true then _ else _)
  split_ifs with hb
  · refine SameOutcome.bind (A1.bin_same' _ h2 (A1.Same.refl _)) fun p q hpq => ?_
    refine SameOutcome.bind (A1.bin_same' _ hpq (A1.Same.refl _)) fun p q hpq => ?_
    exact ⟨⟨hpq.1, fun i hi => congrArg (I.rescale * ·) (hpq.2 i hi)⟩, A1.Same.refl _, rfl⟩
  · exact ⟨⟨h2.1, fun i hi => congrArg (fun x => I.rescale * (x + 0 - 0)) (h2.2 i hi)⟩, A1.Same.refl _, rfl⟩

theorem um0_same (hS : EvalAgree I I.NFourier S S') (hN : 0 < I.N) (hL : 0 < I.NLayers) (hF : 0 < I.NFourier) (tau : A1 ℝ)
    (anti : Bool) : SameOutcome (fun x y => A2.Same x y ∧ x.r = 2 * I.N ∧ (x.c = tau.n ∨ I.NFourier = 1)) (I.um0 S tau anti)
      ((I.withBC I.NFourier D).um0 S' tau anti) := by
  unfold um0
  change SameOutcome _ _ (if I.iso = true then _ else _)
  simp only
  have hraw : A2.Same ⟨2 * I.N, tau.n, fun i t => if anti = true then I.umAnti S 0 i (tau.get t) else I.umPlain S 0 i (tau.get t)⟩
    ⟨2 * I.N, tau.n, fun i t => if anti = true then (I.withBC I.NFourier D).umAnti S' 0 i (tau.get t)
      else (I.withBC I.NFourier D).umPlain S' 0 i (tau.get t)⟩ := by
    refine ⟨rfl, rfl, fun i hi t _ => ?_⟩
    show (if _ then _ else _) = if _ then _ else _
    rw [umAnti_same hS hL hF hi, umPlain_same hS hL hF hi]
  by_cases hi : I.iso = true
  · rw [if_pos hi, if_pos hi]
    refine SameOutcome.bind' (addIso_same (rows := 2 * I.N) hS hL tau anti (by omega) hraw) fun y z hy hyz => ?_
    have hrows := addIso_rows (x := ⟨2 * I.N, tau.n, _⟩) (rows := 2 * I.N) rfl (by omega) hy
    change SameOutcome _ _ (if I.NFourier = 1 ∨ z.c = tau.n then _ else _)
    rw [← hyz.2.1]
    split_ifs with hc
    · exact ⟨hyz, hrows, hc.symm⟩
    · exact rfl
  · rw [if_neg hi, if_neg hi]
    exact ⟨hraw, rfl, Or.inl rfl⟩

theorem u_same (hS : EvalAgree I I.NFourier S S') (hN : 0 < I.N) (hL : 0 < I.NLayers) (hF : 0 < I.NFourier) (tau phi : A1 ℝ)
    (anti : Bool) : SameOutcome A3.Same (I.u S tau phi anti) ((I.withBC I.NFourier D).u S' tau phi anti) := by
  unfold u uRaw
  refine SameOutcome.bind (rel := A3.Same) ?_ fun u v huv => ?_
  · refine SameOutcome.bind (rel := Eq) (SameOutcome.of_eq (fun _ => rfl) (checkTau_same tau).symm) fun _ _ _ => ?_
    refine SameOutcome.bind (um0_same hS hN hL hF tau anti) fun u v huv => ?_
    obtain ⟨huv, hr, hc⟩ := huv
    refine ⟨rfl, huv.2.1, rfl, fun i hi t ht p _ => ?_⟩
    change i < 2 * I.N at hi
    change t < u.c at ht
    show ∑ m ∈ range I.NFourier, _ = ∑ m ∈ range I.NFourier, _
    refine sum_congr rfl fun m hm => ?_
    rw [mem_range] at hm
    refine congrArg₂ (· * ·) ?_ rfl
    split_ifs with h0 h1
    · exact huv.2.2 i (by rw [hr]; exact hi) t ht
    · exact (umAnti_same hS hL hm hi _).symm
    · exact (umPlain_same hS hL hm hi _).symm
  · exact ⟨huv.1, huv.2.1, huv.2.2.1, fun i hi t ht p hp => congrArg (I.rescale * ·) (huv.2.2.2 i hi t ht p hp)⟩

end AsmIn

theorem sameFluxes_of_eval {R R' : Solved} {F F' : ℕ} {D : BCData} (hN : 0 < R.I.N) (hL : 0 < R.I.NLayers) (hF : 0 < F)
    (hI : R'.I = R.I.withBC F' D) (hS : EvalAgree R.I F R.S R'.S) : SameFluxes R R' := by
  obtain ⟨I', S', nt', o'⟩ := R'
  subst hI
  exact ⟨A1.Same.refl _, fun tau anti => AsmIn.u0_same hS hL hF tau anti,
    fun tau anti => AsmIn.fluxUp_same hS hN hL hF tau anti, fun tau anti => AsmIn.fluxDown_same hS hN hL hF tau anti⟩

theorem sameFluxes_of {R R' : Solved} {F F' : ℕ} {D : BCData} (hN : 0 < R.I.N) (hL : 0 < R.I.NLayers) (hF : 0 < F)
    (hI : R'.I = R.I.withBC F' D) (hS : SolsAgree R.I F R.S R'.S) : SameFluxes R R' := sameFluxes_of_eval hN hL hF hI (hS.eval hF)

theorem sameResults_of_eval {R R' : Solved} {D : BCData} (hN : 0 < R.I.N) (hL : 0 < R.I.NLayers) (hF : 0 < R.I.NFourier)
    (hI : R'.I = R.I.withBC R.I.NFourier D) (hS : EvalAgree R.I R.I.NFourier R.S R'.S) (ho : R'.onlyFlux = R.onlyFlux)
    (hnt : R'.nt = R.nt) : SameResults R R' := by
  refine ⟨sameFluxes_of_eval hN hL hF hI hS, fun tau phi anti => ?_⟩
  obtain ⟨I', S', nt', o'⟩ := R'
  subst hI
  have hu : SameOutcome A3.Same (R.uUncorrected tau phi anti)
      (Solved.uUncorrected ⟨R.I.withBC R.I.NFourier D, S', nt', o'⟩ tau phi anti) := AsmIn.u_same hS hN hL hF tau phi anti
  unfold Solved.u
  change o' = _ at ho
  change nt' = _ at hnt
  subst ho
  subst hnt
  simp only
  split_ifs
  · exact rfl
  · rcases R.nt with _ | nt
    · exact hu
    · simp only [Solved.uCorrected]
      refine SameOutcome.bind hu fun x y hxy => ?_
      change SameOutcome _ _ (nt.corr tau phi anti (fun t => R.I.layer (tau.get t)) >>= _)
      rcases nt.corr tau phi anti (fun t => R.I.layer (tau.get t)) with e | c
      · exact rfl
      simp only [bind, Except.bind, addSqueezed]
      rw [← hxy.1, ← hxy.2.1, ← hxy.2.2.1]
      split_ifs
      · exact ⟨rfl, rfl, rfl, fun i hi t ht p hp => congrArg (· + R.I.rescale * c.get i t p) (hxy.2.2.2 i hi t ht p hp)⟩
      · exact ⟨rfl, rfl, rfl, fun i hi t ht p hp => congrArg (· + R.I.rescale * c.get t 0 p) (hxy.2.2.2 i hi t ht p hp)⟩
      · exact rfl

theorem sameResults_of {R R' : Solved} {D : BCData} (hN : 0 < R.I.N) (hL : 0 < R.I.NLayers) (hF : 0 < R.I.NFourier)
    (hI : R'.I = R.I.withBC R.I.NFourier D) (hS : SolsAgree R.I R.I.NFourier R.S R'.S) (ho : R'.onlyFlux = R.onlyFlux)
    (hnt : R'.nt = R.nt) : SameResults R R' := sameResults_of_eval hN hL hF hI (hS.eval hF) ho hnt

end Pydisort

namespace Pydisort
open Finset Spec

open Classical in
/-- A second call that differs only in boundary data, number of modes or solver. -/
theorem call_transfer {E : Ext} {J J' : Junk} {a a' : Args} {R : Solved} {F : ℕ} {D : ℝ → BCData}
    (h : pydisort E J a = .ok R) (hacc : Accepted a') (hq : a'.quad E = a.quad E) (hopt : a'.optics = a.optics)
    (hres : ∀ O, a'.rescaleFactor O = a.rescaleFactor O)
    (hI : ∀ mu W O r, a'.asmIn mu W O r = (a.asmIn mu W O r).withBC F (D (a.rescaleDiv r))) (hF : 0 < F) (hFI : F ≤ Spec.nFourier a)
    (hbc : ∀ O r out out', ∀ m < F, CoefIn.AgreeBC ((a.asm E O r).coefIn out)
      (((a.asm E O r).withBC F (D (a.rescaleDiv r))).coefIn out') m) :
    ∃ R' d, pydisort E J' a' = .ok R' ∧ R'.I = R.I.withBC F (D d) ∧ SolsAgree R.I F R.S R'.S ∧ R'.onlyFlux = a'.onlyFlux ∧
      ((a'.NTGate ↔ a.NTGate) → (∀ mu O r, a'.ntIn mu O r = a.ntIn mu O r) → R'.nt = R.nt) := by
  have hok := pydisort_ok h
  unfold pydisort at h
  rcases h1 : prepare E a with e | p
  · rw [h1] at h; cases h
  rw [h1] at h; simp only [bind, Except.bind] at h
  rcases h2 : solveAll E J p.1 with e | S
  · rw [h2] at h; cases h
  rw [h2] at h
  have hp := prepare_ok h1
  obtain ⟨hacca, O, r, hO, hr, hpe⟩ := hp
  subst hpe
  have hn : 0 < nHalf a := by have := hacca.streams.1; unfold nHalf; omega
  obtain ⟨S', h3, h4⟩ := solveAll_transfer (J' := J') (F := F) (D := D (a.rescaleDiv r)) (I := a.asm E O r) hn hacca.layers hF
    (by show F ≤ a.nFourier.toNat; rw [nFourier_eq]; exact hFI) (hbc O r) h2
  have hprep : prepare E a' = .ok ((a.asm E O r).withBC F (D (a.rescaleDiv r)), a'.ntIn (node E a) O r) := by
    unfold prepare at h1 ⊢
    rw [Args.validate_iff.2 hacca] at h1
    rw [Args.validate_iff.2 hacc, hq, hopt]
    simp only [bind, Except.bind] at h1 ⊢
    rcases h5 : a.quad E with e | q
    · rw [h5] at h1; cases h1
    rw [h5, hO] at h1
    simp only at h1
    rw [hO]
    simp only
    rw [hr] at h1
    rw [hres, hr]
    simp only at h1 ⊢
    have h6 : a.asmIn q.1.get q.2.get O r = a.asm E O r ∧ a.ntIn q.1.get O r = a.ntIn (node E a) O r := by
      have := Except.ok.inj h1
      exact ⟨congrArg Prod.fst this, congrArg Prod.snd this⟩
    have h7 : q.1.get = node E a := congrArg AsmIn.mu h6.1
    rw [hI, h6.1, h7]
    rfl
  cases h
  refine ⟨⟨(a.asm E O r).withBC F (D (a.rescaleDiv r)), S', if a'.NTGate then some (a'.ntIn (node E a) O r) else none,
    a'.onlyFlux⟩, a.rescaleDiv r, ?_, rfl, h4, rfl, ?_⟩
  · unfold pydisort
    rw [hprep]
    simp only [bind, Except.bind]
    rw [h3]
    rfl
  · intro hg hnt
    simp only [hnt]
    by_cases h5 : a.NTGate
    · simp [h5, hg.2 h5]
    · simp [h5, (not_congr hg).2 h5]

theorem CoefIn.AgreeBC.refl' {c c' : CoefIn} {m : ℕ} (h1 : c'.N = c.N) (h2 : c'.mu = c.mu) (h3 : c'.muW = c.muW)
    (h4 : c'.mu0 = c.mu0) (h5 : c'.I0div4pi = c.I0div4pi) (h6 : c'.beam = c.beam) (h7 : c'.bdrf = c.bdrf)
    (h8 : c'.bpos = c.bpos) (h9 : c'.bneg = c.bneg) (h10 : c'.bposScalar = c.bposScalar)
    (h11 : c'.bnegScalar = c.bnegScalar) (h12 : c'.bposVector = c.bposVector) (h13 : c'.bnegVector = c.bnegVector) :
    CoefIn.AgreeBC c c' m := by
  have hR : coefR c' m = coefR c m := by unfold coefR; rw [h1, h2, h3, h7]
  have hX : coefX c' m = coefX c m := by unfold coefX; rw [h1, h2, h4, h5, h6, h7]
  refine ⟨fun R h => ⟨R, hR.trans h, ?_⟩, fun X h => ⟨X, hX.trans h, fun _ _ _ _ _ => rfl⟩, fun v h => ⟨v, ?_, fun _ _ => rfl⟩,
    fun v h => ⟨v, ?_, fun _ _ => rfl⟩⟩
  · cases R with
    | none => exact trivial
    | some R => exact fun _ _ _ _ => rfl
  · rw [h1, h10, h12, h8]; exact h
  · rw [h1, h11, h13, h9]; exact h

end Pydisort

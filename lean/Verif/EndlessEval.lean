import Verif.EndlessMode

/-!
# What the functions returned by a call with a boundary at infinity yield
-/

namespace Pydisort
open Finset Pydisort.Spec

section
variable {E : Ext} {a : Args} {O : Optics} {r : ℝ} {out : GenOut} {C : ℕ → Vec} {GC : ℕ → ℕ → ℕ → ℕ → Fl}

/-- What the returned functions use. -/
noncomputable abbrev endF (E : Ext) (a : Args) (O : Optics) (r : ℝ) (out : GenOut) (GC : ℕ → ℕ → ℕ → ℕ → Fl) : AsmF :=
  (a.asm E O r).lastF (a.tauF .pinf) (a.tau0F .pinf) out GC

theorem endF_layer (t : ℝ) : (endF E a O r out GC).layer (.fin t) = endLayer a t := rfl

theorem endF_check (hacc : Accepted a) {tau : A1 ℝ} (h : ∀ k < tau.n, 0 ≤ tau.get k) : (endF E a O r out GC).checkTau (tau.map .fin) = .ok () := by
  have hn := hacc.layers
  unfold AsmF.checkTau
  refine if_neg ?_
  rintro (⟨k, hk, h1⟩ | ⟨k, hk, h1⟩)
  · have h2 : tau.get k < 0 := h1
    have := h k hk
    linarith
  · change Fl.lt (a.tauF .pinf (a.tauArr.n - 1)) (.fin (tau.get k)) at h1
    unfold Args.tauF at h1
    rw [if_pos (by omega)] at h1
    exact h1

theorem endF_scaled_any (hs : Args.OpticsSpec a O) : (∃ k < (endF E a O r out GC).NLayers, ¬ Fl.eqv ((endF E a O r out GC).scale k) (.fin 1)) ↔ ¬ Unscaled a := by
  unfold Unscaled
  push Not
  refine exists_congr fun k => and_congr_right fun hk => not_congr ?_
  change O.scale k = 1 ↔ scale a k = 1
  rw [hs.scale k hk]

theorem endF_scaledTau (hs : Args.OpticsSpec a O) (hO : a.optics = .ok O) {l : ℕ} (hl : l < a.tauArr.n) {t : ℝ} (ht : endLayer a t = l)
    (hc : l + 1 < a.tauArr.n ∨ Unscaled a) : (endF E a O r out GC).scaledTau (.fin t) = .fin (tauStar a l t) := by
  unfold AsmF.scaledTau
  by_cases hu : Unscaled a
  · rw [tauStar_unscaled hu hl]
    exact if_neg fun h => (endF_scaled_any hs).1 h hu
  · have hl1 : l + 1 < a.tauArr.n := hc.resolve_right hu
    refine (if_pos ((endF_scaled_any hs).2 hu)).trans ?_
    rw [endF_layer, ht]
    change Fl.sub (a.tau0F .pinf (l + 1)) (Fl.mul (Fl.sub (a.tauF .pinf l) (.fin t)) (.fin (O.scale l))) = _
    rw [tau0F_above hO .pinf hl1, hs.tau0 (l + 1) hl1.le, hs.scale l hl]
    unfold Args.tauF
    rw [if_neg (by omega), Fl.fin_sub, Fl.fin_mul, Fl.fin_sub, bdryStar_eq, Spec.bdry_succ]
    congr 1
    unfold tauStar
    ring

theorem endF_scaledTau_nan (hacc : Accepted a) (hs : Args.OpticsSpec a O) (hO : a.optics = .ok O) {t : ℝ} (ht : endLayer a t = a.tauArr.n - 1) (hu : ¬ Unscaled a) :
    (endF E a O r out GC).scaledTau (.fin t) = .nan := by
  have hn := hacc.layers
  unfold AsmF.scaledTau
  refine (if_pos ((endF_scaled_any hs).2 hu)).trans ?_
  rw [endF_layer, ht]
  change Fl.sub (a.tau0F .pinf (a.tauArr.n - 1 + 1)) (Fl.mul (Fl.sub (a.tauF .pinf (a.tauArr.n - 1)) (.fin t)) (.fin (O.scale (a.tauArr.n - 1)))) = _
  have hp : 0 < scale a (a.tauArr.n - 1) := Args.scale_pos hacc (by change _ < a.tauArr.n; omega)
  rw [show a.tauArr.n - 1 + 1 = a.tauArr.n by omega, tau0F_last hacc hs hO, hs.scale _ (by change _ < a.tauArr.n; omega)]
  unfold Args.tauF
  rw [if_pos (by omega)]
  change Fl.sub .pinf (Fl.infTimes _) = _
  unfold Fl.infTimes
  rw [if_pos hp]; rfl

theorem endF_um_nan (hacc : Accepted a) (hs : Args.OpticsSpec a O) (hO : a.optics = .ok O) {t : ℝ} (ht : endLayer a t = a.tauArr.n - 1) (hu : ¬ Unscaled a) (m i : ℕ) :
    (endF E a O r out GC).um m i (.fin t) = .nan := by
  have hN : 0 < (endF E a O r out GC).N := by
    change 0 < (a.NQuad / 2).toNat
    have := hacc.streams; omega
  unfold AsmF.um
  have : (Fl.sum (2 * (endF E a O r out GC).N) fun j => Fl.mul ((endF E a O r out GC).GC m ((endF E a O r out GC).layer (.fin t)) i j) (Fl.exp ((endF E a O r out GC).exponent m (.fin t) j))) = .nan := by
    refine Fl.sum_nan (k := 0) (by omega) ?_
    unfold AsmF.exponent
    rw [if_pos hN, endF_scaledTau_nan hacc hs hO ht hu]
    simp [Fl.exp]
  simp only [this, Fl.nan_add]
  split_ifs <;> rfl

/-- A mode, where it is a number. -/
theorem endF_um (hw : WellPosed E a) (hns : NoSource a) (hs : Args.OpticsSpec a O) (hO : a.optics = .ok O) (hsp : GenSpec E (a.asm E O r).genIn out)
    (hGC : ∀ m < nFourier a, ∀ l i k, GC m l i k = .fin (out.G m l i k * C m (l * (2 * nHalf a) + k))) {m : ℕ} (hm : m < nFourier a)
    {l : ℕ} (hl : l < a.tauArr.n) {t : ℝ} (ht : endLayer a t = l) (hc : l + 1 < a.tauArr.n ∨ Unscaled a) (i : ℕ) :
    (endF E a O r out GC).um m i (.fin t) = .fin (endSol (a.asm E O r) out C m l (tauStar a l t) i) := by
  have hacc := hw.accepted
  have hn := hacc.layers
  have hiso : (a.asm E O r).iso = false := by
    have : ¬ a.Iso := fun hi => Args.iso_iff.1 hi hns
    simpa [Args.asmIn] using this
  have hterm : ∀ j < 2 * nHalf a, Fl.mul (GC m l i j) (Fl.exp ((endF E a O r out GC).exponent m (.fin t) j))
      = .fin (((a.asm E O r).coefIn out).G m l i j * ((a.asm E O r).coefIn out).decaying (C m) (l * (2 * nHalf a) + j) * ((a.asm E O r).coefIn out).expo m l (tauStar a l t) j) := by
    intro j hj
    rw [hGC m hm]
    unfold AsmF.exponent CoefIn.expo
    rw [endF_scaledTau hs hO hl ht hc, endF_layer, ht]
    by_cases hjN : j < nHalf a
    · refine (congrArg (fun x => Fl.mul _ (Fl.exp x)) (if_pos hjN)).trans ?_
      have h2 : ((a.asm E O r).coefIn out).decaying (C m) (l * (2 * nHalf a) + j) = C m (l * (2 * nHalf a) + j) := by
        unfold CoefIn.decaying
        refine if_pos ?_
        change l * (2 * nHalf a) + j < a.tauArr.n * (2 * nHalf a) - nHalf a
        have : (l + 1) * (2 * nHalf a) ≤ a.tauArr.n * (2 * nHalf a) := Nat.mul_le_mul_right _ hl
        rw [Nat.add_mul] at this
        omega
      rw [h2]
      refine Eq.trans ?_ (congrArg (fun x => Fl.fin (_ * x)) (if_pos hjN).symm)
      change Fl.mul _ (Fl.exp (Fl.mul (.fin (out.K m l j)) (Fl.sub (.fin _) (a.tau0F .pinf l)))) = _
      rw [tau0F_above hO .pinf hl, Fl.fin_sub, Fl.fin_mul, Fl.fin_exp, Fl.fin_mul]
      rfl
    · refine (congrArg (fun x => Fl.mul _ (Fl.exp x)) (if_neg hjN)).trans ?_
      refine Eq.trans ?_ (congrArg (fun x => Fl.fin (_ * x)) (if_neg hjN).symm)
      change Fl.mul _ (Fl.exp (Fl.mul (.fin (out.K m l j)) (Fl.sub (.fin _) (a.tau0F .pinf (l + 1))))) = _
      by_cases hl1 : l + 1 < a.tauArr.n
      · have h2 : ((a.asm E O r).coefIn out).decaying (C m) (l * (2 * nHalf a) + j) = C m (l * (2 * nHalf a) + j) := by
          unfold CoefIn.decaying
          refine if_pos ?_
          change l * (2 * nHalf a) + j < a.tauArr.n * (2 * nHalf a) - nHalf a
          have : (l + 1 + 1) * (2 * nHalf a) ≤ a.tauArr.n * (2 * nHalf a) := Nat.mul_le_mul_right _ hl1
          rw [Nat.add_mul, Nat.add_mul] at this
          omega
        rw [h2, tau0F_above hO .pinf hl1, Fl.fin_sub, Fl.fin_mul, Fl.fin_exp, Fl.fin_mul]
        rfl
      · have hle : l = a.tauArr.n - 1 := by omega
        have h2 : ((a.asm E O r).coefIn out).decaying (C m) (l * (2 * nHalf a) + j) = 0 := by
          unfold CoefIn.decaying
          refine if_neg ?_
          change ¬ l * (2 * nHalf a) + j < a.tauArr.n * (2 * nHalf a) - nHalf a
          have : a.tauArr.n * (2 * nHalf a) = l * (2 * nHalf a) + 2 * nHalf a := by
            rw [show a.tauArr.n = l + 1 by omega, Nat.add_mul]; ring
          omega
        obtain ⟨_, hpos⟩ := gen_K_neg hw hs hsp hm hl
        have hK : 0 < out.K m l j := by
          have := hpos (j - nHalf a) (show j - nHalf a < nHalf a by omega)
          rwa [show nHalf a + (j - nHalf a) = j by omega] at this
        rw [h2, show l + 1 = a.tauArr.n by omega, tau0F_last hacc hs hO, Fl.exp_up hK, Fl.fin_mul]
        simp
  have hsum : (Fl.sum (2 * nHalf a) fun j => Fl.mul (GC m l i j) (Fl.exp ((endF E a O r out GC).exponent m (.fin t) j)))
      = .fin (((a.asm E O r).coefIn out).hom (((a.asm E O r).coefIn out).decaying (C m)) m l (tauStar a l t) i) := by
    rw [Fl.sum_congr hterm, Fl.sum_fin]; rfl
  unfold AsmF.um
  rw [endF_layer, ht, endF_scaledTau hs hO hl ht hc]
  have hif : ¬ (m = 0 ∧ (endF E a O r out GC).iso = true) := fun h => by cases h.2
  simp only [if_neg hif]
  refine (congrArg (fun x => Fl.add x _) hsum).trans ?_
  unfold endSol
  rw [part_eq hiso]
  change Fl.add _ (if (a.asm E O r).beam = true then Fl.mul (.fin (out.B m l i)) (Fl.exp (Fl.div (.fin (-tauStar a l t)) (.fin (a.asm E O r).mu0))) else .fin 0) = _
  by_cases hb : (a.asm E O r).beam = true
  · have hb' : 0 < a.I0 := by simpa [Args.asmIn, Args.Beam] using hb
    have hmu : 0 < (a.asm E O r).mu0 := ((hacc.beamDir hb').1).1
    rw [if_pos hb, if_pos hb, Fl.fin_div hmu.ne', Fl.fin_exp, Fl.fin_mul, Fl.fin_add]
  · rw [if_neg hb, if_neg hb, Fl.fin_add]

theorem tauStar_layer (hacc : Accepted a) {l : ℕ} (hl : l < a.tauArr.n) {t : ℝ} (ht : InLayerDeep a l t) : tauStar a (endLayer a t) t = tauStar a l t := by
  by_cases hlt : bdry a.tauArr.get l < t ∨ l = 0
  · rw [endLayer_eq hacc hl hlt ht.2]
  · push Not at hlt
    obtain ⟨hle, hl0⟩ := hlt
    have he : t = bdry a.tauArr.get l := le_antisymm hle ht.1
    obtain ⟨k, rfl⟩ := Nat.exists_eq_succ_of_ne_zero hl0
    have hlay : endLayer a t = k := by
      refine endLayer_eq hacc (by omega) (Or.inl ?_) fun _ => he.le
      rw [he]; exact bdry_lt hacc (by omega)
    rw [hlay, he, Nat.succ_eq_add_one, ← bdryStar_eq]
    simp [tauStar]

theorem endF_direct (hacc : Accepted a) (hs : Args.OpticsSpec a O) (hr : a.rescaleFactor O = .ok r) (hres : Rescalable a) (t : ℝ) :
    (endF E a O r out GC).direct (.fin t) = .fin (a.I0 / a.rescaleDiv r * a.mu0 * Real.exp (-t / a.mu0)) := by
  unfold AsmF.direct
  change (if (a.asm E O r).beam = true then Fl.mul (Fl.mul (.fin (a.I0 / a.rescaleDiv r)) (.fin a.mu0)) (Fl.exp (Fl.div (.fin (-t)) (.fin a.mu0))) else .fin 0) = _
  by_cases hb : (a.asm E O r).beam = true
  · have hb' : 0 < a.I0 := by simpa [Args.asmIn, Args.Beam] using hb
    have hmu : 0 < a.mu0 := ((hacc.beamDir hb').1).1
    rw [if_pos hb, Fl.fin_div hmu.ne', Fl.fin_exp, Fl.fin_mul, Fl.fin_mul]
  · have hb' : a.I0 = 0 := by
      have : ¬ 0 < a.I0 := by simpa [Args.asmIn, Args.Beam] using hb
      exact le_antisymm (not_lt.1 this) hacc.beam
    rw [if_neg hb, hb']; simp

theorem endF_directScaled (hacc : Accepted a) (hs : Args.OpticsSpec a O) (hO : a.optics = .ok O) (hr : a.rescaleFactor O = .ok r) (hres : Rescalable a)
    {l : ℕ} (hl : l < a.tauArr.n) {t : ℝ} (ht : endLayer a t = l) (hc : l + 1 < a.tauArr.n ∨ Unscaled a) :
    (endF E a O r out GC).directScaled (.fin t) = .fin (a.I0 / a.rescaleDiv r * a.mu0 * Real.exp (-tauStar a l t / a.mu0)) := by
  unfold AsmF.directScaled
  rw [endF_scaledTau hs hO hl ht hc]
  exact endF_direct (E := E) (out := out) (GC := GC) hacc hs hr hres (tauStar a l t)

variable {D : ℝ → Prop}

/-- At depths at which the scaled depth is a number. -/
theorem endF_returns (hw : WellPosed E a) (hns : NoSource a) (hres : Rescalable a) (hO : a.optics = .ok O) (hr : a.rescaleFactor O = .ok r)
    (hsp : GenSpec E (a.asm E O r).genIn out) (hGC : ∀ m < nFourier a, ∀ l i k, GC m l i k = .fin (out.G m l i k * C m (l * (2 * nHalf a) + k)))
    (hD : ∀ t, D t → 0 ≤ t ∧ (endLayer a t + 1 < a.tauArr.n ∨ Unscaled a)) :
    ReturnsModes a (node E a) (weight E a) (endF E a O r out GC) D fun m => endV a (a.asm E O r) out C m := by
  have hacc := hw.accepted
  have hs := Args.optics_spec hacc hO
  have hI0 := rescale_I0 hacc hs hr hres
  have hlt : ∀ t, D t → endLayer a t < a.tauArr.n := fun t ht => by
    obtain ⟨l, hl, _, _, h⟩ := exists_endLayer hacc (hD t ht).1
    rw [h]; exact hl
  have hum : ∀ m < nFourier a, ∀ t, D t → ∀ i, (endF E a O r out GC).um m i (.fin t) = .fin (endSol (a.asm E O r) out C m (endLayer a t) (tauStar a (endLayer a t) t) i) :=
    fun m hm t ht i => endF_um hw hns hs hO hsp hGC hm (hlt t ht) rfl (hD t ht).2 i
  have hNF : (a.asm E O r).NFourier = nFourier a := by rw [← nFourier_eq]; rfl
  have hF0 : 0 < nFourier a := by
    rw [← hNF]
    exact (asm_good_of (r := r) hacc hs hw.gauss hw.eig (regular_of_dissipates hw.gauss hw.dissipates)).F
  have hquad : ∀ t, D t → ∀ row, (endF E a O r out GC).fluxQuad row (.fin t)
      = .fin (∑ i ∈ range (nHalf a), 2 * Real.pi * (node E a i * weight E a i) * endSol (a.asm E O r) out C 0 (endLayer a t) (tauStar a (endLayer a t) t) (row + i)) := by
    intro t ht row
    unfold AsmF.fluxQuad
    simp only [hum 0 hF0 t ht]
    exact Fl.sum_fin _ _
  have hhemi : ∀ t row, r * ∑ i ∈ range (nHalf a), 2 * Real.pi * (node E a i * weight E a i) * endSol (a.asm E O r) out C 0 (endLayer a t) (tauStar a (endLayer a t) t) (row + i)
      = hemiFlux a (node E a) (weight E a) fun i => endV a (a.asm E O r) out C 0 t (row + i) := by
    intro t row
    unfold hemiFlux
    rw [mul_sum, mul_sum]
    refine sum_congr rfl fun i _ => ?_
    unfold endV endU
    rw [show (a.asm E O r).rescale = r from rfl]
    ring
  refine ⟨fun tau htau => ?_, fun tau phi htau => ?_, fun tau htau => ?_, fun tau htau => ?_⟩
  · unfold AsmF.u0
    rw [endF_check hacc fun k hk => (hD _ (htau k hk)).1]
    refine ⟨_, rfl, rfl, rfl, fun i hi k hk => ?_⟩
    change Fl.mul (.fin r) ((endF E a O r out GC).um 0 i (.fin (tau.get k))) = _
    rw [hum 0 hF0 _ (htau k hk)]; rfl
  · unfold AsmF.u
    rw [endF_check hacc fun k hk => (hD _ (htau k hk)).1]
    refine ⟨_, rfl, rfl, rfl, rfl, fun i hi k hk p hp => ?_⟩
    have h1 : (Fl.sum (nFourier a) fun m => Fl.mul ((endF E a O r out GC).um m i (.fin (tau.get k))) (Fl.cos (Fl.mul (.fin (m : ℝ)) (Fl.sub (.fin a.phi0) (.fin (phi.get p))))))
        = .fin (∑ m ∈ range (nFourier a), endSol (a.asm E O r) out C m (endLayer a (tau.get k)) (tauStar a (endLayer a (tau.get k)) (tau.get k)) i * Real.cos (m * (a.phi0 - phi.get p))) := by
      rw [← Fl.sum_fin]
      refine Fl.sum_congr fun m hm => ?_
      rw [hum m hm _ (htau k hk), Fl.fin_sub, Fl.fin_mul]
      rfl
    rw [← hNF] at h1
    change Fl.mul (.fin r) (Fl.sum (a.asm E O r).NFourier fun m => Fl.mul ((endF E a O r out GC).um m i (.fin (tau.get k))) (Fl.cos (Fl.mul (.fin (m : ℝ)) (Fl.sub (.fin a.phi0) (.fin (phi.get p)))))) = _
    rw [h1, Fl.fin_mul, mul_sum, hNF]
    congr 1
    refine sum_congr rfl fun m _ => ?_
    unfold endV endU
    rw [show (a.asm E O r).rescale = r from rfl, mul_assoc]
  · unfold AsmF.fluxUp
    rw [endF_check hacc fun k hk => (hD _ (htau k hk)).1]
    refine ⟨_, rfl, rfl, fun k hk => ?_⟩
    change Fl.mul (.fin r) ((endF E a O r out GC).fluxQuad 0 (.fin (tau.get k))) = _
    rw [hquad _ (htau k hk), Fl.fin_mul, hhemi]
    simp only [zero_add]
  · unfold AsmF.fluxDown
    rw [endF_check hacc fun k hk => (hD _ (htau k hk)).1]
    refine ⟨_, _, rfl, rfl, fun k hk l hl hlay => ?_, ?_, ?_⟩
    · change Fl.mul (.fin r) (Fl.sub (Fl.add ((endF E a O r out GC).fluxQuad (nHalf a) (.fin (tau.get k))) ((endF E a O r out GC).directScaled (.fin (tau.get k))))
        ((endF E a O r out GC).direct (.fin (tau.get k)))) = _
      rw [hquad _ (htau k hk), endF_directScaled hacc hs hO hr hres (hlt _ (htau k hk)) rfl (hD _ (htau k hk)).2, endF_direct hacc hs hr hres, Fl.fin_add, Fl.fin_sub, Fl.fin_mul,
        ← hhemi, tauStar_layer hacc hl hlay]
      congr 1
      linear_combination (a.mu0 * (Real.exp (-tauStar a l (tau.get k) / a.mu0) - Real.exp (-tau.get k / a.mu0))) * hI0
    · by_cases hb : 0 < a.I0
      · have hb' : (endF E a O r out GC).beam = true := by simpa [AsmIn.lastF, Args.asmIn, Args.Beam] using hb
        rw [if_pos hb, if_pos hb']; rfl
      · have hb' : ¬ (endF E a O r out GC).beam = true := by simpa [AsmIn.lastF, Args.asmIn, Args.Beam] using hb
        rw [if_neg hb, if_neg hb']
    · intro k hk
      by_cases hb : 0 < a.I0
      · have hb' : (endF E a O r out GC).beam = true := by simpa [AsmIn.lastF, Args.asmIn, Args.Beam] using hb
        rw [if_pos hb']
        change Fl.mul (.fin r) ((endF E a O r out GC).direct (.fin (tau.get k))) = _
        rw [endF_direct hacc hs hr hres, Fl.fin_mul]
        congr 1
        linear_combination (a.mu0 * Real.exp (-tau.get k / a.mu0)) * hI0
      · have hb' : ¬ (endF E a O r out GC).beam = true := by simpa [AsmIn.lastF, Args.asmIn, Args.Beam] using hb
        have h0 : a.I0 = 0 := le_antisymm (not_lt.1 hb) hacc.beam
        rw [if_neg hb', h0]
        change Fl.mul (.fin r) (.fin 0) = _
        simp

/-- At depths at which it is not. -/
theorem endF_returnsNaN (hw : WellPosed E a) (hO : a.optics = .ok O) (hu : ¬ Unscaled a) (hD : ∀ t, D t → 0 ≤ t ∧ endLayer a t = a.tauArr.n - 1) :
    ReturnsNaN a (endF E a O r out GC) D := by
  have hacc := hw.accepted
  have hs := Args.optics_spec hacc hO
  have hg := asm_good_of (r := r) hacc hs hw.gauss hw.eig (regular_of_dissipates hw.gauss hw.dissipates)
  have hum : ∀ t, D t → ∀ m i, (endF E a O r out GC).um m i (.fin t) = .nan := fun t ht m i => endF_um_nan hacc hs hO (hD t ht).2 hu m i
  have hquad : ∀ t, D t → ∀ row, (endF E a O r out GC).fluxQuad row (.fin t) = .nan := by
    intro t ht row
    unfold AsmF.fluxQuad
    exact Fl.sum_nan (k := 0) hg.N (by rw [hum t ht]; simp)
  refine ⟨fun tau htau => ?_, fun tau phi htau => ?_, fun tau htau => ?_, fun tau htau => ?_⟩
  · unfold AsmF.u0
    rw [endF_check hacc fun k hk => (hD _ (htau k hk)).1]
    refine ⟨_, rfl, rfl, rfl, fun i hi k hk => ?_⟩
    change Fl.mul (.fin r) ((endF E a O r out GC).um 0 i (.fin (tau.get k))) = _
    rw [hum _ (htau k hk)]; simp
  · unfold AsmF.u
    rw [endF_check hacc fun k hk => (hD _ (htau k hk)).1]
    refine ⟨_, rfl, rfl, rfl, rfl, fun i hi k hk p hp => ?_⟩
    change Fl.mul (.fin r) (Fl.sum (a.asm E O r).NFourier fun m => Fl.mul ((endF E a O r out GC).um m i (.fin (tau.get k))) (Fl.cos (Fl.mul (.fin (m : ℝ)) (Fl.sub (.fin a.phi0) (.fin (phi.get p)))))) = _
    rw [Fl.sum_nan (k := 0) hg.F (by rw [hum _ (htau k hk)]; simp)]; simp
  · unfold AsmF.fluxUp
    rw [endF_check hacc fun k hk => (hD _ (htau k hk)).1]
    refine ⟨_, rfl, rfl, fun k hk => ?_⟩
    change Fl.mul (.fin r) ((endF E a O r out GC).fluxQuad 0 (.fin (tau.get k))) = _
    rw [hquad _ (htau k hk)]; simp
  · unfold AsmF.fluxDown
    rw [endF_check hacc fun k hk => (hD _ (htau k hk)).1]
    refine ⟨_, _, rfl, rfl, fun k hk => ?_⟩
    change Fl.mul (.fin r) (Fl.sub (Fl.add ((endF E a O r out GC).fluxQuad (nHalf a) (.fin (tau.get k))) ((endF E a O r out GC).directScaled (.fin (tau.get k))))
        ((endF E a O r out GC).direct (.fin (tau.get k)))) = _
    rw [hquad _ (htau k hk)]; simp

end
end Pydisort

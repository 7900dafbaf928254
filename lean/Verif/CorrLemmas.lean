import Verif.Spec.Corrections
import Verif.Props.Evaluate
import Verif.FluxLemmas

/-! Helper lemmas: values of the Nakajima-Tanaka corrections. -/

namespace Pydisort
open Finset Spec

namespace NTIn
variable {I : NTIn}

/-- What the corrections need to know about the scaled depths. -/
structure Geo (I : NTIn) : Prop where
  t0 : I.tau0 0 = 0
  step : ∀ r < I.NLayers, I.tau0 (r + 1) = I.tau0 r + I.thick r
  minv : ∀ n, I.M_inv n = 1 / I.mu n

variable (h : Geo I)
include h

theorem cumsum_logDecay (n : ℕ) {k : ℕ} (hk : k < I.NLayers) : cumsum (I.logDecay n) k = -I.tau0 (k + 1) / I.mu n := by
  unfold cumsum logDecay
  induction k with
  | zero => simp [h.step 0 hk, h.t0, h.minv]; ring
  | succ k ih => rw [sum_range_succ, ih (by omega), h.step (k + 1) hk, h.minv]; ring

theorem decayProd_eq (n : ℕ) {k : ℕ} (hk : k ≤ I.NLayers) : I.decayProd n k = Real.exp (-I.tau0 k / I.mu n) := by
  unfold decayProd
  split_ifs with h0
  · simp [h0, h.t0]
  · rw [cumsum_logDecay h n (by omega), show k - 1 + 1 = k by omega]

theorem expFront_eq (r : ℕ) : I.expFront r = Real.exp (-I.tau0 r / I.mu0) := by
  unfold expFront
  split_ifs with h0
  · simp [h0, h.t0]
  · congr 1; ring

theorem wTermPos_eq (n : ℕ) {r : ℕ} (hr : r < I.NLayers) : I.wTermPos false n r =
    Real.exp (-I.tau0 r / I.mu n) * (Real.exp (-I.tau0 r / I.mu0)
      - Real.exp (-(I.tau0 (r + 1) - I.tau0 r) / I.mu n) * Real.exp (-I.tau0 (r + 1) / I.mu0)) := by
  unfold wTermPos em1Pos
  rw [expFront_eq h, decayProd_eq h n hr.le, h.minv]
  simp only [Bool.false_eq_true, if_false]
  have e : Real.exp (-(I.tau0 (r + 1) - I.tau0 r) / I.mu n) * Real.exp (-I.tau0 (r + 1) / I.mu0)
      = Real.exp (-(I.thick r * (1 / I.mu n + 1 / I.mu0))) * Real.exp (-I.tau0 r / I.mu0) := by
    rw [← Real.exp_add, ← Real.exp_add, h.step r hr]; congr 1; ring
  rw [e]; ring

omit h in
theorem cumsum_reversed (f : ℕ → ℝ) {r L : ℕ} (hr : r < L) : cumsum (fun k => f (L - 1 - k)) (L - 1 - r) = ∑ k ∈ Ico r L, f k := by
  unfold cumsum
  refine sum_nbij' (fun k => L - 1 - k) (fun k => L - 1 - k) ?_ ?_ ?_ ?_ (fun _ _ => rfl) <;> simp only [mem_range, mem_Ico] <;>
    intros <;> omega

theorem Rpos_eq (n : ℕ) {l : ℕ} (hl : l < I.NLayers) : I.Rpos false n l = ∑ r ∈ Ico (l + 1) I.NLayers,
    Real.exp (-(I.tau0 r - I.tau0 (l + 1)) / I.mu n) * (Real.exp (-I.tau0 r / I.mu0)
      - Real.exp (-(I.tau0 (r + 1) - I.tau0 r) / I.mu n) * Real.exp (-I.tau0 (r + 1) / I.mu0)) := by
  unfold Rpos
  split_ifs with h1
  · unfold cumsumPos
    rw [cumsum_reversed (I.wTermPos false n) (by omega), sum_div]
    refine sum_congr rfl fun r hr => ?_
    rw [mem_Ico] at hr
    rw [wTermPos_eq h n hr.2, decayProd_eq h n (by omega), mul_div_right_comm, ← Real.exp_sub]
    congr 2; ring
  · rw [Ico_eq_empty (by omega), sum_empty]

theorem termNeg_eq (n : ℕ) {r : ℕ} (hr : r < I.NLayers) : I.termNeg false n r =
    Real.exp (-I.tau0 (r + 1) / I.mu0) - Real.exp (-(I.tau0 (r + 1) - I.tau0 r) / I.mu n) * Real.exp (-I.tau0 r / I.mu0) := by
  unfold termNeg logDecay
  rw [expFront_eq h, h.minv]
  simp only [Bool.false_eq_true, if_false]
  have hs := h.step r hr
  have e1 : Real.exp (-I.tau0 (r + 1) * (1 / I.mu0)) = Real.exp (-I.tau0 (r + 1) / I.mu0) := by congr 1; ring
  have e2 : Real.exp (-I.thick r * (1 / I.mu n)) = Real.exp (-(I.tau0 (r + 1) - I.tau0 r) / I.mu n) := by
    congr 1; rw [hs]; ring
  rw [e1, e2]
  by_cases hth : I.thick r * (1 / I.mu n - 1 / I.mu0) ≥ 0
  · rw [if_pos hth, if_pos hth, abs_of_nonneg hth]
    have : Real.exp (-(I.tau0 (r + 1) - I.tau0 r) / I.mu n) * Real.exp (-I.tau0 r / I.mu0)
        = Real.exp (-(I.thick r * (1 / I.mu n - 1 / I.mu0))) * Real.exp (-I.tau0 (r + 1) / I.mu0) := by
      rw [← Real.exp_add, ← Real.exp_add, hs]; congr 1; ring
    rw [this]; ring
  · rw [if_neg hth, if_neg hth, abs_of_neg (not_le.1 hth)]
    have : Real.exp (-I.tau0 (r + 1) / I.mu0) = Real.exp (-(-(I.thick r * (1 / I.mu n - 1 / I.mu0))))
        * (Real.exp (-(I.tau0 (r + 1) - I.tau0 r) / I.mu n) * Real.exp (-I.tau0 r / I.mu0)) := by
      rw [← Real.exp_add, ← Real.exp_add, hs]; congr 1; ring
    rw [this]; ring

theorem Rneg_eq (n : ℕ) {l : ℕ} (hl : l < I.NLayers) : I.Rneg false n l = ∑ r ∈ range l,
    Real.exp (-(I.tau0 l - I.tau0 (r + 1)) / I.mu n) * (Real.exp (-I.tau0 (r + 1) / I.mu0)
      - Real.exp (-(I.tau0 (r + 1) - I.tau0 r) / I.mu n) * Real.exp (-I.tau0 r / I.mu0)) := by
  unfold Rneg
  split_ifs with h1
  · simp [h1]
  · unfold cumsum
    rw [show l - 1 + 1 = l by omega, mul_sum]
    refine sum_congr rfl fun r hr => ?_
    rw [mem_range] at hr
    rw [termNeg_eq h n (by omega), decayProd_eq h n (by omega), decayProd_eq h n (by omega), mul_div_left_comm, mul_comm,
      ← Real.exp_sub]
    congr 2; ring

/-! With the antiderivative, every layer term carries the factor of the layer it comes from. -/

theorem Rpos_anti (n : ℕ) {l : ℕ} (hl : l < I.NLayers) : I.Rpos true n l = ∑ r ∈ Ico (l + 1) I.NLayers, I.intFactor n r *
    (Real.exp (-(I.tau0 r - I.tau0 (l + 1)) / I.mu n) * (Real.exp (-I.tau0 r / I.mu0)
      - Real.exp (-(I.tau0 (r + 1) - I.tau0 r) / I.mu n) * Real.exp (-I.tau0 (r + 1) / I.mu0))) := by
  have hw : ∀ r, I.wTermPos true n r = I.intFactor n r * I.wTermPos false n r := by
    intro r; unfold wTermPos em1Pos; simp; ring
  unfold Rpos
  split_ifs with h1
  · unfold cumsumPos
    rw [cumsum_reversed (I.wTermPos true n) (by omega), sum_div]
    refine sum_congr rfl fun r hr => ?_
    rw [mem_Ico] at hr
    rw [hw, wTermPos_eq h n hr.2, decayProd_eq h n (by omega), mul_div_assoc, mul_div_right_comm, ← Real.exp_sub]
    congr 3; ring
  · rw [Ico_eq_empty (by omega), sum_empty]

theorem Rneg_anti (n : ℕ) {l : ℕ} (hl : l < I.NLayers) : I.Rneg true n l = ∑ r ∈ range l, -I.intFactor n r *
    (Real.exp (-(I.tau0 l - I.tau0 (r + 1)) / I.mu n) * (Real.exp (-I.tau0 (r + 1) / I.mu0)
      - Real.exp (-(I.tau0 (r + 1) - I.tau0 r) / I.mu n) * Real.exp (-I.tau0 r / I.mu0))) := by
  have hw : ∀ r, I.termNeg true n r = -I.intFactor n r * I.termNeg false n r := by
    intro r; unfold termNeg; simp
  unfold Rneg
  split_ifs with h1
  · simp [h1]
  · unfold cumsum
    rw [show l - 1 + 1 = l by omega, mul_sum]
    refine sum_congr rfl fun r hr => ?_
    rw [mem_range] at hr
    rw [hw, termNeg_eq h n (by omega), decayProd_eq h n (by omega), decayProd_eq h n (by omega), mul_div_assoc, mul_left_comm,
      mul_div_left_comm, mul_comm (Real.exp (-I.tau0 (r + 1) / I.mu0) - _), ← Real.exp_sub]
    congr 3; ring

end NTIn

variable {E : Ext} {J : Junk} {a : Args} {R : Solved}

theorem corrected_iff (h : Accepted a) : a.NTGate ↔ Corrected a := by
  unfold Args.NTGate Corrected Args.Beam
  have h1 : 0 ≤ a.nLeg := by
    have := h.nLeg
    have := h.streams.1
    unfold Args.nLeg
    omega
  have h2 : nLeg a = a.nLeg.toNat := rfl
  have : a.nLeg < (a.NLegAll : ℤ) ↔ nLeg a < a.leg.c := by
    rw [h2]
    change a.nLeg < (a.leg.c : ℤ) ↔ _
    omega
  rw [this]

/-- The link between the variables of the corrections and the caller's arguments. -/
structure NTSpec (E : Ext) (a : Args) (r : ℝ) (n : NTIn) : Prop where
  N : n.N = nHalf a
  NLayers : n.NLayers = a.tauArr.n
  NLeg : n.NLeg = nLeg a
  NLegAll : n.NLegAll = a.leg.c
  tauArr : n.tauArr = a.tauArr.get
  mu : n.mu = node E a
  muArr : ∀ i, n.muArr i = stream (nHalf a) (node E a) i
  mu0 : n.mu0 = a.mu0
  phi0 : n.phi0 = a.phi0
  omega : n.omega = a.omega.get
  geo : n.Geo
  tau0 : ∀ k ≤ a.tauArr.n, n.tau0 k = bdryStar a k
  scale : ∀ l < a.tauArr.n, n.scale l = Spec.scale a l
  omegaS : ∀ l < a.tauArr.n, n.omegaS l = omegaStar a l
  f : ∀ l < a.tauArr.n, n.f l = peak a l
  legAll : ∀ l < a.tauArr.n, ∀ k, a.omega.get l ≠ 0 → n.legAll l k = leg a l k
  wLegAll : ∀ l < a.tauArr.n, ∀ k, a.omega.get l ≠ 0 → n.wLegAll l k = (2 * (k : ℝ) + 1) * leg a l k
  wLeg : ∀ l < a.tauArr.n, ∀ k, a.omega.get l ≠ 0 → n.wLeg l k = (2 * (k : ℝ) + 1) * legStar a l k
  I0 : r * n.I0div4pi = a.I0 / (4 * Real.pi)

theorem bdryStar_succ (a : Args) (k : ℕ) :
    bdryStar a (k + 1) = bdryStar a k + scale a k * (bdry a.tauArr.get (k + 1) - bdry a.tauArr.get k) := by
  unfold bdryStar; rw [sum_range_succ]

theorem ntSpec (h : pydisort E J a = .ok R) (hc : Corrected a) : ∃ n, R.nt = some n ∧ NTSpec E a R.I.rescale n := by
  obtain ⟨hacc, O, r, hO, hr, hI, hsol, hof, hg1, hg2⟩ := pydisort_ok h
  have hg := (corrected_iff hacc).2 hc
  have hs := Args.optics_spec hacc hO
  refine ⟨_, hg1 hg, ?_⟩
  have hrs : R.I.rescale = r := by rw [hI]; rfl
  have hres : Rescalable a := Or.inl (Or.inl hc.2.2.1)
  exact
    { N := rfl, NLayers := rfl, NLeg := rfl, NLegAll := rfl, tauArr := rfl, mu := rfl, muArr := fun _ => rfl, mu0 := rfl, phi0 := rfl, omega := rfl
      geo := ⟨by rw [show (a.ntIn (node E a) O r).tau0 0 = O.tau0 0 from rfl, hs.tau0 0 (Nat.zero_le _)]; simp [bdryStar],
        fun k hk => by
          have hk' : k < a.NLayers := hk
          change O.tau0 (k + 1) = O.tau0 k + O.thick k
          rw [hs.tau0 _ hk', hs.tau0 _ hk'.le, hs.thick _ hk', bdryStar_succ],
        fun _ => rfl⟩
      tau0 := fun k hk => hs.tau0 k hk
      scale := fun l hl => hs.scale l hl
      omegaS := fun l hl => hs.omega l hl
      f := fun l hl => (Args.peak_of_pos hacc hc.2.2.2.1 hl).symm
      legAll := fun l hl k hw => Args.legFix_eq hl hw
      wLegAll := fun l hl k hw => by
        change (2 * (k : ℝ) + 1) * a.legFix l k = _
        rw [Args.legFix_eq hl hw]
      wLeg := fun l hl k hw => hs.wLeg l hl k hw
      I0 := by
        rw [hrs]
        change r * (a.I0 / a.rescaleDiv r / (4 * Real.pi)) = _
        rw [← mul_div_assoc, rescale_I0 hacc hs hr hres] }

namespace NTSpec
variable {r : ℝ} {n : NTIn} (H : NTSpec E a r n)
include H

theorem muArr_eq (i : ℕ) : n.muArr i = stream (nHalf a) (node E a) i := H.muArr i

theorem nu_eq (x ph : ℝ) : nuVal x ph (-n.mu0) n.phi0 = beamCos a x ph := by
  unfold nuVal beamCos; rw [H.mu0, H.phi0, neg_sq]; ring

theorem st_eq {l : ℕ} (hl : l < a.tauArr.n) (t : ℝ) : n.st l t = tauStar a l t := by
  unfold NTIn.st tauStar
  rw [H.tau0 _ hl, H.scale _ hl, H.tauArr, bdryStar_succ, Spec.bdry_succ]; ring

theorem tmsB_eq {l : ℕ} (hl : l < a.tauArr.n) (i : ℕ) (ph : ℝ) :
    r * n.tmsB i l (nuVal (n.muArr i) ph (-n.mu0) n.phi0) = onceScattered a l (stream (nHalf a) (node E a) i) ph
      * (a.mu0 / (a.mu0 + stream (nHalf a) (node E a) i)) := by
  unfold NTIn.tmsB onceScattered
  rw [H.nu_eq, H.muArr_eq, H.omegaS l hl, H.f l hl, H.mu0]
  by_cases hw : a.omega.get l = 0
  · have : omegaStar a l = 0 := by unfold omegaStar; rw [hw]; ring
    rw [this]; ring
  have e1 : legSeries n.NLegAll (n.wLegAll l) = exactPhase a l := by
    funext x; unfold legSeries exactPhase; rw [H.NLegAll]
    exact sum_congr rfl fun k _ => by rw [H.wLegAll l hl k hw]
  have e2 : legSeries n.NLeg (n.wLeg l) = truncPhase a l := by
    funext x; unfold legSeries truncPhase; rw [H.NLeg]
    exact sum_congr rfl fun k _ => by rw [H.wLeg l hl k hw]
  rw [e1, e2]
  have e3 : omegaStar a l * a.I0 / (4 * Real.pi) = omegaStar a l * (r * n.I0div4pi) := by rw [H.I0]; ring
  rw [e3]; ring

/-- The code's value of the correction is the layer-by-layer sum, with the strength of the layer of observation. -/
theorem tmsVal_eq {i l : ℕ} (hi : i < 2 * nHalf a) (hl : l < a.tauArr.n) (t ph : ℝ) :
    r * n.tmsVal false i l (n.st l t) (nuVal (n.muArr i) ph (-n.mu0) n.phi0)
      = onceScattered a l (stream (nHalf a) (node E a) i) ph * (a.mu0 / (a.mu0 + stream (nHalf a) (node E a) i))
        * layerSum a (node E a) i l (tauStar a l t) := by
  rw [← H.tmsB_eq hl, H.st_eq hl]
  unfold NTIn.tmsVal layerSum
  set B := n.tmsB i l (nuVal (n.muArr i) ph (-n.mu0) n.phi0)
  set s := tauStar a l t
  have hl' : l < n.NLayers := by rw [H.NLayers]; exact hl
  by_cases hin : i < nHalf a
  · have hown : n.tmsOwn false l s i = emitUp a (node E a i) s (bdryStar a (l + 1)) := by
      unfold NTIn.tmsOwn emitUp atten
      rw [if_pos (by rw [H.N]; exact hin)]
      simp only [Bool.false_eq_true, if_false]
      rw [H.tau0 _ hl, H.mu, H.mu0, sub_eq_add_neg (_ / _) (_ / _), Real.exp_add]
      congr 3 <;> ring
    have hR : n.Rpos false i l * Real.exp (n.M_inv i * (s - n.tau0 (l + 1)))
        = ∑ k ∈ Ico (l + 1) a.tauArr.n, atten (node E a i) s (bdryStar a k) * emitUp a (node E a i) (bdryStar a k) (bdryStar a (k + 1)) := by
      rw [NTIn.Rpos_eq H.geo i hl', sum_mul, H.NLayers]
      refine sum_congr rfl fun k hk => ?_
      rw [mem_Ico] at hk
      unfold emitUp atten
      rw [H.tau0 k hk.2.le, H.tau0 (k + 1) hk.2, H.tau0 (l + 1) hl, H.mu, H.mu0, H.geo.minv, H.mu, mul_right_comm, ← Real.exp_add]
      congr 2; ring
    rw [if_pos hin, hown]
    simp only [if_pos (show i < n.N by rw [H.N]; exact hin)]
    split_ifs with hm
    · rw [hR]; ring
    · rw [H.NLayers] at hm
      rw [Ico_eq_empty (by omega), sum_empty]; ring
  · have hown : n.tmsOwn false l s i = emitDown a (node E a (i - nHalf a)) (bdryStar a l) s := by
      unfold NTIn.tmsOwn emitDown atten
      rw [if_neg (by rw [H.N]; exact hin)]
      simp only [Bool.false_eq_true, if_false]
      rw [H.tau0 _ hl.le, H.mu, H.mu0, H.N, sub_eq_add_neg (_ / _) (_ / _), Real.exp_add]
      congr 3 <;> ring
    have hR : n.Rneg false (i - nHalf a) l * Real.exp (n.M_inv (i - nHalf a) * (n.tau0 l - s))
        = ∑ k ∈ range l, atten (node E a (i - nHalf a)) (bdryStar a (k + 1)) s
          * emitDown a (node E a (i - nHalf a)) (bdryStar a k) (bdryStar a (k + 1)) := by
      rw [NTIn.Rneg_eq H.geo _ hl', sum_mul]
      refine sum_congr rfl fun k hk => ?_
      rw [mem_range] at hk
      unfold emitDown atten
      rw [H.tau0 k (by omega), H.tau0 (k + 1) (by omega), H.tau0 l hl.le, H.mu, H.mu0, H.geo.minv, H.mu, mul_right_comm, ← Real.exp_add]
      congr 2; ring
    rw [if_neg hin, hown]
    simp only [if_neg (show ¬ i < n.N by rw [H.N]; exact hin), H.N]
    split_ifs with hm
    · rw [hR]; ring
    · rw [H.NLayers] at hm
      obtain rfl : l = 0 := by omega
      rw [range_zero, sum_empty]; ring

end NTSpec

/-! Telescoping of the sums. -/

theorem layerSum_up (a : Args) (mu : Vec) {i l : ℕ} (hi : i < nHalf a) (hl : l < a.tauArr.n) (s : ℝ) :
    layerSum a mu i l s = emitUp a (mu i) s (bdryStar a a.tauArr.n) := by
  unfold layerSum
  rw [if_pos hi]
  have : ∀ n, l + 1 ≤ n → emitUp a (mu i) s (bdryStar a (l + 1)) + ∑ r ∈ Ico (l + 1) n, atten (mu i) s (bdryStar a r)
      * emitUp a (mu i) (bdryStar a r) (bdryStar a (r + 1)) = emitUp a (mu i) s (bdryStar a n) := by
    intro n hn
    induction n, hn using Nat.le_induction with
    | base => simp
    | succ n hn ih =>
      rw [sum_Ico_succ_top hn, ← add_assoc, ih]
      unfold emitUp atten
      have e : Real.exp (-(bdryStar a (n + 1) - s) / mu i) = Real.exp (-(bdryStar a n - s) / mu i)
          * Real.exp (-(bdryStar a (n + 1) - bdryStar a n) / mu i) := by rw [← Real.exp_add]; congr 1; ring
      rw [e]; ring
  exact this _ hl

theorem layerSum_down (a : Args) (mu : Vec) {i : ℕ} (hi : ¬ i < nHalf a) (l : ℕ) (s : ℝ) :
    layerSum a mu i l s = emitDown a (mu (i - nHalf a)) 0 s := by
  unfold layerSum
  rw [if_neg hi]
  set x := mu (i - nHalf a)
  induction l with
  | zero => simp [bdryStar]
  | succ l ih =>
    rw [sum_range_succ, ← ih]
    unfold emitDown atten
    have e : Real.exp (-(s - bdryStar a l) / x) = Real.exp (-(s - bdryStar a (l + 1)) / x)
        * Real.exp (-(bdryStar a (l + 1) - bdryStar a l) / x) := by rw [← Real.exp_add]; congr 1; ring
    rw [e]; ring

end Pydisort

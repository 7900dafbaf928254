import Verif.Model.Underflow
import Verif.Spec.Underflow
import Verif.Props.CorrAnti
import Verif.NonFiniteLemmas

/-! Helper lemmas for C131: the corrections when exponentials underflow. -/

namespace Pydisort
open Finset Spec

namespace Fl

theorem infTimes_not_finite (x : ℝ) : ¬ (infTimes x).Finite := by
  unfold infTimes
  split_ifs <;> exact id

theorem add_finite (x y : Fl) : (add x y).Finite ↔ x.Finite ∧ y.Finite := by
  rcases x with _ | _ | x | _ <;> rcases y with _ | _ | y | _ <;> simp [add, Finite]

theorem mul_finite (x y : Fl) : (mul x y).Finite ↔ x.Finite ∧ y.Finite := by
  rcases x with _ | _ | x | _ <;> rcases y with _ | _ | y | _ <;> simp [mul, Finite] <;> exact infTimes_not_finite _

theorem div_fin_finite (x y : ℝ) : (div (.fin x) (.fin y)).Finite ↔ y ≠ 0 := by
  unfold div
  by_cases h : y = 0
  · simp only [if_pos h]
    exact iff_of_false (infTimes_not_finite x) (not_not.2 h)
  · simp only [if_neg h]
    exact iff_of_true trivial h

theorem sum_finite (n : ℕ) (f : ℕ → Fl) : (sum n f).Finite ↔ ∀ k < n, (f k).Finite := by
  induction n with
  | zero => exact iff_of_true trivial (by simp)
  | succ n ih => rw [sum, add_finite, ih, Nat.forall_lt_succ_right]

end Fl

namespace NTIn
variable {I : NTIn} {ex : ℝ → ℝ}

theorem RposU_finite (anti : Bool) (n l : ℕ) : (I.RposU ex anti n l).Finite ↔ (l + 1 < I.NLayers → I.decayProdU ex n (l + 1) ≠ 0) := by
  unfold RposU
  by_cases h : l < I.NLayers - 1
  · rw [if_pos h, Fl.div_fin_finite]
    exact ⟨fun h _ => h, fun h2 => h2 (by omega)⟩
  · rw [if_neg h]
    exact iff_of_true trivial fun h2 => absurd h2 (by omega)

theorem RnegU_finite (anti : Bool) (n l : ℕ) : (I.RnegU ex anti n l).Finite ↔ ∀ r < l, I.decayProdU ex n (r + 1) ≠ 0 := by
  unfold RnegU
  by_cases h : l = 0
  · rw [if_pos h, h]
    exact iff_of_true trivial (by simp)
  · rw [if_neg h, Fl.mul_finite, Fl.sum_finite]
    simp only [Fl.div_fin_finite]
    exact ⟨fun h => h.2, fun h => ⟨trivial, h⟩⟩

theorem tmsValU_finite (anti : Bool) (i l : ℕ) (st nu : ℝ) : (I.tmsValU ex anti i l st nu).Finite ↔
    (I.NLayers > 1 → if i < I.N then (l + 1 < I.NLayers → I.decayProdU ex i (l + 1) ≠ 0) else ∀ r < l, I.decayProdU ex (i - I.N) (r + 1) ≠ 0) := by
  unfold tmsValU
  rw [Fl.add_finite]
  by_cases hL : I.NLayers > 1
  · rw [if_pos hL]
    by_cases hi : i < I.N
    · rw [if_pos hi, Fl.mul_finite, Fl.mul_finite, RposU_finite]
      simp only [if_pos hi]
      exact ⟨fun h _ => h.2.1.1, fun h => ⟨trivial, ⟨h hL, trivial⟩, trivial⟩⟩
    · rw [if_neg hi, Fl.mul_finite, Fl.mul_finite, RnegU_finite]
      simp only [if_neg hi]
      exact ⟨fun h _ => h.2.1.1, fun h => ⟨trivial, ⟨h hL, trivial⟩, trivial⟩⟩
  · rw [if_neg hL]
    exact iff_of_true ⟨trivial, trivial⟩ fun h => absurd h hL

/-- The correction at one stream, layer, depth and azimuth. -/
noncomputable def corrValU (I : NTIn) (ex : ℝ → ℝ) (anti : Bool) (i l : ℕ) (t ph : ℝ) : Fl :=
  if i < I.N then I.tmsValU ex anti i l (I.st l t) (nuVal (I.muArr i) ph (-I.mu0) I.phi0)
  else Fl.add (I.tmsValU ex anti i l (I.st l t) (nuVal (I.muArr i) ph (-I.mu0) I.phi0))
    (.fin (I.imsFac (nuVal (-I.mu (i - I.N)) ph (-I.mu0) I.phi0) * imsChi anti (I.mu (i - I.N)) I.scaledMu0 t))

theorem tmsU_returns (hN : 0 < I.N) {tau : A1 ℝ} (phi : A1 ℝ) (anti : Bool) (l : ℕ → ℕ)
    (ht : tau.n ≠ 0) : ∃ A, I.tmsU ex tau phi anti l = .ok A ∧ A.d0 = 2 * I.N ∧ A.d1 = tau.n ∧ A.d2 = phi.n ∧
      ∀ i < 2 * I.N, ∀ t < tau.n, ∀ p < phi.n, A.get i t p =
        I.tmsValU ex anti i (l t) (I.st (l t) (tau.get t)) (nuVal (I.muArr i) (phi.get p) (-I.mu0) I.phi0) := by
  obtain ⟨A, h1, h2, h3, h4⟩ := nu2d (mu := ⟨2 * I.N, I.muArr⟩) (phi := phi) (-I.mu0) I.phi0 (Or.inl (by simp only; omega))
  unfold tmsU nuTMS
  rw [h1]
  simp only [bind, Except.bind]
  rw [if_neg (by omega)]
  refine ⟨_, rfl, rfl, rfl, h3, fun i hi t _ p hp => ?_⟩
  simp only
  rw [h4 i hi p hp]

theorem corrU_returns (hN : 0 < I.N) {tau phi : A1 ℝ} (anti : Bool) (l : ℕ → ℕ) (ht : tau.n ≠ 0)
    (h : I.N ≠ 1 ∨ phi.n = 1) : ∃ A, I.corrU ex tau phi anti l = .ok A ∧ A.d0 = 2 * I.N ∧ A.d1 = tau.n ∧ A.d2 = phi.n ∧
      ∀ i < 2 * I.N, ∀ t < tau.n, ∀ p < phi.n, A.get i t p = I.corrValU ex anti i (l t) (tau.get t) (phi.get p) := by
  obtain ⟨A, h1, h2, h3, h4, h5⟩ := I.tmsU_returns (ex := ex) hN phi anti l ht
  obtain ⟨B, g1, g2, g3, g4, g5⟩ := I.ims_returns (tau := tau) anti h
  unfold corrU
  rw [h1, g1]
  simp only [bind, Except.bind, g2, g4, h4, bdim_self, and_self, if_true]
  refine ⟨_, rfl, h2, h3, rfl, fun i hi t ht p hp => ?_⟩
  unfold corrValU
  beta_reduce
  simp only
  split_ifs with hin
  · rw [h5 i hi t ht p hp]
  · rw [h5 i hi t ht p hp, bix_of_lt (by omega), bix_of_lt hp, g5 (i - I.N) (by omega) t ht p hp]

/-! Without underflow. -/

/-- `ex` is the exponential function where it is used. -/
theorem tmsValU_eq (hg : Geo I) {c : ℝ} (hex : ∀ x, -c ≤ x → ex x = Real.exp x) (hc : 0 ≤ c) (hmu0 : 0 < I.mu0)
    (hmono : ∀ r < I.NLayers, 0 ≤ I.thick r) {i l : ℕ} (hl : l < I.NLayers) {n : ℕ} (hn : n = if i < I.N then i else i - I.N)
    (hmu : 0 < I.mu n) (hT : I.tau0 I.NLayers * (1 / I.mu n + 1 / I.mu0) ≤ c) {st : ℝ} (h0 : I.tau0 l ≤ st) (h1 : st ≤ I.tau0 (l + 1)) (nu : ℝ) :
    I.tmsValU ex false i l st nu = .fin (I.tmsVal false i l st nu) := by
  have htau : ∀ p q, p ≤ q → q ≤ I.NLayers → I.tau0 p ≤ I.tau0 q := by
    intro p q hpq hq
    induction q, hpq using Nat.le_induction with
    | base => exact le_rfl
    | succ q hle ih => rw [hg.step q (by omega)]; linarith [ih (by omega), hmono q (by omega)]
  have hnn : ∀ p ≤ I.NLayers, 0 ≤ I.tau0 p := fun p hp => by rw [← hg.t0]; exact htau 0 p (Nat.zero_le _) hp
  have hm0 : 0 < 1 / I.mu0 := by positivity
  have hm1 : 0 < 1 / I.mu n := by positivity
  have hTT := hnn _ le_rfl
  have hA : ∀ x, 0 ≤ x → x ≤ I.tau0 I.NLayers → x * (1 / I.mu0) ≤ c := fun x hx hx' => by
    have h2 : x * (1 / I.mu0) ≤ I.tau0 I.NLayers * (1 / I.mu0) := mul_le_mul_of_nonneg_right hx' hm0.le
    have h3 : 0 ≤ I.tau0 I.NLayers * (1 / I.mu n) := mul_nonneg hTT hm1.le
    linarith [mul_add (I.tau0 I.NLayers) (1 / I.mu n) (1 / I.mu0)]
  have hB : ∀ x, 0 ≤ x → x ≤ I.tau0 I.NLayers → x * (1 / I.mu n) ≤ c := fun x hx hx' => by
    have h2 : x * (1 / I.mu n) ≤ I.tau0 I.NLayers * (1 / I.mu n) := mul_le_mul_of_nonneg_right hx' hm1.le
    have h3 : 0 ≤ I.tau0 I.NLayers * (1 / I.mu0) := mul_nonneg hTT hm0.le
    linarith [mul_add (I.tau0 I.NLayers) (1 / I.mu n) (1 / I.mu0)]
  have hC : ∀ x y, 0 ≤ x → x ≤ I.tau0 I.NLayers → 0 ≤ y → y ≤ I.tau0 I.NLayers → x * (1 / I.mu n) + y * (1 / I.mu0) ≤ c := fun x y _ hx' _ hy' => by
    have h2 : x * (1 / I.mu n) ≤ I.tau0 I.NLayers * (1 / I.mu n) := mul_le_mul_of_nonneg_right hx' hm1.le
    have h3 : y * (1 / I.mu0) ≤ I.tau0 I.NLayers * (1 / I.mu0) := mul_le_mul_of_nonneg_right hy' hm0.le
    linarith [mul_add (I.tau0 I.NLayers) (1 / I.mu n) (1 / I.mu0)]
  have hst0 : 0 ≤ st := (hnn l hl.le).trans h0
  have hstT : st ≤ I.tau0 I.NLayers := h1.trans (htau _ _ hl le_rfl)
  have hdec : ∀ k ≤ I.NLayers, I.decayProdU ex n k = I.decayProd n k := by
    intro k hk
    unfold decayProdU decayProd
    split_ifs with hk0
    · rfl
    · rw [cumsum_logDecay hg n (by omega), show k - 1 + 1 = k by omega]
      refine hex _ ?_
      have := hB _ (hnn k hk) (htau _ _ hk le_rfl)
      rw [neg_div, div_eq_mul_one_div]; linarith
  have hfr : ∀ r ≤ I.NLayers, I.expFrontU ex r = I.expFront r := by
    intro r hr
    unfold expFrontU expFront
    split_ifs with hk0
    · rfl
    · refine hex _ ?_
      have := hA _ (hnn r hr) (htau _ _ hr le_rfl)
      linarith
  have hdne : ∀ k ≤ I.NLayers, I.decayProd n k ≠ 0 := fun k hk => by rw [decayProd_eq hg n hk]; exact (Real.exp_pos _).ne'
  have hRpos : I.RposU ex false n l = .fin (I.Rpos false n l) := by
    unfold RposU Rpos
    split_ifs with hlt
    · rw [hdec _ (by omega), Fl.fin_div (hdne _ (by omega))]
      congr 2
      unfold cumsumPosU cumsumPos cumsum
      refine sum_congr rfl fun k _ => ?_
      unfold wTermPosU wTermPos
      beta_reduce
      rw [hfr _ (by omega), hdec _ (by omega)]
    · rfl
  have hRneg : I.RnegU ex false n l = .fin (I.Rneg false n l) := by
    unfold RnegU Rneg
    split_ifs with hl0
    · rfl
    · have e : (Fl.sum l fun r => Fl.div (.fin (I.termNegU ex false n r)) (.fin (I.decayProdU ex n (r + 1))))
          = .fin (∑ r ∈ range l, I.termNeg false n r / I.decayProd n (r + 1)) := by
        rw [← Fl.sum_fin]
        have : ∀ m ≤ l, (Fl.sum m fun r => Fl.div (.fin (I.termNegU ex false n r)) (.fin (I.decayProdU ex n (r + 1))))
            = Fl.sum m fun r => .fin (I.termNeg false n r / I.decayProd n (r + 1)) := by
          intro m hm
          induction m with
          | zero => rfl
          | succ m ih =>
            rw [Fl.sum, Fl.sum, ih (by omega), hdec _ (by omega), Fl.fin_div (hdne _ (by omega))]
            congr 3
            unfold termNegU termNeg
            have hm' : m < I.NLayers := by omega
            rw [hfr m hm'.le, hex (-I.tau0 (m + 1) * (1 / I.mu0)) (by linarith [hA _ (hnn _ hm') (htau _ _ hm' le_rfl)]),
              hex (I.logDecay n m) (by
                unfold logDecay
                rw [hg.minv]
                have := hB _ (hmono m hm') (by linarith [hg.step m hm', hnn m hm'.le, htau _ _ hm' le_rfl])
                linarith)]
        exact this l le_rfl
      rw [e, hdec l hl.le]
      show Fl.fin _ = _
      unfold cumsum
      rw [show l - 1 + 1 = l by omega]
  have hl1 := hnn (l + 1) hl
  have hl1' := htau _ _ hl le_rfl
  have hll := hnn l hl.le
  have hll' := htau _ _ hl.le le_rfl
  have hown0 : ex (-st / I.mu0) = Real.exp (-st / I.mu0) := hex _ (by rw [neg_div, div_eq_mul_one_div]; linarith [hA st hst0 hstT])
  unfold tmsValU tmsVal tmsOwnU tmsOwn
  simp only [Bool.false_eq_true, if_false]
  by_cases hi : i < I.N
  · rw [if_pos hi] at hn
    subst hn
    have e1 : ex ((st - I.tau0 (l + 1)) / I.mu n - I.tau0 (l + 1) / I.mu0) = Real.exp ((st - I.tau0 (l + 1)) / I.mu n - I.tau0 (l + 1) / I.mu0) := by
      refine hex _ ?_
      have := hC (I.tau0 (l + 1) - st) (I.tau0 (l + 1)) (by linarith) (by linarith) hl1 hl1'
      rw [div_eq_mul_one_div, div_eq_mul_one_div (I.tau0 (l + 1))]
      linarith
    have e2 : ex (I.M_inv n * (st - I.tau0 (l + 1))) = Real.exp (I.M_inv n * (st - I.tau0 (l + 1))) := by
      refine hex _ ?_
      have := hB (I.tau0 (l + 1) - st) (by linarith) (by linarith)
      rw [hg.minv]; linarith
    simp only [if_pos hi]
    rw [hown0, e1, e2, hRpos]
    split_ifs <;> rfl
  · rw [if_neg hi] at hn
    have e1 : ex ((I.tau0 l - st) / I.mu n - I.tau0 l / I.mu0) = Real.exp ((I.tau0 l - st) / I.mu n - I.tau0 l / I.mu0) := by
      refine hex _ ?_
      have := hC (st - I.tau0 l) (I.tau0 l) (by linarith) (by linarith) hll hll'
      rw [div_eq_mul_one_div, div_eq_mul_one_div (I.tau0 l)]
      linarith
    have e2 : ex (I.M_inv n * (I.tau0 l - st)) = Real.exp (I.M_inv n * (I.tau0 l - st)) := by
      refine hex _ ?_
      have := hB (st - I.tau0 l) (by linarith) (by linarith)
      rw [hg.minv]; linarith
    simp only [if_neg hi]
    rw [← hn, hown0, e1, e2, hRneg]
    split_ifs <;> rfl

end NTIn
end Pydisort

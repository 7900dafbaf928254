import Verif.Model.NonFinite
import Verif.FluxLemmas

/-! Helper lemmas on NaN and infinities. -/

namespace Pydisort
open Finset

namespace Fl

@[simp] theorem nan_add (x : Fl) : add nan x = nan := by cases x <;> rfl
@[simp] theorem add_nan (x : Fl) : add x nan = nan := by cases x <;> rfl
@[simp] theorem nan_mul (x : Fl) : mul nan x = nan := by cases x <;> rfl
@[simp] theorem mul_nan (x : Fl) : mul x nan = nan := by cases x <;> rfl
@[simp] theorem nan_sub (x : Fl) : sub nan x = nan := by unfold sub; simp
@[simp] theorem sub_nan (x : Fl) : sub x nan = nan := by unfold sub neg; simp
@[simp] theorem nan_div (x : Fl) : div nan x = nan := by cases x <;> rfl
@[simp] theorem neg_nan : neg nan = nan := rfl
@[simp] theorem exp_nan : exp nan = nan := rfl
@[simp] theorem nan_max (x : Fl) : max nan x = nan := by cases x <;> rfl
@[simp] theorem max_nan (x : Fl) : max x nan = nan := by cases x <;> rfl
@[simp] theorem fin_add (x y : ℝ) : add (fin x) (fin y) = fin (x + y) := rfl
@[simp] theorem fin_mul (x y : ℝ) : mul (fin x) (fin y) = fin (x * y) := rfl
@[simp] theorem fin_neg (x : ℝ) : neg (fin x) = fin (-x) := rfl
@[simp] theorem fin_sub (x y : ℝ) : sub (fin x) (fin y) = fin (x - y) := by
  unfold sub; rw [fin_neg, fin_add, sub_eq_add_neg]
@[simp] theorem fin_exp (x : ℝ) : exp (fin x) = fin (Real.exp x) := rfl
@[simp] theorem fin_max (x y : ℝ) : max (fin x) (fin y) = fin (Max.max x y) := rfl
@[simp] theorem fin_lt (x y : ℝ) : lt (fin x) (fin y) ↔ x < y := Iff.rfl
@[simp] theorem fin_eqv (x y : ℝ) : eqv (fin x) (fin y) ↔ x = y := Iff.rfl
@[simp] theorem fin_le (x y : ℝ) : le (fin x) (fin y) ↔ x ≤ y := by
  unfold le; rw [fin_lt, fin_eqv, le_iff_lt_or_eq]
theorem fin_div {x y : ℝ} (h : y ≠ 0) : div (fin x) (fin y) = fin (x / y) := by
  show (if y = 0 then infTimes x else fin (x / y)) = _
  rw [if_neg h]

theorem sum_fin (n : ℕ) (f : ℕ → ℝ) : sum n (fun k => fin (f k)) = fin (∑ k ∈ range n, f k) := by
  induction n with
  | zero => simp [sum]
  | succ n ih => rw [sum, ih, fin_add, sum_range_succ]

theorem sum_congr {n : ℕ} {f g : ℕ → Fl} (h : ∀ k < n, f k = g k) : sum n f = sum n g := by
  induction n with
  | zero => rfl
  | succ n ih => rw [sum, sum, ih fun k hk => h k (by omega), h n (by omega)]

theorem sum_nan {n : ℕ} {f : ℕ → Fl} {k : ℕ} (hk : k < n) (h : f k = nan) : sum n f = nan := by
  induction n with
  | zero => omega
  | succ n ih =>
    rw [sum]
    rcases Nat.lt_succ_iff_lt_or_eq.1 hk with h1 | rfl
    · rw [ih h1, nan_add]
    · rw [h, add_nan]

/-- The largest of the numbers, or NaN: with NaN among them it is NaN, with infinity among them it is infinity or NaN. -/
theorem max_nan_iff {x y : Fl} : max x y = nan ↔ x = nan ∨ y = nan := by
  cases x <;> cases y <;> simp [max]

theorem max_big {x y : Fl} (h : (x = nan ∨ x = pinf) ∨ (y = nan ∨ y = pinf)) : max x y = nan ∨ max x y = pinf := by
  cases x <;> cases y <;> simp [max] at h ⊢

theorem pinf_mul_not_finite (x : Fl) : ¬ (mul pinf x).Finite := by
  cases x with
  | nan => simp [Finite]
  | ninf => simp [mul, Finite]
  | pinf => simp [mul, Finite]
  | fin x =>
    simp only [mul, infTimes]
    split_ifs <;> simp [Finite]

end Fl

theorem npMaxF_nan {v : A1 Fl} {k : ℕ} (hk : k < v.n) (h : v.get k = .nan) : npMaxF v = .ok .nan := by
  obtain ⟨n, g⟩ := v
  cases n with
  | zero => simp at hk
  | succ n =>
    show Except.ok _ = _
    congr 1
    simp only at hk h
    induction n with
    | zero =>
      obtain rfl : k = 0 := by omega
      exact h
    | succ n ih =>
      show Fl.max (Nat.rec (g 0) (fun k m => Fl.max m (g (k + 1))) n) (g (n + 1)) = _
      by_cases hk' : k < n + 1
      · rw [ih hk', Fl.nan_max]
      · obtain rfl : k = n + 1 := by omega
        rw [h, Fl.max_nan]

theorem npMaxF_big {v : A1 Fl} {k : ℕ} (hk : k < v.n) (h : v.get k = .pinf) : npMaxF v = .ok .nan ∨ npMaxF v = .ok .pinf := by
  obtain ⟨n, g⟩ := v
  cases n with
  | zero => simp at hk
  | succ n =>
    suffices hs : (Nat.rec (g 0) (fun k m => Fl.max m (g (k + 1))) n : Fl) = .nan ∨ (Nat.rec (g 0) (fun k m => Fl.max m (g (k + 1))) n : Fl) = .pinf by
      rcases hs with hs | hs
      · exact Or.inl (congrArg Except.ok hs)
      · exact Or.inr (congrArg Except.ok hs)
    simp only at hk h
    induction n with
    | zero =>
      obtain rfl : k = 0 := by omega
      exact Or.inr h
    | succ n ih =>
      show Fl.max (Nat.rec (g 0) (fun k m => Fl.max m (g (k + 1))) n) (g (n + 1)) = _ ∨ Fl.max (Nat.rec (g 0) (fun k m => Fl.max m (g (k + 1))) n) (g (n + 1)) = _
      refine Fl.max_big ?_
      by_cases hk' : k < n + 1
      · exact Or.inl (ih hk')
      · obtain rfl : k = n + 1 := by omega
        exact Or.inr (Or.inr h)

theorem npMaxF_fin (v : A1 ℝ) : npMaxF (v.map .fin) = (npMax v).map Fl.fin := by
  obtain ⟨n, g⟩ := v
  cases n with
  | zero => simp [npMaxF, npMax, A1.map, Except.map]
  | succ n =>
    unfold npMax
    rw [dif_pos ⟨0, by simp⟩]
    show Except.ok _ = Except.ok _
    congr 1
    simp only [A1.map]
    induction n with
    | zero => simp
    | succ n ih =>
      show Fl.max (Nat.rec (Fl.fin (g 0)) (fun k m => Fl.max m (Fl.fin (g (k + 1)))) n) (Fl.fin (g (n + 1))) = _
      rw [ih, Fl.fin_max]
      congr 1
      have : range (n + 1 + 1) = insert (n + 1) (range (n + 1)) := range_add_one
      simp only [this]
      rw [sup'_insert (H := ⟨0, by simp⟩)]
      rw [max_comm]

/-! ### Finite arguments -/

theorem BCv.toF_len (b : BCv) : b.toF.len = b.len := by cases b <;> rfl
theorem BCv.toF_shape (b : BCv) (r c : ℤ) : b.toF.HasShape r c ↔ b.HasShape r c := by cases b <;> exact Iff.rfl
theorem BCv.toF_zero (b : BCv) : b.toF.AllZero ↔ b.AllZero := by
  cases b <;> simp [BCv.toF, BCvF.AllZero, BCv.AllZero, A1.map, A2.map]
theorem BCv.toF_max (b : BCv) : b.toF.max = b.max.map Fl.fin := by
  cases b with
  | scalar x => rfl
  | vec v => exact npMaxF_fin v
  | mat v => exact npMaxF_fin ⟨v.r * v.c, fun k => v.get (k / v.c) (k % v.c)⟩

namespace Args
variable (a : Args)

theorem toF_bpos : a.toF.bpos' = a.bpos'.toF := by
  unfold ArgsF.bpos' Args.bpos'
  by_cases h : a.bpos.AllZero
  · rw [if_pos h]; exact if_pos ((BCv.toF_zero _).2 h)
  · rw [if_neg h]; exact if_neg fun h' => h ((BCv.toF_zero _).1 h')

theorem toF_bneg : a.toF.bneg' = a.bneg'.toF := by
  unfold ArgsF.bneg' Args.bneg'
  by_cases h : a.bneg.AllZero
  · rw [if_pos h]; exact if_pos ((BCv.toF_zero _).2 h)
  · rw [if_neg h]; exact if_neg fun h' => h ((BCv.toF_zero _).1 h')

theorem toF_nsc : a.toF.nsc = a.nsc := by
  unfold ArgsF.nsc Args.nsc
  by_cases h : ∀ i < a.s.r, ∀ j < a.s.c, a.s.get i j = 0
  · rw [if_pos h]; exact if_pos h
  · rw [if_neg h]; exact if_neg h

theorem toF_thick (k : ℕ) : a.toF.thick k = .fin (a.thick k) := by
  unfold ArgsF.thick Args.thick
  by_cases h : k = 0
  · rw [if_pos h, if_pos h]; rfl
  · rw [if_neg h, if_neg h]
    exact Fl.fin_sub _ _

theorem toF_legFix (l k : ℕ) : a.toF.legFix l k = .fin (a.legFix l k) := by
  unfold ArgsF.legFix Args.legFix
  by_cases h : ¬ (∀ l < a.NLayers, a.omega.get l * a.leg.get l 0 = a.omega.get l) ∧ k = 0
  · rw [if_pos h]; exact if_pos h
  · rw [if_neg h]; exact if_neg h

theorem toF_checks1 : a.toF.checks1 = a.checks1 := by
  unfold ArgsF.checks1 Args.checks1 ArgsF.Iso Args.Iso
  simp only [toF_thick, toF_nsc]
  simp only [Fl.fin_lt, Args.toF, A1.map, A2.map, Fl.fin_le, Fl.fin_eqv]
  rfl

theorem toF_checks2 : a.toF.checks2 = a.checks2 := by
  unfold ArgsF.checks2 Args.checks2 ArgsF.Beam Args.Beam
  simp only [toF_legFix, toF_bpos, toF_bneg, BCv.toF_len, BCv.toF_shape]
  simp only [Fl.fin_lt, Args.toF, A1.map, A2.map, Fl.fin_le]
  rfl

theorem toF_validate : a.toF.validate = a.validate := by
  unfold ArgsF.validate Args.validate
  rw [toF_checks1, toF_checks2]
  rfl

end Args

theorem ArgsF.validate_ok {a : ArgsF} :
    a.validate = .ok () ↔ a.tauArr.n ≠ 0 ∧ (∀ c ∈ a.checks1, c.1) ∧ ∀ c ∈ a.checks2, c.1 := by
  unfold ArgsF.validate
  by_cases h0 : a.tauArr.n = 0
  · simp [h0]
  rw [if_neg h0, ← runChecks_ok, ← runChecks_ok]
  rcases runChecks_cases a.checks1 with h | ⟨m, h⟩ <;> simp [h, bind, Except.bind, h0]

end Pydisort

namespace Pydisort
open Finset

namespace AsmIn
variable (I : AsmIn) (S : Sols)

theorem toF_checkTau (tau : A1 ℝ) : (I.toF S).checkTau (tau.map .fin) = I.checkTau tau := by
  unfold AsmF.checkTau checkTau
  by_cases h : (∃ k < tau.n, tau.get k < 0) ∨ (∃ k < tau.n, I.tauArr (I.NLayers - 1) < tau.get k)
  · rw [if_pos h]; exact if_pos h
  · rw [if_neg h]; exact if_neg h

theorem toF_layer (t : ℝ) : (I.toF S).layer (.fin t) = I.layer t := by
  unfold AsmF.layer layer
  have : (fun k => Fl.le (.fin t) ((I.toF S).tauArr k)) = fun k => t ≤ I.tauArr k := by
    funext k
    exact propext (Fl.fin_le _ _)
  rw [this]
  rfl

theorem toF_scaledTau (t : ℝ) : (I.toF S).scaledTau (.fin t) = .fin (I.scaledTau t) := by
  unfold AsmF.scaledTau scaledTau
  rw [toF_layer]
  by_cases h : ∃ k < I.NLayers, I.scale k ≠ 1
  · rw [if_pos h]
    refine (if_pos h).trans ?_
    show Fl.sub (.fin _) (Fl.mul (Fl.sub (.fin _) (.fin _)) (.fin _)) = _
    simp only [Fl.fin_sub, Fl.fin_mul]
  · rw [if_neg h]; exact if_neg h

theorem toF_exponent (m : ℕ) (t : ℝ) (j : ℕ) : (I.toF S).exponent m (.fin t) j = .fin (I.exponent S m t j) := by
  unfold AsmF.exponent exponent
  rw [toF_layer, toF_scaledTau]
  by_cases h : j < I.N
  · rw [if_pos h]
    refine (if_pos h).trans ?_
    show Fl.mul (.fin _) (Fl.sub (.fin _) (.fin _)) = _
    simp only [Fl.fin_sub, Fl.fin_mul]
  · rw [if_neg h]
    refine (if_neg h).trans ?_
    show Fl.mul (.fin _) (Fl.sub (.fin _) (.fin _)) = _
    simp only [Fl.fin_sub, Fl.fin_mul]

theorem toF_um (hm : I.beam = true → I.mu0 ≠ 0) (m i : ℕ) (t : ℝ) : (I.toF S).um m i (.fin t) = .fin (I.val S m t i) := by
  unfold AsmF.um val umPlain
  simp only [toF_layer, toF_scaledTau, toF_exponent, Fl.fin_exp, Fl.fin_neg]
  have h1 : (Fl.sum (2 * (I.toF S).N) fun j => Fl.mul ((I.toF S).GC m (I.layer t) i j) (.fin (Real.exp (I.exponent S m t j))))
      = .fin (∑ j ∈ range (2 * I.N), S.GC m (I.layer t) i j * Real.exp (I.exponent S m t j)) := Fl.sum_fin _ _
  rw [h1]
  have h2 : (if (I.toF S).beam = true then Fl.mul ((I.toF S).B m (I.layer t) i) (Fl.exp (Fl.div (.fin (-I.scaledTau t)) (I.toF S).mu0)) else .fin 0)
      = .fin (if I.beam = true then S.B m (I.layer t) i * Real.exp (-I.scaledTau t / I.mu0) else 0) := by
    show (if I.beam = true then Fl.mul (.fin _) (Fl.exp (Fl.div (.fin (-I.scaledTau t)) (.fin I.mu0))) else .fin 0) = _
    by_cases hb : I.beam = true
    · rw [if_pos hb, if_pos hb, Fl.fin_div (hm hb), Fl.fin_exp, Fl.fin_mul]
    · rw [if_neg hb, if_neg hb]
  rw [h2, Fl.fin_add]
  show (if m = 0 ∧ I.iso = true then Fl.add (.fin _) (.fin _) else .fin _) = _
  by_cases hi : m = 0 ∧ I.iso = true
  · rw [if_pos hi, if_pos hi, Fl.fin_add]
  · rw [if_neg hi, if_neg hi, add_zero]

theorem toF_uEntry (hm : I.beam = true → I.mu0 ≠ 0) (i : ℕ) (t ph : ℝ) : (I.toF S).uEntry i (.fin t) (.fin ph)
    = .fin (I.rescale * ∑ m ∈ range I.NFourier, I.val S m t i * Real.cos ((m : ℝ) * (I.phi0 - ph))) := by
  have h1 : (Fl.sum (I.toF S).NFourier fun m => Fl.mul ((I.toF S).um m i (.fin t)) (Fl.cos (Fl.mul (.fin (m : ℝ)) (Fl.sub (I.toF S).phi0 (.fin ph)))))
      = .fin (∑ m ∈ range I.NFourier, I.val S m t i * Real.cos ((m : ℝ) * (I.phi0 - ph))) := by
    rw [← Fl.sum_fin]
    refine Fl.sum_congr fun m _ => ?_
    rw [I.toF_um S hm]
    show Fl.mul _ (Fl.cos (Fl.mul (.fin _) (Fl.sub (.fin I.phi0) (.fin ph)))) = _
    rw [Fl.fin_sub, Fl.fin_mul]
    rfl
  unfold AsmF.uEntry
  rw [h1]
  rfl

theorem toF_fluxQuad (hm : I.beam = true → I.mu0 ≠ 0) (row0 : ℕ) (t : ℝ) : (I.toF S).fluxQuad row0 (.fin t)
    = .fin (∑ i ∈ range I.N, (2 * Real.pi * (I.mu i * I.W i)) * I.val S 0 t (row0 + i)) := by
  unfold AsmF.fluxQuad
  simp only [toF_um I S hm]
  exact Fl.sum_fin _ _

theorem toF_direct (hm : I.beam = true → I.mu0 ≠ 0) (t : ℝ) : (I.toF S).direct (.fin t)
    = .fin (if I.beam = true then I.I0 * I.mu0 * Real.exp (-t / I.mu0) else 0) := by
  unfold AsmF.direct
  show (if I.beam = true then Fl.mul (Fl.mul (.fin _) (.fin _)) (Fl.exp (Fl.div (.fin (-t)) (.fin I.mu0))) else .fin 0) = _
  by_cases hb : I.beam = true
  · rw [if_pos hb, if_pos hb, Fl.fin_div (hm hb), Fl.fin_exp, Fl.fin_mul, Fl.fin_mul]
  · rw [if_neg hb, if_neg hb]

theorem toF_directScaled (hm : I.beam = true → I.mu0 ≠ 0) (t : ℝ) : (I.toF S).directScaled (.fin t)
    = .fin (if I.beam = true then I.I0 * I.mu0 * Real.exp (-I.scaledTau t / I.mu0) else 0) := by
  unfold AsmF.directScaled
  rw [toF_scaledTau]
  show (if I.beam = true then Fl.mul (Fl.mul (.fin _) (.fin _)) (Fl.exp (Fl.div (.fin (-_)) (.fin I.mu0))) else .fin 0) = _
  by_cases hb : I.beam = true
  · rw [if_pos hb, if_pos hb, Fl.fin_div (hm hb), Fl.fin_exp, Fl.fin_mul, Fl.fin_mul]
  · rw [if_neg hb, if_neg hb]

end AsmIn

namespace AsmF
variable (I : AsmF)

theorem scaledTau_nan : I.scaledTau .nan = .nan := by
  unfold scaledTau
  split_ifs <;> simp

theorem exponent_nan (m j : ℕ) : I.exponent m .nan j = .nan := by
  unfold exponent
  rw [scaledTau_nan]
  split_ifs <;> simp

theorem um_nan (hN : 0 < I.N) (m i : ℕ) : I.um m i .nan = .nan := by
  unfold um
  have : (Fl.sum (2 * I.N) fun j => Fl.mul (I.GC m (I.layer .nan) i j) (Fl.exp (I.exponent m .nan j))) = .nan :=
    Fl.sum_nan (k := 0) (by omega) (by rw [exponent_nan]; simp)
  simp only [this, Fl.nan_add]
  split_ifs <;> rfl

theorem uEntry_of_nan {i : ℕ} {t ph : Fl} (h : (Fl.sum I.NFourier fun m => Fl.mul (I.um m i t) (Fl.cos (Fl.mul (.fin (m : ℝ)) (Fl.sub I.phi0 ph)))) = .nan) :
    I.uEntry i t ph = .nan := by
  unfold uEntry
  rw [h]
  rcases I.corr with _ | c <;> simp

theorem uEntry_nan (hN : 0 < I.N) (hF : 0 < I.NFourier) (i : ℕ) (ph : Fl) : I.uEntry i .nan ph = .nan :=
  I.uEntry_of_nan (Fl.sum_nan (k := 0) hF (by rw [um_nan I hN]; simp))

theorem uEntry_azimuth (hF : 0 < I.NFourier) (i : ℕ) (t : Fl) {ph : Fl} (h : ¬ I.phi0.Finite ∨ ¬ ph.Finite) : I.uEntry i t ph = .nan := by
  refine I.uEntry_of_nan (Fl.sum_nan (k := 0) hF ?_)
  have : Fl.mul (.fin ((0 : ℕ) : ℝ)) (Fl.sub I.phi0 ph) = .nan := by
    rw [Nat.cast_zero]
    rcases h with h | h <;> cases hp : I.phi0 <;> cases ph <;>
      simp [hp, Fl.Finite, Fl.sub, Fl.neg, Fl.add, Fl.mul, Fl.infTimes] at h ⊢
  rw [this]
  exact Fl.mul_nan _

theorem fluxQuad_nan (hN : 0 < I.N) (row0 : ℕ) : I.fluxQuad row0 .nan = .nan :=
  Fl.sum_nan (k := 0) hN (by rw [um_nan I hN]; simp)

theorem direct_nan (hb : I.beam = true) : I.direct .nan = .nan := by
  unfold direct
  rw [if_pos hb]; simp

end AsmF
end Pydisort

import Verif.PochAgree
import Verif.Props.Poch

/-!
# C136: what does not depend on the small factorial quotients
-/

namespace Pydisort
open Finset Spec

variable {E : Ext} {a : Args} {J J' : Junk} {R R' : Solved} {po : ℕ → ℕ → ℝ}

theorem same_input (h : pydisort E J a = .ok R) (h' : pydisortP po E J' a = .ok R') : R'.I = R.I := by
  obtain ⟨_, O, r, hO, hr, hI, _⟩ := pydisort_ok h
  obtain ⟨_, O', r', hO', hr', hI', _⟩ := pydisortP_ok h'
  rw [hO] at hO'; cases hO'
  rw [hr] at hr'; cases hr'
  rw [hI, hI']

/-- **C136 (modes of low order are exact).** With `L` Legendre coefficients, however many they are, the modes of order at most `171 - L` are those of the exact
quotients, whatever happens to the others. -/
theorem C136_low_modes_are_exact (hk : KeepsNormal po) (h : pydisort E J a = .ok R) (h' : pydisortP po E J' a = .ok R') {U U' : ℕ → ℝ → ℕ → ℝ} (hU : IsModes a R U)
    (hU' : IsModes a R' U') {m : ℕ} (hm : m < nFourier a) (hL : m + nLeg a ≤ 171) {t : ℝ} (h0 : 0 ≤ t) (h1 : t ≤ a.tauArr.get (a.tauArr.n - 1)) {i : ℕ}
    (hi : i < 2 * nHalf a) : U' m t i = U m t i := by
  have e := val_agree (po := GenIn.poch) (po' := po) h h' hm (fun k hk' => by
    rw [poch_eq, hk m k (le_quotient factorial_lt_two_pow.le (by omega))]) t i hi
  rw [C02_modes_unique hU (modes_valP (po := GenIn.poch) h) m hm t h0 h1 i hi, C02_modes_unique hU' (modes_valP h') m hm t h0 h1 i hi, e, same_input h h']

/-- **C136 (fluxes do not depend on the quotients).** For any number of Legendre coefficients the azimuthally averaged intensity, the upward flux and the
downward fluxes are those of the exact quotients, for all arguments of the returned functions, also the antiderivatives. -/
theorem C136_fluxes_unaffected (hk : KeepsNormal po) (h : pydisort E J a = .ok R) (h' : pydisortP po E J' a = .ok R') : SameFluxes R R' := by
  have hacc := (pydisort_ok h).1
  have hF : 0 < nFourier a := by
    unfold nFourier
    split_ifs with hf
    · exact Nat.one_pos
    · have := (hacc.modes (by simpa using hf)).1
      omega
  obtain ⟨hI, hN, hL, hS⟩ := sols_agree (po := GenIn.poch) (po' := po) h h' Nat.one_pos hF fun m hm k _ => by
    obtain rfl : m = 0 := by omega
    rw [poch_eq]
    refine (hk 0 k ?_).symm
    rw [mul_zero, zero_add, div_self (by exact_mod_cast Nat.factorial_ne_zero k)]
    exact (div_le_one (pow_pos two_pos _)).2 (one_le_pow₀ one_le_two)
  set D : BCData := ⟨R.I.bdrf, R.I.bpos, R.I.bneg, R.I.bposScalar, R.I.bnegScalar, R.I.bposVector, R.I.bnegVector, R.I.useBanded⟩
  exact sameFluxes_of (F' := R.I.NFourier) (D := D) hN hL Nat.one_pos hI hS

/-- The call of `C136_false`, for which the intensity is wrong, meets the hypotheses of both theorems; modes up to order 81 are exact. -/
example (J J' : Junk) : ∃ x R R', KeepsNormal flushed ∧ pydisort refExt J (demo 90 x) = .ok R ∧ pydisortP flushed refExt J' (demo 90 x) = .ok R' ∧
    81 < nFourier (demo 90 x) ∧ 81 + nLeg (demo 90 x) ≤ 171 := by
  obtain ⟨x, h0, h1, hw, hx⟩ := demo90
  have hL : nLeg (demo 90 x) = 90 := by simp [nLeg, demo]
  obtain ⟨R', hR'⟩ := pydisortP_isOk hw (fun _ i hi => hx i (by rwa [demo_nHalf] at hi)) (fun m _ => by rw [hL]; exact flushed_modeOK m) J'
  obtain ⟨R, hR⟩ := pydisort_isOk hw J
  exact ⟨x, R, R', flushed_keeps, hR, hR', by simp [nFourier, demo], by rw [hL]⟩

end Pydisort

import Verif.OverflowLemmas
import Verif.Spec.Overflow
import Verif.Props.Poch

/-!
# C137: associated Legendre functions that overflow

`lp m n x` is what is computed for the associated Legendre function of order `m` and degree `n` (`sc.special.lpmv`, lines 101 and 106 of
`_solve_for_gen_and_part_sols.py`), `po m k` what is computed for the quotients of factorials (line 96). `rest` is what is done with a beam source that is not finite.
-/

namespace Pydisort
open Finset Spec

variable {E : Ext} {a : Args} {J J' : Junk} {R : Solved} {po : ℕ → ℕ → ℝ} {lp : ℕ → ℕ → ℝ → Fl} {rest : GenStateF → Py GenOut} {junk : GenStateF}

/-- Without overflow the model is that of `Model/Poch.lean`. -/
theorem C137_without_overflow (h : LegendreExact a lp) : pydisortL po lp rest E junk J a = pydisortP po E { J with gen := junk.val } a := by
  unfold pydisortL pydisortP
  rcases hp : prepare E a with e | p
  · rfl
  obtain ⟨_, O, r, _, _, hI⟩ := prepare_ok hp
  have hx : LpExact p.1.genIn lp := by
    intro m hm n hn x
    refine h m ?_ n ?_ x
    · rw [hI] at hm; rw [← nFourier_eq]; exact hm
    · rw [hI] at hn; exact hn
  have : solveAllF po lp rest E junk J p.1 = solveAllP po E { J with gen := junk.val } p.1 := by
    unfold solveAllF solveAllP
    rw [genSolF_exact hx]
  simp only [bind, Except.bind, this]

/-- **C137.** If one of the associated Legendre functions at the directions of the streams is infinite or NaN, for a Fourier mode and a layer with significant scattering, then the call
never returns; when the exact program returns, the exception is `LinAlgError`. -/
theorem C137_overflow_raises {m l i n : ℕ} (hm : m < nFourier a) (hl : l < a.tauArr.n) (hs : Significant (omegaStar a l) (nLeg a) (legStar a l) m) (hi : i < nHalf a)
    (hmn : m ≤ n) (hn : n < nLeg a) (hinf : ¬ (lp m n (node E a i)).Finite) :
    (∀ R, pydisortL po lp rest E junk J a ≠ .ok R) ∧ ((∃ R, pydisort E J' a = .ok R) → pydisortL po lp rest E junk J a = .error .linAlgError) := by
  have key : ∀ p, prepare E a = .ok p → pydisortL po lp rest E junk J a = .error .linAlgError := by
    intro p hp
    obtain ⟨hacc, O, r, hO, _, hI⟩ := prepare_ok hp
    have h1 : genSolF po lp rest E junk p.1.genIn = .error .linAlgError := by
      rw [hI]
      refine genSolF_raises rest E junk (m := m) (l := l) (i := i) (q := n - m) ?_ hl ?_ hi ?_ ?_
      · rw [← nFourier_eq] at hm; exact hm
      · exact (asm_scatters (E := E) (r := r) (Args.optics_spec hacc hO) hl m).2 hs
      · change n - m < nLeg a - m; omega
      · rw [show m + (n - m) = n by omega]; exact hinf
    unfold pydisortL solveAllF
    simp only [hp, h1, bind, Except.bind]
  constructor
  · intro R hR
    rcases hp : prepare E a with e | p
    · unfold pydisortL at hR
      rw [hp] at hR; cases hR
    · rw [key p hp] at hR; cases hR
  · rintro ⟨R, hR⟩
    rcases hp : prepare E a with e | p
    · unfold pydisort at hR
      rw [hp] at hR; cases hR
    · exact key p hp

set_option exponentiation.threshold 1100 in
theorem two_pow_le_factorial : (2 : ℝ) ^ 1024 ≤ (Nat.factorial 172 : ℝ) := by norm_num [Nat.factorial]

/-- **C137 (many modes).** If the Legendre functions are computed through the product `(n+m)!/(n-m)!`, no call with a mode of order 86 or more returns, unless that mode is without
significant scattering in every layer. -/
theorem C137_many_modes_raise (hp : ProductOverflows lp) (hg : GaussContract E (nHalf a)) (hN : 0 < nHalf a) {m l : ℕ} (h86 : 86 ≤ m) (hm : m < nFourier a) (hl : l < a.tauArr.n)
    (hs : Significant (omegaStar a l) (nLeg a) (legStar a l) m) :
    (∀ R, pydisortL po lp rest E junk J a ≠ .ok R) ∧ ((∃ R, pydisort E J' a = .ok R) → pydisortL po lp rest E junk J a = .error .linAlgError) := by
  have hn := node_pos hg hN
  obtain ⟨k, hk, hk', _⟩ := id hs
  refine C137_overflow_raises hm hl hs hN le_rfl (by omega) (hp m m le_rfl ?_ _ (by linarith [hn.1]) hn.2)
  rw [Nat.sub_self, Nat.factorial_zero, Nat.cast_one, div_one]
  exact two_pow_le_factorial.trans (by exact_mod_cast Nat.factorial_le (by omega))

open Classical in
/-- A routine that overflows as described and is exact otherwise. -/
noncomputable def overflowing (m n : ℕ) (x : ℝ) : Fl :=
  if m ≤ n ∧ (2 : ℝ) ^ 1024 ≤ ((n + m).factorial : ℝ) / ((n - m).factorial : ℝ) then .pinf else .fin (assocLegendre m n x)

theorem overflowing_overflows : ProductOverflows overflowing := fun m n h h' x _ _ => by
  unfold overflowing
  rw [if_pos ⟨h, h'⟩]; exact id

/-- The well-posed call of `C136_false` with 90 modes meets the hypotheses: the exact program returns, with overflow it raises. -/
example (J J' : Junk) : ∃ x R, pydisort refExt J' (demo 90 x) = .ok R ∧ ∀ po rest junk, pydisortL po overflowing rest refExt junk J (demo 90 x) = .error .linAlgError := by
  obtain ⟨x, h0, h1, hw, _⟩ := demo90
  obtain ⟨R, hR⟩ := pydisort_isOk hw J'
  refine ⟨x, R, hR, fun po rest junk => (C137_many_modes_raise overflowing_overflows hw.gauss (by rw [demo_nHalf]; norm_num) (m := 89) (l := 0) (by norm_num) (by simp [nFourier, demo]) (by simp [demo]) ?_).2
    ⟨R, hR⟩⟩
  by_contra hns
  refine demo90_source h0 h1 hw ?_
  unfold beamSource
  rw [if_neg hns]

/-- Calls without overflow return what they return in `Model/Pydisort.lean`. -/
example {n : ℕ} (hn : 0 < n) (J : Junk) (junk : GenStateF) : ∃ x R, pydisortL GenIn.poch (fun m n x => .fin (assocLegendre m n x)) rest refExt junk J (demo n x) = .ok R := by
  obtain ⟨x, R, hR, _⟩ := demo_call hn { J with gen := junk.val }
  exact ⟨x, R, by rw [C137_without_overflow (fun _ _ _ _ _ => rfl), C136_exact]; exact hR⟩

end Pydisort

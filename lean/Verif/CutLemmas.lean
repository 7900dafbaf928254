import Verif.AgreeLemmas

/-! Helper lemmas: cutting the atmosphere at an interface. -/

namespace Pydisort
open Finset Spec

section
variable {E : Ext} {a : Args} {k : ℕ} {v : ℕ → ℝ} {s' : A2 ℝ}

theorem bcVal_vec {n i : ℕ} (hi : i < n) : bcVal (.vec ⟨n, v⟩) 0 i = v i := by
  unfold bcVal
  simp only [if_true]
  split_ifs with h
  · rw [show i = 0 by omega]
  · rfl

/-! ### The upper part -/

theorem upper_peak {l : ℕ} (hl : l < k) : peak (upperPart a k v) l = peak a l := by
  conv_lhs => unfold peak
  rw [if_pos (show l < (upperPart a k v).fArr.n from hl)]
  rfl

theorem upper_scale {l : ℕ} (hl : l < k) : scale (upperPart a k v) l = scale a l := by
  unfold scale; rw [upper_peak hl]; rfl

theorem upper_omegaStar {l : ℕ} (hl : l < k) : omegaStar (upperPart a k v) l = omegaStar a l := by
  unfold omegaStar; rw [upper_peak hl, upper_scale hl]; rfl

theorem upper_legStar {l : ℕ} (hl : l < k) : legStar (upperPart a k v) l = legStar a l := by
  funext j; unfold legStar; rw [upper_peak hl]; rfl

theorem upper_kernel {l : ℕ} (hl : l < k) (m : ℕ) : kernel (upperPart a k v) m l = kernel a m l := by
  funext x y; unfold kernel; rw [upper_omegaStar hl, upper_legStar hl]; rfl

theorem upper_beamSource {l : ℕ} (hl : l < k) (m : ℕ) : beamSource (upperPart a k v) m l = beamSource a m l := by
  funext x; unfold beamSource; rw [upper_omegaStar hl, upper_legStar hl]; rfl

theorem upper_bdryStar {l : ℕ} (hl : l ≤ k) : bdryStar (upperPart a k v) l = bdryStar a l := by
  unfold bdryStar
  refine sum_congr rfl fun j hj => ?_
  rw [upper_scale (by have := mem_range.1 hj; omega)]
  rfl

theorem upper_tauStar {l : ℕ} (hl : l < k) (t : ℝ) : tauStar (upperPart a k v) l t = tauStar a l t := by
  unfold tauStar; rw [upper_bdryStar hl.le, upper_scale hl]; rfl

theorem upper_source {l : ℕ} (hl : l < k) (t : ℝ) : source (upperPart a k v) l t = source a l t := by
  unfold source
  rw [if_pos (show l < (upperPart a k v).s.r from hl)]
  change ∑ j ∈ range a.s.c, (if l < a.s.r then a.s.get l j else 0) * t ^ j = _
  split_ifs
  · rfl
  · simp

theorem upper_accepted (h : Accepted a) (hk0 : 0 < k) (hk : k < a.tauArr.n) : Accepted (upperPart a k v) where
  layers := hk0
  top := h.top
  increasing := fun j hj => h.increasing j (by have : j + 1 < k := hj; omega)
  omegaLen := rfl
  omega := fun l hl => h.omega l (by have : l < k := hl; omega)
  legRows := rfl
  legCols := h.legCols
  legVal := fun l hl j hj h1 => h.legVal l (by have : l < k := hl; omega) j hj h1
  peakLen := Or.inr rfl
  peak := fun l _ => Args.peak_range h l
  sourceRows := Or.inr rfl
  streams := h.streams
  modes := fun hc => by cases hc
  nLeg := h.nLeg
  beam := h.beam
  beamDir := h.beamDir
  bottom := Or.inr (Or.inr rfl)
  topBC := h.topBC
  banded := h.banded

theorem nFourier_pos_of (h : Accepted a) : 0 < nFourier a := by
  unfold nFourier
  split_ifs with ho
  · exact one_pos
  · have := (h.modes (by simpa using ho)).1; omega

theorem upper_wellPosed (h : WellPosed E a) (hk0 : 0 < k) (hk : k < a.tauArr.n) : WellPosed E (upperPart a k v) where
  accepted := upper_accepted h.accepted hk0 hk
  gauss := h.gauss
  eig := h.eig
  peak := fun l hl => by
    have hl' : l < k := hl
    rw [upper_peak hl']; exact h.peak l (by omega)
  dissipates := by
    intro m hm l hl
    have hl' : l < k := hl
    have hm' : m < 1 := hm
    rw [upper_kernel hl']
    exact h.dissipates m (by have := nFourier_pos_of h.accepted; omega) l (by omega)
  beam := by
    intro hI m hm l hl
    have hl' : l < k := hl
    have hm' : m < 1 := hm
    rw [upper_kernel hl', upper_omegaStar hl', upper_legStar hl']
    exact h.beam hI m (by have := nFourier_pos_of h.accepted; omega) l (by omega)
  surface := passive_black rfl
  bottomBC := trivial
  topBC := h.topBC
  sourceShape := Or.inr rfl
  degree := h.degree.imp (fun hn l _ j hj => by
    change (if l < a.s.r then a.s.get l j else 0) = 0
    split_ifs with hl
    · exact hn l hl j hj
    · rfl) id
  angles := h.angles

theorem upper_bottom (hk0 : 0 < k) : bottom (upperPart a k v) = bdry a.tauArr.get k := by
  unfold bottom bdry
  rw [if_neg (by omega)]
  rfl

theorem upper_isSolution (h : Accepted a) (hk0 : 0 < k) (hk : k < a.tauArr.n) {mu w : Vec} {rho : ℝ → ℝ → ℝ}
    {V : ℝ → ℕ → ℝ} (hV : IsSolution a mu w rho 0 V) (hv : ∀ i < nHalf a, v i = V (bdry a.tauArr.get k) i) (rho' : ℝ → ℝ → ℝ) :
    IsSolution (upperPart a k v) mu w rho' 0 V where
  cont := by
    intro i hi
    refine (hV.cont i hi).mono (Set.Icc_subset_Icc_right ?_)
    rw [upper_bottom hk0, ← bdry_bottom h]
    exact bdry_le h hk.le le_rfl
  ode := by
    intro l hl t ht0 ht1 i hi
    have hl' : l < k := hl
    obtain ⟨d, hd, he⟩ := hV.ode l (by omega) t ht0 ht1 i hi
    refine ⟨d, hd, ?_⟩
    change stream (nHalf a) mu i * d = _
    rw [he]
    unfold rteUser
    rw [upper_scale hl', upper_kernel hl', upper_beamSource hl', upper_tauStar hl', upper_source hl']
    rfl
  top := hV.top
  bot := by
    intro i hi
    have hi' : i < nHalf a := hi
    rw [if_neg (by change ¬ 0 < ([] : List BDRFMode).length; simp), add_zero, upper_bottom hk0]
    change _ = bcVal (.vec ⟨nHalf a, v⟩) 0 i
    rw [bcVal_vec hi', hv i hi']

/-! ### The lower part -/

theorem lower_bdry (l : ℕ) : bdry (lowerPart a k v s').tauArr.get l = bdry a.tauArr.get (k + l) - bdry a.tauArr.get k := by
  rcases l with _ | l
  · rw [bdry_zero, add_zero, sub_self]
  · rw [Spec.bdry_succ, ← add_assoc, Spec.bdry_succ]; rfl

theorem lower_peak {l : ℕ} (hl : l < a.tauArr.n - k) : peak (lowerPart a k v s') l = peak a (k + l) := by
  conv_lhs => unfold peak
  rw [if_pos (show l < (lowerPart a k v s').fArr.n from hl)]
  rfl

theorem lower_scale {l : ℕ} (hl : l < a.tauArr.n - k) : scale (lowerPart a k v s') l = scale a (k + l) := by
  unfold scale; rw [lower_peak hl]; rfl

theorem lower_omegaStar {l : ℕ} (hl : l < a.tauArr.n - k) : omegaStar (lowerPart a k v s') l = omegaStar a (k + l) := by
  unfold omegaStar; rw [lower_peak hl, lower_scale hl]; rfl

theorem lower_legStar {l : ℕ} (hl : l < a.tauArr.n - k) : legStar (lowerPart a k v s') l = legStar a (k + l) := by
  funext j; unfold legStar; rw [lower_peak hl]; rfl

theorem lower_kernel {l : ℕ} (hl : l < a.tauArr.n - k) (m : ℕ) : kernel (lowerPart a k v s') m l = kernel a m (k + l) := by
  funext x y; unfold kernel; rw [lower_omegaStar hl, lower_legStar hl]; rfl

theorem lower_beamSource {l : ℕ} (hl : l < a.tauArr.n - k) (m : ℕ) (x : ℝ) :
    beamSource (lowerPart a k v s') m l x = beamSource a m (k + l) x * Real.exp (-bdryStar a k / a.mu0) := by
  unfold beamSource
  rw [lower_omegaStar hl, lower_legStar hl]
  unfold beamX
  rw [show (lowerPart a k v s').I0 = a.I0 * Real.exp (-bdryStar a k / a.mu0) from rfl, show nLeg (lowerPart a k v s') = nLeg a from rfl,
    show (lowerPart a k v s').mu0 = a.mu0 from rfl]
  split_ifs <;> ring

theorem lower_bdryStar {l : ℕ} (hl : l ≤ a.tauArr.n - k) : bdryStar (lowerPart a k v s') l = bdryStar a (k + l) - bdryStar a k := by
  induction l with
  | zero => rw [bdryStar_zero, add_zero, sub_self]
  | succ l ih =>
    rw [bdryStar_succ, ih (by omega), ← add_assoc, bdryStar_succ, lower_scale (by omega), lower_bdry, lower_bdry, ← add_assoc]
    ring

theorem lower_tauStar {l : ℕ} (hl : l < a.tauArr.n - k) (t : ℝ) :
    tauStar (lowerPart a k v s') l t = tauStar a (k + l) (t + bdry a.tauArr.get k) - bdryStar a k := by
  unfold tauStar; rw [lower_bdryStar hl.le, lower_scale hl, lower_bdry]; ring

theorem lower_bottom (h : Accepted a) (hk : k < a.tauArr.n) : bottom (lowerPart a k v s') = bottom a - bdry a.tauArr.get k := by
  unfold bottom
  change a.tauArr.get (k + (a.tauArr.n - k - 1)) - _ = _
  rw [show k + (a.tauArr.n - k - 1) = a.tauArr.n - 1 by omega]

theorem lower_accepted (h : Accepted a) (hk : k < a.tauArr.n) (hs : s'.r = a.tauArr.n - k) : Accepted (lowerPart a k v s') where
  layers := by change 0 < a.tauArr.n - k; omega
  top := by
    change 0 < a.tauArr.get (k + 0) - bdry a.tauArr.get k
    have := bdry_lt h hk
    rw [Spec.bdry_succ] at this
    rw [add_zero]; linarith
  increasing := by
    intro j hj
    have hj' : j + 1 < a.tauArr.n - k := hj
    change a.tauArr.get (k + j) - _ < a.tauArr.get (k + (j + 1)) - _
    have := h.increasing (k + j) (by omega)
    rw [add_assoc] at this
    linarith
  omegaLen := rfl
  omega := fun l hl => h.omega _ (by have : l < a.tauArr.n - k := hl; omega)
  legRows := rfl
  legCols := h.legCols
  legVal := fun l hl j hj h1 => h.legVal _ (by have : l < a.tauArr.n - k := hl; omega) j hj h1
  peakLen := Or.inr rfl
  peak := fun l _ => Args.peak_range h _
  sourceRows := Or.inr hs
  streams := h.streams
  modes := fun hc => by cases hc
  nLeg := h.nLeg
  beam := mul_nonneg h.beam (Real.exp_pos _).le
  beamDir := fun hI => h.beamDir (pos_of_mul_pos_left hI (Real.exp_pos _).le)
  bottom := h.bottom
  topBC := Or.inr (Or.inr rfl)
  banded := h.banded

theorem lower_wellPosed (h : WellPosed E a) (hk : k < a.tauArr.n) (hs : s'.r = a.tauArr.n - k) (hd : s'.c ≤ 21) : WellPosed E (lowerPart a k v s') where
  accepted := lower_accepted h.accepted hk hs
  gauss := h.gauss
  eig := h.eig
  peak := fun l hl => by
    have hl' : l < a.tauArr.n - k := hl
    rw [lower_peak hl']; exact h.peak _ (by omega)
  dissipates := by
    intro m hm l hl
    have hl' : l < a.tauArr.n - k := hl
    have hm' : m < 1 := hm
    rw [lower_kernel hl']
    exact h.dissipates m (by have := nFourier_pos_of h.accepted; omega) _ (by omega)
  beam := by
    intro hI m hm l hl
    have hl' : l < a.tauArr.n - k := hl
    have hm' : m < 1 := hm
    rw [lower_kernel hl', lower_omegaStar hl', lower_legStar hl']
    exact h.beam (pos_of_mul_pos_left hI (Real.exp_pos _).le) m (by have := nFourier_pos_of h.accepted; omega) _ (by omega)
  surface := by
    intro m hm M hM
    have hm' : m < 1 := hm
    exact h.surface m (by have := nFourier_pos_of h.accepted; omega) M hM
  bottomBC := h.bottomBC
  topBC := trivial
  sourceShape := Or.inr hs
  degree := Or.inr hd
  angles := h.angles

theorem lower_isSolution (h : Accepted a) (hk : k < a.tauArr.n)
    (hsrc : ∀ l < a.tauArr.n - k, ∀ t, source (lowerPart a k v s') l t = source a (k + l) (t + bdry a.tauArr.get k))
    {mu w : Vec} {rho : ℝ → ℝ → ℝ} {V : ℝ → ℕ → ℝ} (hV : IsSolution a mu w rho 0 V)
    (hv : ∀ i < nHalf a, v i = V (bdry a.tauArr.get k) (nHalf a + i)) :
    IsSolution (lowerPart a k v s') mu w rho 0 (fun t => V (t + bdry a.tauArr.get k)) where
  cont := by
    intro i hi
    refine (hV.cont i hi).comp (by fun_prop) ?_
    intro t ht
    rw [lower_bottom h hk] at ht
    have := bdry_le h (Nat.zero_le k) hk.le
    rw [bdry_zero] at this
    exact ⟨by linarith [ht.1], by linarith [ht.2]⟩
  ode := by
    intro l hl t ht0 ht1 i hi
    have hl' : l < a.tauArr.n - k := hl
    rw [lower_bdry] at ht0 ht1
    obtain ⟨d, hd, he⟩ := hV.ode (k + l) (by omega) (t + bdry a.tauArr.get k) (by linarith)
      (by rw [add_assoc]; linarith) i hi
    refine ⟨d, ?_, ?_⟩
    · exact HasDerivAt.comp_add_const t _ hd
    · change stream (nHalf a) mu i * d = _
      rw [he]
      unfold rteUser
      rw [lower_scale hl', hsrc l hl', lower_tauStar hl', lower_kernel hl']
      have e : (lowerPart a k v s').omega.get l = a.omega.get (k + l) := rfl
      rw [e]
      congr 2
      unfold rteRHS
      rw [lower_beamSource hl']
      have e2 : (lowerPart a k v s').mu0 = a.mu0 := rfl
      have e3 : nHalf (lowerPart a k v s') = nHalf a := rfl
      rw [e2, e3, mul_assoc, ← Real.exp_add]
      congr 3
      ring_nf
  top := by
    intro i hi
    have hi' : i < nHalf a := hi
    change V (0 + _) (nHalf a + i) = bcVal (.vec ⟨nHalf a, v⟩) 0 i
    rw [zero_add, bcVal_vec hi', hv i hi']
  bot := by
    intro i hi
    rw [lower_bottom h hk]
    beta_reduce
    rw [sub_add_cancel, hV.bot i hi]
    refine congrArg₂ (· + ·) rfl ?_
    have e : reflected (lowerPart a k v s') mu w rho 0 (mu i) (fun j => V (bottom a) (nHalf a + j))
        = reflected a mu w rho 0 (mu i) (fun j => V (bottom a) (nHalf a + j)) := by
      unfold reflected
      have e1 : (lowerPart a k v s').tauArr.n = a.tauArr.n - k := rfl
      rw [e1, lower_bdryStar le_rfl, show k + (a.tauArr.n - k) = a.tauArr.n by omega]
      change _ + a.mu0 * (a.I0 * Real.exp (-bdryStar a k / a.mu0)) / Real.pi * rho (mu i) a.mu0
        * Real.exp (-(bdryStar a a.tauArr.n - bdryStar a k) / a.mu0) = _
      refine congrArg₂ (· + ·) rfl ?_
      have : Real.exp (-bdryStar a a.tauArr.n / a.mu0)
          = Real.exp (-bdryStar a k / a.mu0) * Real.exp (-(bdryStar a a.tauArr.n - bdryStar a k) / a.mu0) := by
        rw [← Real.exp_add]; congr 1; ring
      rw [this]; ring
    rw [← e]
    rfl

end
end Pydisort

import Verif.SimilarLemmas

/-! Helper lemmas: the atmosphere turned upside down. -/

namespace Pydisort
open Finset Spec

section
variable {E : Ext} {a : Args} {s' : A2 ℝ}

theorem mirror_lt {N i : ℕ} (h : i < 2 * N) : mirror N i < 2 * N := by unfold mirror; split_ifs <;> omega

theorem mirror_mirror {N i : ℕ} (h : i < 2 * N) : mirror N (mirror N i) = i := by unfold mirror; split_ifs <;> omega

theorem stream_mirror (N : ℕ) (mu : Vec) {i : ℕ} (h : i < 2 * N) : stream N mu (mirror N i) = -stream N mu i := by
  unfold stream mirror
  by_cases hi : i < N
  · rw [if_pos hi, if_neg (by omega), if_pos hi, Nat.add_sub_cancel_left]
  · rw [if_neg hi, if_pos (by omega), if_neg hi, neg_neg]

theorem streamW_mirror (N : ℕ) (w : Vec) {i : ℕ} (h : i < 2 * N) : streamW N w (mirror N i) = streamW N w i := by
  unfold streamW mirror
  by_cases hi : i < N
  · rw [if_pos hi, if_neg (by omega), if_pos hi, Nat.add_sub_cancel_left]
  · rw [if_neg hi, if_pos (by omega), if_neg hi]

theorem sum_mirror (N : ℕ) (f : ℕ → ℝ) : ∑ i ∈ range (2 * N), f (mirror N i) = ∑ i ∈ range (2 * N), f i := by
  refine sum_nbij' (mirror N) (mirror N) ?_ ?_ ?_ ?_ ?_
  · intro i hi; rw [mem_range] at hi ⊢; exact mirror_lt hi
  · intro i hi; rw [mem_range] at hi ⊢; exact mirror_lt hi
  · intro i hi; exact mirror_mirror (mem_range.1 hi)
  · intro i hi; exact mirror_mirror (mem_range.1 hi)
  · intro i _; rfl

theorem flip_bdry (h : Accepted a) {l : ℕ} (hl : l ≤ a.tauArr.n) :
    bdry (flipped a s').tauArr.get l = bottom a - bdry a.tauArr.get (a.tauArr.n - l) := by
  rcases l with _ | l
  · rw [bdry_zero, Nat.sub_zero, bdry_bottom h, sub_self]
  · rw [Spec.bdry_succ]
    change bottom a - bdry a.tauArr.get (a.tauArr.n - 1 - l) = _
    rw [show a.tauArr.n - 1 - l = a.tauArr.n - (l + 1) by omega]

theorem flip_bottom (h : Accepted a) : bottom (flipped a s') = bottom a := by
  change bottom a - bdry a.tauArr.get (a.tauArr.n - 1 - (a.tauArr.n - 1)) = _
  rw [Nat.sub_self, bdry_zero, sub_zero]

theorem flip_peak {l : ℕ} (hl : l < a.tauArr.n) : peak (flipped a s') l = peak a (a.tauArr.n - 1 - l) := by
  conv_lhs => unfold peak
  rw [if_pos (show l < (flipped a s').fArr.n from hl)]
  rfl

theorem flip_scale {l : ℕ} (hl : l < a.tauArr.n) : scale (flipped a s') l = scale a (a.tauArr.n - 1 - l) := by
  unfold scale; rw [flip_peak hl]; rfl

theorem flip_omegaStar {l : ℕ} (hl : l < a.tauArr.n) : omegaStar (flipped a s') l = omegaStar a (a.tauArr.n - 1 - l) := by
  unfold omegaStar; rw [flip_peak hl, flip_scale hl]; rfl

theorem flip_legStar {l : ℕ} (hl : l < a.tauArr.n) : legStar (flipped a s') l = legStar a (a.tauArr.n - 1 - l) := by
  funext k; unfold legStar; rw [flip_peak hl]; rfl

theorem flip_kernel {l : ℕ} (hl : l < a.tauArr.n) (m : ℕ) : kernel (flipped a s') m l = kernel a m (a.tauArr.n - 1 - l) := by
  funext x y
  unfold kernel
  rw [flip_omegaStar hl, flip_legStar hl]
  rfl

theorem flip_accepted (h : Accepted a) (hI : a.I0 = 0) (hs : s'.r = a.tauArr.n) (hbp : Azimuthless a.bpos) : Accepted (flipped a s') where
  layers := h.layers
  top := by
    have := bdry_lt h (show a.tauArr.n - 1 < a.tauArr.n by have := h.layers; omega)
    have hb := bdry_bottom h
    have hn := h.layers
    rw [show a.tauArr.n - 1 + 1 = a.tauArr.n by omega, hb] at this
    change 0 < bottom a - bdry a.tauArr.get (a.tauArr.n - 1 - 0)
    rw [Nat.sub_zero]; linarith
  increasing := by
    intro k hk
    have hk' : k + 1 < a.tauArr.n := hk
    change bottom a - bdry a.tauArr.get (a.tauArr.n - 1 - k) < bottom a - bdry a.tauArr.get (a.tauArr.n - 1 - (k + 1))
    have := bdry_lt h (show a.tauArr.n - 1 - (k + 1) < a.tauArr.n by omega)
    rw [show a.tauArr.n - 1 - (k + 1) + 1 = a.tauArr.n - 1 - k by omega] at this
    linarith
  omegaLen := rfl
  omega := fun k hk => h.omega _ (by have : k < a.tauArr.n := hk; omega)
  legRows := rfl
  legCols := h.legCols
  legVal := fun l hl k hk h1 => h.legVal _ (by have : l < a.tauArr.n := hl; omega) k hk h1
  peakLen := Or.inr rfl
  peak := fun k hk => Args.peak_range h _
  sourceRows := Or.inr hs
  streams := h.streams
  modes := h.modes
  nLeg := h.nLeg
  beam := h.beam
  beamDir := fun hI' => absurd hI' (by change ¬ 0 < a.I0; rw [hI]; exact lt_irrefl _)
  bottom := h.topBC
  topBC := h.bottom
  banded := h.banded

theorem flip_wellPosed (h : WellPosed E a) (hI : a.I0 = 0) (hb : a.bdrf = []) (hs : s'.r = a.tauArr.n) (hd : s'.c ≤ 21) :
    WellPosed E (flipped a s') where
  accepted := flip_accepted h.accepted hI hs h.bottomBC
  gauss := h.gauss
  eig := h.eig
  peak := fun l hl => by
    have hl' : l < a.tauArr.n := hl
    rw [flip_peak hl']; exact h.peak _ (by omega)
  dissipates := by
    intro m hm l hl
    have hl' : l < a.tauArr.n := hl
    rw [flip_kernel hl']
    exact h.dissipates m hm _ (by omega)
  beam := fun hI' => absurd hI' (by change ¬ 0 < a.I0; rw [hI]; exact lt_irrefl _)
  surface := passive_black hb
  bottomBC := h.topBC
  topBC := h.bottomBC
  sourceShape := Or.inr hs
  degree := Or.inr hd
  angles := h.angles

theorem flip_noSource (h : Accepted a) (hs : s'.r = a.tauArr.n)
    (hsrc : ∀ l < a.tauArr.n, ∀ t, source (flipped a s') l t = source a (a.tauArr.n - 1 - l) (bottom a - t)) (hn : NoSource a) :
    NoSource (flipped a s') := by
  intro l hl
  have hl' : l < a.tauArr.n := by
    have : l < s'.r := hl
    rwa [hs] at this
  refine poly_zero fun x => ?_
  have := hsrc l hl' x
  rw [source_zero hn] at this
  unfold source at this
  rwa [if_pos hl] at this

theorem flip_rescalable (h : Accepted a) (hI : a.I0 = 0) (hs : s'.r = a.tauArr.n)
    (hsrc : ∀ l < a.tauArr.n, ∀ t, source (flipped a s') l t = source a (a.tauArr.n - 1 - l) (bottom a - t)) (hr : Rescalable a) :
    Rescalable (flipped a s') := by
  have hn := h.layers
  rcases hr with hl | ⟨h1, h2, h3⟩
  · left
    rcases hl with h1 | h1 | h1 | h1 | h1
    · exact absurd h1 (by rw [hI]; exact lt_irrefl _)
    · exact Or.inr (Or.inr (Or.inl h1))
    · exact Or.inr (Or.inl h1)
    · refine Or.inr (Or.inr (Or.inr (Or.inr ?_)))
      change 0 < source (flipped a s') (a.tauArr.n - 1) (bottom (flipped a s'))
      rw [flip_bottom h, hsrc _ (by omega), sub_self, Nat.sub_self]
      exact h1
    · refine Or.inr (Or.inr (Or.inr (Or.inl ?_)))
      rw [hsrc 0 hn, sub_zero, Nat.sub_zero]
      exact h1
  · exact Or.inr ⟨flip_noSource h hs hsrc h1, h3, h2⟩

theorem beamSource_dark (hI : a.I0 = 0) (m l : ℕ) (x : ℝ) : beamSource a m l x = 0 := by
  unfold beamSource beamX
  rw [hI]
  split_ifs <;> simp

/-- A solution of the atmosphere gives one of the atmosphere turned upside down. -/
theorem flip_isSolution (h : Accepted a) (hI : a.I0 = 0) (hb : a.bdrf = [])
    (hsrc : ∀ l < a.tauArr.n, ∀ t, source (flipped a s') l t = source a (a.tauArr.n - 1 - l) (bottom a - t)) {mu w : Vec}
    {rho : ℝ → ℝ → ℝ} {m : ℕ} {V : ℝ → ℕ → ℝ} (hV : IsSolution a mu w rho m V) (rho' : ℝ → ℝ → ℝ) :
    IsSolution (flipped a s') mu w rho' m (fun t i => V (bottom a - t) (mirror (nHalf a) i)) where
  cont := by
    intro i hi
    rw [flip_bottom h]
    refine (hV.cont (mirror (nHalf a) i) (mirror_lt hi)).comp (by fun_prop) ?_
    intro t ht
    exact ⟨by linarith [ht.2], by linarith [ht.1]⟩
  ode := by
    intro l hl t ht0 ht1 i hi
    have hl' : l < a.tauArr.n := hl
    have hi' : i < 2 * nHalf a := hi
    rw [flip_bdry h hl'.le] at ht0
    rw [flip_bdry h (show l + 1 ≤ a.tauArr.n by omega)] at ht1
    set k := a.tauArr.n - 1 - l with hk
    have e0 : a.tauArr.n - (l + 1) = k := by omega
    have e1 : a.tauArr.n - l = k + 1 := by omega
    rw [e1] at ht0
    rw [e0] at ht1
    obtain ⟨d, hd, he⟩ := hV.ode k (by omega) (bottom a - t) (by linarith) (by linarith) (mirror (nHalf a) i) (mirror_lt hi')
    refine ⟨-d, ?_, ?_⟩
    · have h1 : HasDerivAt (fun x => bottom a - x) (-1) t := by
        simpa using (hasDerivAt_id t).const_sub (bottom a)
      have := HasDerivAt.comp t hd h1
      rw [mul_neg, mul_one] at this
      exact this
    · change stream (nHalf a) mu i * -d = _
      rw [stream_mirror _ _ hi'] at he
      rw [mul_neg, ← neg_mul, he]
      unfold rteUser
      rw [flip_scale hl', ← hk, hsrc l hl', flip_kernel hl', ← hk]
      have e2 : (flipped a s').omega.get l = a.omega.get k := rfl
      rw [e2]
      congr 2
      unfold rteRHS
      rw [beamSource_dark hI, beamSource_dark (show (flipped a s').I0 = 0 from hI)]
      have e3 : nHalf (flipped a s') = nHalf a := rfl
      rw [e3, ← sum_mirror (nHalf a)]
      simp only [zero_mul, sub_zero]
      congr 1
      refine sum_congr rfl fun j hj => ?_
      have hj' := mem_range.1 hj
      rw [stream_mirror _ _ hi', stream_mirror _ _ hj', streamW_mirror _ _ hj', kernel_neg_neg]
  top := by
    intro i hi
    have hi' : i < nHalf a := hi
    have e : mirror (nHalf a) (nHalf a + i) = i := by unfold mirror; rw [if_neg (by omega), Nat.add_sub_cancel_left]
    change V (bottom a - 0) (mirror (nHalf a) (nHalf a + i)) = _
    rw [e, sub_zero, hV.bot i hi', if_neg (by rw [hb]; simp), add_zero]
    rfl
  bot := by
    intro i hi
    have hi' : i < nHalf a := hi
    have e : mirror (nHalf a) i = nHalf a + i := by unfold mirror; rw [if_pos hi']
    rw [if_neg (by change ¬ m < a.bdrf.length; rw [hb]; simp), add_zero, flip_bottom h]
    change V (bottom a - bottom a) (mirror (nHalf a) i) = bcVal a.bneg m i
    rw [e, sub_self]
    exact hV.top i hi'

end
end Pydisort

import Verif.Spec.Deep
import Verif.Props.Deep
import Verif.Props.Corrections

/-!
# Lemmas on continuing the lowest layer downwards
-/

namespace Pydisort
open Finset Spec

variable {E : Ext} {a : Args} {T X : ℝ} {bp : BCv} {bd : List BDRFMode}

theorem deepened_bdry {l : ℕ} (hl : l < a.tauArr.n) : bdry (deepened a T bp bd).tauArr.get l = bdry a.tauArr.get l := by
  rcases l with _ | l
  · rw [bdry_zero, bdry_zero]
  · rw [Spec.bdry_succ, Spec.bdry_succ]
    exact if_neg (by omega)

theorem deepened_bdry_last (h : Accepted a) : bdry (deepened a T bp bd).tauArr.get a.tauArr.n = T := by
  have := h.layers
  rw [show a.tauArr.n = (a.tauArr.n - 1) + 1 by omega, Spec.bdry_succ]
  exact if_pos (by omega)

theorem deepened_bottom (h : Accepted a) : bottom (deepened a T bp bd) = T := by
  have := h.layers
  exact if_pos (show a.tauArr.n - 1 + 1 = a.tauArr.n by omega)

theorem lowestTop_nonneg (h : Accepted a) : 0 ≤ lowestTop a := by
  rw [← bdry_zero a.tauArr.get]
  exact bdry_le h (Nat.zero_le _) (by omega)

theorem deepened_accepted (h : Accepted a) (hT : lowestTop a < T) (hbp : BCShape (nHalf a) bp) : Accepted (deepened a T bp bd) :=
  { h with
    layers := h.layers
    top := by
      change 0 < if 0 + 1 = a.tauArr.n then T else a.tauArr.get 0
      split_ifs
      · exact (lowestTop_nonneg h).trans_lt hT
      · exact h.top
    increasing := by
      intro k hk
      have hk' : k + 1 < a.tauArr.n := hk
      change (if k + 1 = a.tauArr.n then T else a.tauArr.get k) < if k + 1 + 1 = a.tauArr.n then T else a.tauArr.get (k + 1)
      rw [if_neg (by omega)]
      split_ifs with h1
      · have e : lowestTop a = a.tauArr.get k := by
          unfold lowestTop
          rw [show a.tauArr.n - 1 = k + 1 by omega, Spec.bdry_succ]
        rw [← e]; exact hT
      · exact h.increasing k hk'
    bottom := hbp }

theorem deepened_bdryStar {l : ℕ} (hl : l < a.tauArr.n) : bdryStar (deepened a T bp bd) l = bdryStar a l := by
  unfold bdryStar
  refine sum_congr rfl fun k hk => ?_
  have := mem_range.1 hk
  rw [deepened_bdry (by omega), deepened_bdry (by omega)]
  rfl

theorem deepened_tauStar {l : ℕ} (hl : l < a.tauArr.n) (t : ℝ) : tauStar (deepened a T bp bd) l t = tauStar a l t := by
  unfold tauStar
  rw [deepened_bdryStar hl, deepened_bdry hl]
  rfl

theorem deepened_rte {l : ℕ} (hl : l < a.tauArr.n) (mu w : Vec) (m : ℕ) (t : ℝ) (u : ℕ → ℝ) (i : ℕ) :
    rteUser (deepened a T bp bd) mu w m l t u i = rteUser a mu w m l t u i := by
  unfold rteUser
  rw [deepened_tauStar hl]
  rfl

theorem deepened_wellPosed (h : WellPosed E a) (hT : lowestTop a < T) (hbp : BCShape (nHalf a) bp) (hz : Azimuthless bp) : WellPosed E (deepened a T bp []) :=
  { h with
    accepted := deepened_accepted h.accepted hT hbp
    surface := passive_black rfl
    bottomBC := hz }

/-! ### Solutions down to a depth -/

/-- `V` solves the transfer equation between the top and depth `T`. -/
structure SolvesTo (a : Args) (mu w : Vec) (T : ℝ) (V : ℝ → ℕ → ℝ) : Prop where
  cont : ∀ i < 2 * nHalf a, ContinuousOn (fun t => V t i) (Set.Icc 0 T)
  ode : ∀ l < a.tauArr.n, ∀ t, InsideDeep a l t → t < T → ∀ i < 2 * nHalf a,
    ∃ d, HasDerivAt (fun x => V x i) d t ∧ stream (nHalf a) mu i * d = rteUser a mu w 0 l t (V t) i
  top : ∀ i < nHalf a, V 0 (nHalf a + i) = bcVal a.bneg 0 i

theorem SolvesTo.mono {mu w : Vec} {V : ℝ → ℕ → ℝ} (h : SolvesTo a mu w T V) (hX : X ≤ T) : SolvesTo a mu w X V :=
  ⟨fun i hi => (h.cont i hi).mono (Set.Icc_subset_Icc_right hX), fun l hl t h1 h2 => h.ode l hl t h1 (h2.trans_le hX), h.top⟩

theorem IsSolution.solvesTo (hacc : Accepted a) (hT : lowestTop a < T) {mu w : Vec} {rho : ℝ → ℝ → ℝ} {V : ℝ → ℕ → ℝ} (h : IsSolution (deepened a T bp bd) mu w rho 0 V) :
    SolvesTo a mu w T V := by
  refine ⟨fun i hi => ?_, fun l hl t h1 h2 i hi => ?_, h.top⟩
  · have := h.cont i hi
    rwa [deepened_bottom hacc] at this
  · obtain ⟨d, hd, he⟩ := h.ode l hl t (by rw [deepened_bdry hl]; exact h1.1) (by
      rcases Nat.lt_or_ge (l + 1) a.tauArr.n with h3 | h3
      · rw [deepened_bdry h3]; exact h1.2 h3
      · rw [show l + 1 = a.tauArr.n by omega, deepened_bdry_last hacc]; exact h2) i hi
    refine ⟨d, hd, ?_⟩
    rw [deepened_rte hl] at he
    exact he

theorem IsDeepSolution.solvesTo {mu w : Vec} {V : ℝ → ℕ → ℝ} (h : IsDeepSolution a mu w V) (T : ℝ) : SolvesTo a mu w T V :=
  ⟨fun i hi => (h.cont i hi).mono fun _ ht => ht.1, fun l hl t h1 _ => h.ode l hl t h1, h.top⟩

/-- Down to depth `T` a solution is that of the atmosphere which ends at `T` above a black surface that emits what comes up. -/
theorem SolvesTo.isSolution (hacc : Accepted a) {mu w : Vec} {V : ℝ → ℕ → ℝ} (hT : lowestTop a < T) (h : SolvesTo a mu w T V) {v : ℕ → ℝ}
    (hv : ∀ i < nHalf a, v i = V T i) (rho : ℝ → ℝ → ℝ) : IsSolution (deepened a T (.vec ⟨nHalf a, v⟩) []) mu w rho 0 V where
  cont := by
    intro i hi
    rw [deepened_bottom hacc]
    exact h.cont i hi
  ode := by
    intro l hl t h1 h2 i hi
    have hl' : l < a.tauArr.n := hl
    rw [deepened_bdry hl'] at h1
    have h3 : t < T ∧ InsideDeep a l t := by
      rcases Nat.lt_or_ge (l + 1) a.tauArr.n with h3 | h3
      · rw [deepened_bdry h3] at h2
        have : bdry a.tauArr.get (l + 1) ≤ lowestTop a := bdry_le hacc (by omega) (by omega)
        exact ⟨by linarith, h1, fun _ => h2⟩
      · rw [show l + 1 = a.tauArr.n by omega, deepened_bdry_last hacc] at h2
        exact ⟨h2, h1, fun h4 => absurd h4 (by omega)⟩
    obtain ⟨d, hd, he⟩ := h.ode l hl' t h3.2 h3.1 i hi
    exact ⟨d, hd, he.trans (deepened_rte hl' mu w 0 t _ i).symm⟩
  top := h.top
  bot := by
    intro i hi
    have hi' : i < nHalf a := hi
    rw [if_neg (by change ¬ 0 < ([] : List BDRFMode).length; simp), add_zero, deepened_bottom hacc]
    change _ = bcVal (.vec ⟨nHalf a, v⟩) 0 i
    rw [bcVal_vec hi', hv i hi']

/-! ### Absorption -/

theorem deepAbs_eq (hacc : Accepted a) {t : ℝ} (ht : t ≤ T) : absDepth (deepened a T bp bd) t = deepAbs a t := by
  unfold absDepth deepAbs
  refine sum_congr rfl fun k hk => ?_
  have hk' : k < a.tauArr.n := mem_range.1 hk
  rw [deepened_bdry hk']
  change (1 - a.omega.get k) * _ = _
  rcases Nat.lt_or_ge (k + 1) a.tauArr.n with h | h
  · rw [deepened_bdry h, if_neg (by omega)]
  · have e : k + 1 = a.tauArr.n := by omega
    rw [if_pos e, e, deepened_bdry_last hacc, min_eq_left (by linarith)]

theorem deepAbs_gap (hacc : Accepted a) {s t : ℝ} (hst : s ≤ t) (hs : lowestTop a ≤ t) :
    (1 - a.omega.get (a.tauArr.n - 1)) * (t - max s (lowestTop a)) ≤ deepAbs a t - deepAbs a s := by
  have hn := hacc.layers
  unfold deepAbs
  rw [← sum_sub_distrib]
  have hterm : ∀ k ∈ range a.tauArr.n, 0 ≤ (1 - a.omega.get k) * max 0 (if k + 1 = a.tauArr.n then t - bdry a.tauArr.get k
      else min (t - bdry a.tauArr.get k) (bdry a.tauArr.get (k + 1) - bdry a.tauArr.get k))
      - (1 - a.omega.get k) * max 0 (if k + 1 = a.tauArr.n then s - bdry a.tauArr.get k
      else min (s - bdry a.tauArr.get k) (bdry a.tauArr.get (k + 1) - bdry a.tauArr.get k)) := by
    intro k hk
    have ho := (hacc.omega k (mem_range.1 hk)).2
    refine sub_nonneg.2 (mul_le_mul_of_nonneg_left (max_le_max_left _ ?_) (by linarith))
    split_ifs
    · linarith
    · exact min_le_min_right _ (by linarith)
  refine le_trans (le_of_eq ?_) (single_le_sum hterm (mem_range.2 (show a.tauArr.n - 1 < a.tauArr.n by omega)))
  have e : a.tauArr.n - 1 + 1 = a.tauArr.n := by omega
  rw [if_pos e, if_pos e, ← mul_sub]
  congr 1
  change t - max s (lowestTop a) = max 0 (t - lowestTop a) - max 0 (s - lowestTop a)
  rw [max_eq_right (sub_nonneg.2 hs)]
  rcases le_total s (lowestTop a) with h | h
  · rw [max_eq_right h, max_eq_left (by linarith)]; ring
  · rw [max_eq_left h, max_eq_right (by linarith)]; ring

theorem deepAbs_mono (hacc : Accepted a) {s t : ℝ} (hst : s ≤ t) : deepAbs a s ≤ deepAbs a t := by
  unfold deepAbs
  refine sum_le_sum fun k hk => ?_
  have ho := (hacc.omega k (mem_range.1 hk)).2
  refine mul_le_mul_of_nonneg_left (max_le_max_left _ ?_) (by linarith)
  split_ifs
  · linarith
  · exact min_le_min_right _ (by linarith)

/-- Two solutions down to depth `T` differ by what differs at `T`, screened. -/
theorem solvesTo_near (hacc : Accepted a) (hg : GaussContract E (nHalf a)) (hpk : ∀ l < a.tauArr.n, peak a l < 1) (hsc : NonnegScattering a (node E a))
    (hbn : Azimuthless a.bneg) (hT : lowestTop a < T) {V W : ℝ → ℕ → ℝ} {D : ℝ} (hD0 : 0 ≤ D) (hV : SolvesTo a (node E a) (weight E a) T V)
    (hW : SolvesTo a (node E a) (weight E a) T W) (hD : ∀ i < nHalf a, |V T i - W T i| ≤ D) :
    ∀ t, 0 ≤ t → t ≤ T → ∀ i < 2 * nHalf a, |V t i - W t i| ≤ D * Real.exp (-(deepAbs a T - deepAbs a t)) := by
  have h1 := hV.isSolution (v := fun i => V T i) hacc hT (fun _ _ => rfl) (fun _ _ => 0)
  have h2 := hW.isSolution (v := fun i => W T i) hacc hT (fun _ _ => rfl) (fun _ _ => 0)
  have hrf : ∀ x, reflectance (deepened a T (.scalar 0) []) (node E a) (weight E a) (fun _ _ => 0) x = 0 := fun x => by
    unfold reflectance
    rw [if_neg (by change ¬ 0 < ([] : List BDRFMode).length; simp)]
  have key := screen_abs (E := E) (a := deepened a T (.scalar 0) []) (S₁ := ⟨a.I0, .vec ⟨nHalf a, fun i => V T i⟩, a.bneg, a.s⟩)
    (S₂ := ⟨a.I0, .vec ⟨nHalf a, fun i => W T i⟩, a.bneg, a.s⟩) (rho := fun _ _ => 0) (l₁ := a.tauArr.n) (l₂ := a.tauArr.n) (V₁ := V) (V₂ := W) (ε := D)
    (deepened_accepted hacc hT (Or.inr (Or.inr rfl))) (deepened_accepted hacc hT (Or.inr (Or.inr rfl))) hg hpk hsc
    ⟨fun _ _ _ _ => le_rfl, fun _ _ => le_rfl, fun i _ => (hrf _).le.trans zero_le_one⟩
    le_rfl le_rfl hD0
    ⟨⟨rfl, fun l _ t _ => by
        change |source a l t - source a l t| ≤ D
        rw [sub_self, abs_zero]; exact hD0, fun i _ => by
        change |bcVal a.bneg 0 i - bcVal a.bneg 0 i| ≤ D
        rw [sub_self, abs_zero]; exact hD0, fun i hi => by
        have hi' : i < nHalf a := hi
        change |bcVal (.vec ⟨nHalf a, _⟩) 0 i - bcVal (.vec ⟨nHalf a, _⟩) 0 i|
          ≤ (1 - reflectance (deepened a T (.scalar 0) []) (node E a) (weight E a) (fun _ _ => 0) _) * D
        rw [hrf, bcVal_vec hi', bcVal_vec hi', sub_zero, one_mul]
        exact hD i hi'⟩, fun _ _ _ _ _ => rfl, fun _ _ _ => rfl, fun h => absurd h (lt_irrefl _)⟩
    trivial hbn trivial hbn h1 h2
  rw [deepened_bottom hacc] at key
  intro t h0 h1 i hi
  refine (key t h0 h1 i hi).trans (mul_le_mul_of_nonneg_left (Real.exp_le_exp.2 (neg_le_neg ?_)) hD0)
  unfold absBetween
  rw [deepAbs_eq hacc h1, deepened_bdry_last hacc, deepAbs_eq hacc le_rfl]
  exact (le_max_left _ _).trans (le_max_right _ _)

/-! ### Bounds that do not depend on the depth -/

theorem tauStar_nonneg (hacc : Accepted a) {l : ℕ} (hl : l < a.tauArr.n) {t : ℝ} (ht : bdry a.tauArr.get l ≤ t) : 0 ≤ tauStar a l t := by
  have h1 := bdryStar_nonneg hacc hl.le
  have h2 := Args.scale_pos hacc (show l < a.NLayers from hl)
  unfold tauStar
  have := mul_nonneg h2.le (sub_nonneg.2 ht)
  linarith

theorem abs_beam_le (hacc : Accepted a) {l : ℕ} (hl : l < a.tauArr.n) {t : ℝ} (ht : bdry a.tauArr.get l ≤ t) (x : ℝ) :
    |beamSource a 0 l x * Real.exp (-tauStar a l t / a.mu0)| ≤ |beamSource a 0 l x| := by
  rcases hacc.beam.eq_or_lt with h0 | h0
  · have : beamSource a 0 l x = 0 := by unfold beamSource beamX; rw [← h0]; simp
    rw [this]; simp
  · have hm := (hacc.beamDir h0).1.1
    rw [abs_mul, abs_of_pos (Real.exp_pos _)]
    refine mul_le_of_le_one_right (abs_nonneg _) (Real.exp_le_one_iff.2 ?_)
    rw [neg_div]
    exact neg_nonpos.2 (div_nonneg (tauStar_nonneg hacc hl ht) hm.le)

/-- A constant that outweighs all sources bounds the solution. -/
theorem solution_abs_le (hacc : Accepted a) (hg : GaussContract E (nHalf a)) (hpk : ∀ l < a.tauArr.n, peak a l < 1) (hk : NonnegScattering a (node E a))
    {rho : ℝ → ℝ → ℝ} (hsf : FairSurface a (node E a) (weight E a) rho) {C : ℝ} (hC : 0 ≤ C)
    (hin : ∀ l < a.tauArr.n, ∀ t, InLayer a l t → ∀ i < 2 * nHalf a,
      scale a l * |beamSource a 0 l (stream (nHalf a) (node E a) i)| + (1 - a.omega.get l) * |source a l t| ≤ (1 - a.omega.get l) * C)
    (htop : ∀ i < nHalf a, |bcVal a.bneg 0 i| ≤ C) (hbot : EmitsBelow a (node E a) (weight E a) rho C) {V : ℝ → ℕ → ℝ}
    (hV : IsSolution a (node E a) (weight E a) rho 0 V) : ∀ t, 0 ≤ t → t ≤ bottom a → ∀ i < 2 * nHalf a, |V t i| ≤ C := by
  have main : ∀ s : ℝ, |s| = 1 → ∀ t, 0 ≤ t → t ≤ bottom a → ∀ i < 2 * nHalf a, 0 ≤ C - s * V t i := by
    intro s hs
    have hs' : ∀ x, -|x| ≤ s * x ∧ s * x ≤ |x| := fun x => by
      have : |s * x| = |x| := by rw [abs_mul, hs, one_mul]
      exact abs_le.1 this.le
    refine nonneg_of_super (E := E) hacc hg hpk hk hsf.nonneg hsf.bounded (V := fun t i => C - s * V t i)
      (fun i hi => continuousOn_const.sub (continuousOn_const.mul (hV.cont i hi))) ?_ ?_ ?_
    · intro l hl t ht0 ht1 i hi
      obtain ⟨d, hd, he⟩ := hV.ode l hl t ht0 ht1 i hi
      refine ⟨-(s * d), by simpa using (hd.const_mul s).const_sub C, ?_⟩
      rw [rteUser_zero] at he
      have hrow := row_sum_kernel hacc hg (hpk l hl) (stream (nHalf a) (node E a) i)
      have x1 := (effAlbedo_range hacc hl (hpk l hl)).2.2
      have x5 : (1 - a.omega.get l) * C ≤ scale a l * (1 - effAlbedo a l) * C := mul_le_mul_of_nonneg_right x1 hC
      have x6 := hin l hl t ⟨ht0.le, ht1.le⟩ i hi
      have y1 := (hs' (beamSource a 0 l (stream (nHalf a) (node E a) i) * Real.exp (-tauStar a l t / a.mu0))).2
      have y2 := (hs' (source a l t)).2
      have y3 := abs_beam_le hacc hl ht0.le (stream (nHalf a) (node E a) i)
      have y4 := mul_le_mul_of_nonneg_left (y1.trans y3) (Args.scale_pos hacc (show l < a.NLayers from hl)).le
      have y5 := mul_le_mul_of_nonneg_left y2 (show 0 ≤ 1 - a.omega.get l by linarith [(hacc.omega l hl).2])
      simp only [mul_sub, sum_sub_distrib]
      rw [← sum_mul, hrow]
      have e : ∑ j ∈ range (2 * nHalf a), streamW (nHalf a) (weight E a) j * kernel a 0 l (stream (nHalf a) (node E a) i) (stream (nHalf a) (node E a) j) * (s * V t j)
          = s * ∑ j ∈ range (2 * nHalf a), streamW (nHalf a) (weight E a) j * kernel a 0 l (stream (nHalf a) (node E a) i) (stream (nHalf a) (node E a) j) * V t j := by
        rw [mul_sum]; exact sum_congr rfl fun j _ => by ring
      rw [e, show stream (nHalf a) (node E a) i * -(s * d) = -(s * (stream (nHalf a) (node E a) i * d)) by ring, he]
      linear_combination y4 + y5 + x6 + x5
    · intro i hi
      beta_reduce
      rw [hV.top i hi]
      linarith [(hs' (bcVal a.bneg 0 i)).2, htop i hi]
    · intro i hi
      beta_reduce
      rw [hV.bot i hi]
      have e1 := hbot i hi
      have e2 := (hs' (bcVal a.bpos 0 i)).2
      unfold reflectance at e1
      split_ifs at e1 ⊢ with hm
      · unfold reflected
        rw [if_pos rfl, one_add_one_eq_two]
        simp only [mul_sub, sum_sub_distrib]
        rw [← sum_mul]
        have e : ∑ j ∈ range (nHalf a), weight E a j * node E a j * rho (node E a i) (node E a j) * (s * V (bottom a) (nHalf a + j))
            = s * ∑ j ∈ range (nHalf a), weight E a j * node E a j * rho (node E a i) (node E a j) * V (bottom a) (nHalf a + j) := by
          rw [mul_sum]; exact sum_congr rfl fun j _ => by ring
        rw [e]
        have hb : s * (a.mu0 * a.I0 / Real.pi * rho (node E a i) a.mu0 * Real.exp (-bdryStar a a.tauArr.n / a.mu0))
            ≤ a.mu0 * a.I0 / Real.pi * rho (node E a i) a.mu0 := by
          rcases hacc.beam.eq_or_lt with h0 | h0
          · rw [← h0]; simp
          · have hmu := (hacc.beamDir h0).1.1
            have hp : 0 ≤ a.mu0 * a.I0 / Real.pi * rho (node E a i) a.mu0 :=
              mul_nonneg (div_nonneg (mul_nonneg hmu.le h0.le) Real.pi_pos.le) (hsf.beam i hi)
            refine (hs' _).2.trans ?_
            rw [abs_mul, abs_of_pos (Real.exp_pos _), abs_of_nonneg hp]
            refine mul_le_of_le_one_right hp (Real.exp_le_one_iff.2 ?_)
            rw [neg_div]
            exact neg_nonpos.2 (div_nonneg (bdryStar_nonneg hacc le_rfl) hmu.le)
        linear_combination e1 + e2 + hb
      · linarith
  intro t h0 h1 i hi
  rw [abs_le]
  have m1 := main 1 abs_one t h0 h1 i hi
  have m2 := main (-1) (by rw [abs_neg, abs_one]) t h0 h1 i hi
  constructor <;> linarith

/-- A constant that outweighs the beam and the internal sources of all layers, the lowest continued for ever, and the light from above. -/
def Outweighs (E : Ext) (a : Args) (C : ℝ) : Prop :=
  0 ≤ C ∧ (∀ l < a.tauArr.n, ∀ t, bdry a.tauArr.get l ≤ t → (l + 1 < a.tauArr.n → t ≤ bdry a.tauArr.get (l + 1)) → ∀ i < 2 * nHalf a,
      scale a l * |beamSource a 0 l (stream (nHalf a) (node E a) i)| + (1 - a.omega.get l) * |source a l t| ≤ (1 - a.omega.get l) * C) ∧
    ∀ i < nHalf a, |bcVal a.bneg 0 i| ≤ C

theorem Outweighs.mono {C C' : ℝ} (hacc : Accepted a) (h : Outweighs E a C) (hC : C ≤ C') : Outweighs E a C' :=
  ⟨h.1.trans hC, fun l hl t h1 h2 i hi => (h.2.1 l hl t h1 h2 i hi).trans
    (mul_le_mul_of_nonneg_left hC (by linarith [(hacc.omega l hl).2])), fun i hi => (h.2.2 i hi).trans hC⟩

theorem source_continuousDeep (l : ℕ) : Continuous (source a l) := by
  unfold source
  split_ifs
  · exact continuous_finset_sum _ fun k _ => continuous_const.mul (continuous_pow k)
  · exact continuous_const

theorem exists_outweighs (hacc : Accepted a) (ht : TameBelow a) : ∃ C, Outweighs E a C := by
  have hsrc : ∀ l, ∃ S, 0 ≤ S ∧ (l < a.tauArr.n → ∀ t, bdry a.tauArr.get l ≤ t → (l + 1 < a.tauArr.n → t ≤ bdry a.tauArr.get (l + 1)) → |source a l t| ≤ S) := by
    intro l
    rcases Nat.lt_or_ge (l + 1) a.tauArr.n with h | h
    · obtain ⟨S, hS⟩ := (isCompact_Icc (a := bdry a.tauArr.get l) (b := bdry a.tauArr.get (l + 1))).exists_bound_of_continuousOn (source_continuousDeep (a := a) l).continuousOn
      refine ⟨max S 0, le_max_right _ _, fun _ t h1 h2 => (hS t ⟨h1, h2 h⟩).trans (le_max_left _ _)⟩
    · obtain ⟨S, hS⟩ := ht
      refine ⟨max S 0, le_max_right _ _, fun hl t h1 _ => ?_⟩
      have e : l = a.tauArr.n - 1 := by omega
      rw [e] at h1 ⊢
      exact (hS t h1).trans (le_max_left _ _)
  choose S hS0 hS using hsrc
  set B : ℕ → ℝ := fun l => ∑ i ∈ range (2 * nHalf a), |beamSource a 0 l (stream (nHalf a) (node E a) i)| with hB
  have hB0 : ∀ l, 0 ≤ B l := fun l => sum_nonneg fun _ _ => abs_nonneg _
  have hz : ∀ l ∈ range a.tauArr.n, 0 ≤ scale a l * B l / (1 - a.omega.get l) + S l := fun l hl => by
    have hl' := mem_range.1 hl
    have h1 := Args.scale_pos hacc (show l < a.NLayers from hl')
    have h2 := (hacc.omega l hl').2
    exact add_nonneg (div_nonneg (mul_nonneg h1.le (hB0 l)) (by linarith)) (hS0 l)
  have hb0 : 0 ≤ ∑ i ∈ range (nHalf a), |bcVal a.bneg 0 i| := sum_nonneg fun _ _ => abs_nonneg _
  refine ⟨(∑ l ∈ range a.tauArr.n, (scale a l * B l / (1 - a.omega.get l) + S l)) + ∑ i ∈ range (nHalf a), |bcVal a.bneg 0 i|,
    add_nonneg (sum_nonneg hz) hb0, fun l hl t h1 h2 i hi => ?_, fun i hi => ?_⟩
  · have x1 := single_le_sum hz (mem_range.2 hl)
    have x2 : 0 < 1 - a.omega.get l := by linarith [(hacc.omega l hl).2]
    have x3 := Args.scale_pos hacc (show l < a.NLayers from hl)
    have x4 : |beamSource a 0 l (stream (nHalf a) (node E a) i)| ≤ B l :=
      single_le_sum (f := fun i => |beamSource a 0 l (stream (nHalf a) (node E a) i)|) (fun _ _ => abs_nonneg _) (mem_range.2 hi)
    have x5 : (1 - a.omega.get l) * (scale a l * B l / (1 - a.omega.get l) + S l) = scale a l * B l + (1 - a.omega.get l) * S l := by
      field_simp
    have x6 := mul_le_mul_of_nonneg_left x4 x3.le
    have x7 := mul_le_mul_of_nonneg_left (hS l hl t h1 h2) x2.le
    have x8 := mul_le_mul_of_nonneg_left (le_add_of_le_of_nonneg x1 hb0) x2.le
    rw [x5] at x8
    linarith
  · exact le_add_of_nonneg_of_le (sum_nonneg hz) (single_le_sum (f := fun i => |bcVal a.bneg 0 i|) (fun _ _ => abs_nonneg _) (mem_range.2 hi))

/-- However deep the atmosphere is, intensities stay below a constant that outweighs the sources. -/
theorem deepened_abs_le (hacc : Accepted a) (hT : lowestTop a < T) (hbp : BCShape (nHalf a) bp) (hg : GaussContract E (nHalf a)) (hpk : ∀ l < a.tauArr.n, peak a l < 1)
    (hk : NonnegScattering a (node E a)) {rho : ℝ → ℝ → ℝ} (hsf : FairSurface (deepened a T bp bd) (node E a) (weight E a) rho) {C : ℝ} (hC : Outweighs E a C)
    (hbot : EmitsBelow (deepened a T bp bd) (node E a) (weight E a) rho C) {V : ℝ → ℕ → ℝ}
    (hV : IsSolution (deepened a T bp bd) (node E a) (weight E a) rho 0 V) : ∀ t, 0 ≤ t → t ≤ T → ∀ i < 2 * nHalf a, |V t i| ≤ C := by
  have := solution_abs_le (E := E) (deepened_accepted (bd := bd) hacc hT hbp) hg hpk hk hsf hC.1 (fun l hl t ht i hi => ?_) hC.2.2 hbot hV
  · rwa [deepened_bottom hacc] at this
  · have hl' : l < a.tauArr.n := hl
    obtain ⟨h1, h2⟩ := ht
    rw [deepened_bdry hl'] at h1
    exact hC.2.1 l hl' t h1 (fun h => by rwa [deepened_bdry h] at h2) i hi

end Pydisort

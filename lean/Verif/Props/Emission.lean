import Verif.Spec.Emission
import Verif.Props.Reciprocity
import Mathlib.MeasureTheory.Integral.IntervalIntegral.FundThmCalculus

/-!
# C104: internal sources and instruments outside; Kirchhoff's law

Specification used: `Spec.response`, `Spec.innerResponse`, `Spec.Glows`, `Spec.OneDirection`, `Spec.Fields.net`.
-/

namespace Pydisort
open Finset Spec

variable {E : Ext} {J : Junk} {a : Args} {R : Solved}

/-- `V` satisfies the equation of transfer of mode zero inside layer `l`, with the isotropic source `q`. -/
def InsideLayer (a : Args) (mu w : Vec) (l : ℕ) (q : ℝ → ℝ) (V : ℝ → ℕ → ℝ) : Prop :=
  ∀ t, bdry a.tauArr.get l < t → t < bdry a.tauArr.get (l + 1) → ∃ d : ℕ → ℝ, (∀ i < 2 * nHalf a, HasDerivAt (fun x => V x i) (d i) t) ∧
    ∀ i < 2 * nHalf a, stream (nHalf a) mu i * d i = scale a l * (V t i - ∑ j ∈ range (2 * nHalf a), streamW (nHalf a) w j
        * kernel a 0 l (stream (nHalf a) mu i) (stream (nHalf a) mu j) * V t j) - q t

theorem actinic_eq (a : Args) (w : Vec) (v : ℕ → ℝ) :
    actinic a w v = 2 * Real.pi * ∑ i ∈ range (nHalf a), w i * (v i + v (nHalf a + i)) := by
  unfold actinic
  rw [sum_range_two_mul, ← sum_add_distrib]
  congr 1
  refine sum_congr rfl fun i hi => ?_
  have hi' := mem_range.1 hi
  rw [show streamW (nHalf a) w i = w i from if_pos hi', show streamW (nHalf a) w (nHalf a + i) = w i by
    unfold streamW; rw [if_neg (by omega), Nat.add_sub_cancel_left]]
  ring

/-- Change of the exchange across a layer. -/
theorem exchange_layer {mu w : Vec} {l : ℕ} (hl : bdry a.tauArr.get l ≤ bdry a.tauArr.get (l + 1)) {q₁ q₂ : ℝ → ℝ} {V₁ V₂ : ℝ → ℕ → ℝ}
    (c₁ : ∀ i < 2 * nHalf a, ContinuousOn (fun t => V₁ t i) (Set.Icc (bdry a.tauArr.get l) (bdry a.tauArr.get (l + 1))))
    (c₂ : ∀ i < 2 * nHalf a, ContinuousOn (fun t => V₂ t i) (Set.Icc (bdry a.tauArr.get l) (bdry a.tauArr.get (l + 1))))
    (k₁ : ContinuousOn q₁ (Set.Icc (bdry a.tauArr.get l) (bdry a.tauArr.get (l + 1))))
    (k₂ : ContinuousOn q₂ (Set.Icc (bdry a.tauArr.get l) (bdry a.tauArr.get (l + 1))))
    (h₁ : InsideLayer a mu w l q₁ V₁) (h₂ : InsideLayer a mu w l q₂ V₂) :
    2 * Real.pi * (exchange (nHalf a) mu w (V₁ (bdry a.tauArr.get (l + 1))) (V₂ (bdry a.tauArr.get (l + 1)))
        - exchange (nHalf a) mu w (V₁ (bdry a.tauArr.get l)) (V₂ (bdry a.tauArr.get l)))
      = (∫ t in (bdry a.tauArr.get l)..(bdry a.tauArr.get (l + 1)), q₂ t * actinic a w (V₁ t))
        - ∫ t in (bdry a.tauArr.get l)..(bdry a.tauArr.get (l + 1)), q₁ t * actinic a w (V₂ t) := by
  have hact : ∀ {V : ℝ → ℕ → ℝ}, (∀ i < 2 * nHalf a, ContinuousOn (fun t => V t i) (Set.Icc (bdry a.tauArr.get l) (bdry a.tauArr.get (l + 1)))) →
      ContinuousOn (fun t => actinic a w (V t)) (Set.Icc (bdry a.tauArr.get l) (bdry a.tauArr.get (l + 1))) := by
    intro V hV
    unfold actinic
    exact continuousOn_const.mul (continuousOn_finset_sum _ fun i hi => continuousOn_const.mul (hV i (mem_range.1 hi)))
  have i₁ := (k₂.mul (hact c₁)).intervalIntegrable_of_Icc (μ := MeasureTheory.volume) hl
  have i₂ := (k₁.mul (hact c₂)).intervalIntegrable_of_Icc (μ := MeasureTheory.volume) hl
  have hcont : ContinuousOn (fun t => 2 * Real.pi * exchange (nHalf a) mu w (V₁ t) (V₂ t)) (Set.Icc (bdry a.tauArr.get l) (bdry a.tauArr.get (l + 1))) := by
    unfold exchange
    refine continuousOn_const.mul (continuousOn_finset_sum _ fun i hi => ?_)
    have hi' := mem_range.1 hi
    exact continuousOn_const.mul (((c₁ i (by omega)).mul (c₂ (nHalf a + i) (by omega))).sub ((c₁ (nHalf a + i) (by omega)).mul (c₂ i (by omega))))
  have := intervalIntegral.integral_eq_sub_of_hasDerivAt_of_le hl hcont (f' := fun t => q₂ t * actinic a w (V₁ t) - q₁ t * actinic a w (V₂ t))
    (fun t ht => by
      obtain ⟨d₁, x₁, y₁⟩ := h₁ t ht.1 ht.2
      obtain ⟨d₂, x₂, y₂⟩ := h₂ t ht.1 ht.2
      refine ((exchange_deriv x₁ x₂ y₁ y₂).const_mul (2 * Real.pi)).congr_deriv ?_
      rw [actinic_eq, actinic_eq]; ring) (i₁.sub i₂)
  rw [mul_sub, ← this]
  exact intervalIntegral.integral_sub i₁ i₂

theorem source_continuous (a : Args) (l : ℕ) : Continuous (fun t => source a l t) := by
  unfold source
  split_ifs
  · fun_prop
  · exact continuous_const

theorem bdry_mem (hacc : Accepted a) {l : ℕ} (hl : l ≤ a.tauArr.n) : 0 ≤ bdry a.tauArr.get l ∧ bdry a.tauArr.get l ≤ bottom a := by
  constructor
  · have := bdry_le hacc (Nat.zero_le l) hl
    rwa [bdry_zero] at this
  · have := bdry_le hacc hl le_rfl
    rwa [bdry_bottom hacc] at this

theorem insideLayer_of {S : Sources} (hn : S.I0 = 0) {mu w : Vec} {rho : ℝ → ℝ → ℝ} {V : ℝ → ℕ → ℝ} (h : IsSolution (under a S) mu w rho 0 V) {l : ℕ}
    (hl : l < a.tauArr.n) : InsideLayer a mu w l (fun t => (1 - a.omega.get l) * source (under a S) l t) V := by
  intro t h0 h1
  choose! d g e using h.ode l hl t h0 h1
  refine ⟨d, g, fun i hi => ?_⟩
  have := e i hi
  change stream (nHalf a) mu i * d i = _ at this
  rw [this, rteUser_under, hn, if_pos rfl]
  ring

theorem innerResponse_congr (hacc : Accepted a) {w : Vec} {S : Sources} {u v : ℝ → ℕ → ℝ}
    (h : ∀ t, 0 ≤ t → t ≤ bottom a → ∀ i < 2 * nHalf a, u t i = v t i) : innerResponse a w S u = innerResponse a w S v := by
  refine sum_congr rfl fun l hl => intervalIntegral.integral_congr fun t ht => ?_
  have hl' := mem_range.1 hl
  rw [Set.uIcc_of_le (bdry_lt hacc hl').le] at ht
  have := h t ((bdry_mem hacc hl'.le).1.trans ht.1) (ht.2.trans (bdry_mem hacc (show l + 1 ≤ a.tauArr.n from hl')).2)
  congr 1
  unfold actinic
  congr 1
  exact sum_congr rfl fun i hi => by rw [this i (mem_range.1 hi)]

/-- The exchange between two solutions, both with internal sources. -/
theorem exchange_sources {S₁ S₂ : Sources} (hacc : Accepted (under a S₁)) {mu w : Vec} {rho : ℝ → ℝ → ℝ}
    (hsym : ∀ i < nHalf a, ∀ j < nHalf a, rho (mu i) (mu j) = rho (mu j) (mu i)) (n₁ : S₁.I0 = 0) (n₂ : S₂.I0 = 0)
    {V₁ V₂ : ℝ → ℕ → ℝ} (s₁ : IsSolution (under a S₁) mu w rho 0 V₁) (s₂ : IsSolution (under a S₂) mu w rho 0 V₂) :
    2 * Real.pi * response a mu w S₁ V₂ + innerResponse a w S₁ V₂ = 2 * Real.pi * response a mu w S₂ V₁ + innerResponse a w S₂ V₁ := by
  have hlay : ∀ l < a.tauArr.n, 2 * Real.pi * (exchange (nHalf a) mu w (V₁ (bdry a.tauArr.get (l + 1))) (V₂ (bdry a.tauArr.get (l + 1)))
        - exchange (nHalf a) mu w (V₁ (bdry a.tauArr.get l)) (V₂ (bdry a.tauArr.get l)))
      = (∫ t in (bdry a.tauArr.get l)..(bdry a.tauArr.get (l + 1)), (1 - a.omega.get l) * source (under a S₂) l t * actinic a w (V₁ t))
        - ∫ t in (bdry a.tauArr.get l)..(bdry a.tauArr.get (l + 1)), (1 - a.omega.get l) * source (under a S₁) l t * actinic a w (V₂ t) := by
    intro l hl
    have hsub : Set.Icc (bdry a.tauArr.get l) (bdry a.tauArr.get (l + 1)) ⊆ Set.Icc 0 (bottom a) :=
      Set.Icc_subset_Icc (bdry_mem hacc (show l ≤ a.tauArr.n from hl.le)).1 (bdry_mem hacc (show l + 1 ≤ a.tauArr.n from hl)).2
    exact exchange_layer (bdry_lt hacc (show l < a.tauArr.n from hl)).le (fun i hi => (s₁.cont i hi).mono hsub) (fun i hi => (s₂.cont i hi).mono hsub)
      (continuous_const.mul (source_continuous _ l)).continuousOn (continuous_const.mul (source_continuous _ l)).continuousOn
      (insideLayer_of n₁ s₁ hl) (insideLayer_of n₂ s₂ hl)
  have htel := Finset.sum_range_sub (fun l => exchange (nHalf a) mu w (V₁ (bdry a.tauArr.get l)) (V₂ (bdry a.tauArr.get l))) a.tauArr.n
  rw [show bdry a.tauArr.get a.tauArr.n = bottom a from bdry_bottom (a := under a S₁) hacc, bdry_zero, exchange_ends hsym n₁ n₂ s₁ s₂] at htel
  have := sum_congr rfl fun l hl => hlay l (mem_range.1 hl)
  rw [← mul_sum, htel, sum_sub_distrib] at this
  unfold innerResponse
  linarith

/-- **C104.** Reciprocity with sources inside: two calls with the same atmosphere and a surface with symmetric BDRF, without beam. What the sources of the first
call, inside and at the boundaries, would detect of the second field equals what the sources of the second would detect of the first field. -/
theorem C104_reciprocity {S₁ S₂ : Sources} {J₁ J₂ : Junk} {R₁ R₂ : Solved} (h₁ : pydisort E J₁ (under a S₁) = .ok R₁)
    (h₂ : pydisort E J₂ (under a S₂) = .ok R₂) (hS₁ : Sound E (under a S₁)) (hS₂ : Sound E (under a S₂)) (hr₁ : Rescalable (under a S₁))
    (hr₂ : Rescalable (under a S₂)) (hp₁ : Azimuthless S₁.bpos) (hn₁ : Azimuthless S₁.bneg) (hp₂ : Azimuthless S₂.bpos)
    (hn₂ : Azimuthless S₂.bneg) {rho : ℕ → ℝ → ℝ → ℝ} (hrho : SurfaceIs a rho)
    (hsym : ∀ i < nHalf a, ∀ j < nHalf a, rho 0 (node E a i) (node E a j) = rho 0 (node E a j) (node E a i))
    (hb₁ : S₁.I0 = 0) (hb₂ : S₂.I0 = 0)
    {F₁ F₂ : Fields} (hF₁ : Evaluates (under a S₁) R₁ F₁) (hF₂ : Evaluates (under a S₂) R₂ F₂) :
    2 * Real.pi * response a (node E a) (weight E a) S₁ F₂.u0 + innerResponse a (weight E a) S₁ F₂.u0
      = 2 * Real.pi * response a (node E a) (weight E a) S₂ F₁.u0 + innerResponse a (weight E a) S₂ F₁.u0 := by
  obtain ⟨U₁, hU₁, _⟩ := C02_modes_solve_transfer_equation h₁ hS₁ hr₁
  obtain ⟨U₂, hU₂, _⟩ := C02_modes_solve_transfer_equation h₂ hS₂ hr₂
  have hacc₁ := (pydisort_ok h₁).1
  have hbpos : 0 ≤ bottom a := (bottom_pos hacc₁).le
  have x₁ : ∀ t, 0 ≤ t → t ≤ bottom a → ∀ i < 2 * nHalf a, F₁.u0 t i = U₁ 0 t i := fun t h0 h1 =>
    (evaluates_unique hF₁ (evaluates h₁ hr₁ hU₁) h0 h1).1
  have x₂ : ∀ t, 0 ≤ t → t ≤ bottom a → ∀ i < 2 * nHalf a, F₂.u0 t i = U₂ 0 t i := fun t h0 h1 =>
    (evaluates_unique hF₂ (evaluates h₂ hr₂ hU₂) h0 h1).1
  have key := exchange_sources hacc₁ hsym hb₁ hb₂ (modes_isSolution h₁ hS₁ hr₁ hp₁ hn₁ hrho hU₁ (nFourier_pos h₁ hS₁))
    (modes_isSolution h₂ hS₂ hr₂ hp₂ hn₂ hrho hU₂ (nFourier_pos h₂ hS₂))
  have c₁ : ∀ S, innerResponse a (weight E a) S F₁.u0 = innerResponse a (weight E a) S (U₁ 0) := fun S =>
    innerResponse_congr (a := under a S₁) hacc₁ (S := S) x₁
  have c₂ : ∀ S, innerResponse a (weight E a) S F₂.u0 = innerResponse a (weight E a) S (U₂ 0) := fun S =>
    innerResponse_congr (a := under a S₁) hacc₁ (S := S) x₂
  rw [c₁, c₂, response_congr (fun i hi => x₂ 0 le_rfl hbpos i (by omega)) (fun i hi => x₂ _ hbpos le_rfl _ (by omega)),
    response_congr (fun i hi => x₁ 0 le_rfl hbpos i (by omega)) (fun i hi => x₁ _ hbpos le_rfl _ (by omega))]
  exact key

/-- The constant field satisfies the equation of transfer with the source of a black body. -/
theorem insideLayer_one (hacc : Accepted a) (hg : GaussContract E (nHalf a)) {l : ℕ} (hl : l < a.tauArr.n) (hpk : peak a l < 1) (hn : NoNeglect a) :
    InsideLayer a (node E a) (weight E a) l (fun _ => 1 - a.omega.get l) (fun _ _ => 1) := by
  intro t _ _
  refine ⟨fun _ => 0, fun i _ => hasDerivAt_const _ _, fun i _ => ?_⟩
  simp only [mul_one, mul_zero]
  rw [row_sum_kernel hacc hg hpk]
  have : scale a l * (1 - effAlbedo a l) = 1 - a.omega.get l := by
    rcases hn l hl with h0 | h0
    · have h1 : effAlbedo a l = 0 := by unfold effAlbedo; split_ifs <;> simp [h0]
      have h2 := Args.scale_pos hacc hl
      unfold omegaStar at h0
      rw [div_eq_zero_iff, or_iff_left h2.ne', mul_eq_zero, or_iff_right (by linarith)] at h0
      rw [h1, h0]; unfold scale; rw [h0]; ring
    · exact C11_absorbed_fraction hacc hl h0
  rw [this, sub_self]

theorem exchange_one (a : Args) (mu w : Vec) (v : ℕ → ℝ) :
    2 * Real.pi * exchange (nHalf a) mu w v (fun _ => 1) = hemiFlux a mu w v - hemiFlux a mu w (fun i => v (nHalf a + i)) := by
  unfold exchange hemiFlux
  rw [← mul_sub, ← sum_sub_distrib]
  congr 1
  exact sum_congr rfl fun i _ => by ring

/-- **C104, Kirchhoff's law.** One call with thermal emission only, one with light from above in one direction only, for the same atmosphere and a surface
with symmetric BDRF. The intensity emitted to the top in that direction (the stream `k`), times the flux that comes in from there, is the sum over the layers of
the black body intensity times the flux absorbed in the layer, plus the same for the surface. -/
theorem C104_kirchhoff {S₁ S₂ : Sources} {J₁ J₂ : Junk} {R₁ R₂ : Solved} (h₁ : pydisort E J₁ (under a S₁) = .ok R₁)
    (h₂ : pydisort E J₂ (under a S₂) = .ok R₂) (hS₁ : Sound E (under a S₁)) (hS₂ : Sound E (under a S₂)) (hr₁ : Rescalable (under a S₁))
    (hr₂ : Rescalable (under a S₂)) (hp₁ : Azimuthless S₁.bpos) (hn₁ : Azimuthless S₁.bneg) (hp₂ : Azimuthless S₂.bpos)
    (hn₂ : Azimuthless S₂.bneg) {rho : ℕ → ℝ → ℝ → ℝ} (hrho : SurfaceIs a rho)
    (hsym : ∀ i < nHalf a, ∀ j < nHalf a, rho 0 (node E a i) (node E a j) = rho 0 (node E a j) (node E a i)) (hn : NoNeglect a)
    {k : ℕ} (hk : k < nHalf a) {c : ℝ} (ho : OneDirection a k c S₁)
    {B : ℕ → ℝ} {Bs : ℝ} (hgl : Glows a (node E a) (weight E a) (rho 0) B Bs S₂)
    {F₁ F₂ : Fields} (hF₁ : Evaluates (under a S₁) R₁ F₁) (hF₂ : Evaluates (under a S₂) R₂ F₂) :
    F₂.u0 0 k * F₁.diffuse 0
      = ∑ l ∈ range a.tauArr.n, B l * (F₁.net (bdry a.tauArr.get l) - F₁.net (bdry a.tauArr.get (l + 1))) + Bs * F₁.net (bottom a) := by
  have hrec := C104_reciprocity h₁ h₂ hS₁ hS₂ hr₁ hr₂ hp₁ hn₁ hp₂ hn₂ hrho hsym ho.noBeam hgl.noBeam hF₁ hF₂
  obtain ⟨U, hU, _⟩ := C02_modes_solve_transfer_equation h₁ hS₁ hr₁
  have hacc := (pydisort_ok h₁).1
  have hs := modes_isSolution h₁ hS₁ hr₁ hp₁ hn₁ hrho hU (nFourier_pos h₁ hS₁)
  have hbpos : 0 ≤ bottom a := (bottom_pos hacc).le
  set mu := node E a with hmu
  set w := weight E a with hw
  have hu : ∀ t, 0 ≤ t → t ≤ bottom a → ∀ i < 2 * nHalf a, F₁.u0 t i = U 0 t i := fun t h0 h1 =>
    (evaluates_unique hF₁ (evaluates h₁ hr₁ hU) h0 h1).1
  have hd : ∀ t, 0 ≤ t → t ≤ bottom a → F₁.diffuse t = hemiFlux a mu w (fun i => U 0 t (nHalf a + i)) := by
    intro t h0 h1
    rw [(evaluates_unique hF₁ (evaluates h₁ hr₁ hU) h0 h1).2.2.1]
    change hemiFlux a mu w (fun i => U 0 t (nHalf a + i)) + (S₁.I0 * _ * _ - S₁.I0 * _ * _) = _
    rw [ho.noBeam]; ring
  have hnet : ∀ t, 0 ≤ t → t ≤ bottom a → F₁.net t = -(2 * Real.pi * exchange (nHalf a) mu w (U 0 t) (fun _ => 1)) := by
    intro t h0 h1
    obtain ⟨-, e2, -, e4⟩ := evaluates_unique hF₁ (evaluates h₁ hr₁ hU) h0 h1
    rw [exchange_one, Fields.net, hd t h0 h1, e2, e4]
    change _ + S₁.I0 * _ * _ - hemiFlux a mu w (fun i => U 0 t i) = _
    rw [ho.noBeam]; ring
  have top : ∀ i < nHalf a, U 0 0 (nHalf a + i) = if i = k then c else 0 := fun i hi => (hs.top i hi).trans (ho.top i hi)
  have hlts : ∀ l < a.tauArr.n, bdry a.tauArr.get l < bdry a.tauArr.get (l + 1) := fun l hl => bdry_lt hacc (show l < a.tauArr.n from hl)
  -- the illumination
  have e1 : innerResponse a w S₁ F₂.u0 = 0 := by
    refine sum_eq_zero fun l hl => ?_
    rw [intervalIntegral.integral_congr (g := fun _ => 0), intervalIntegral.integral_zero]
    intro t ht
    have hl' := mem_range.1 hl
    rw [Set.uIcc_of_le (hlts l hl').le] at ht
    beta_reduce
    rw [ho.noSource l hl' t ht, mul_zero, zero_mul]
  have e2 : 2 * Real.pi * response a mu w S₁ F₂.u0 = F₂.u0 0 k * F₁.diffuse 0 := by
    rw [hd 0 le_rfl hbpos]
    unfold response hemiFlux
    rw [sum_eq_single_of_mem k (mem_range.2 hk), sum_eq_single_of_mem k (mem_range.2 hk)]
    beta_reduce
    rw [top k hk, ho.top k hk, ho.bottom k hk, if_pos rfl]
    · ring
    · intro i hi hik
      beta_reduce
      rw [top i (mem_range.1 hi), if_neg hik, mul_zero]
    · intro i hi hik
      rw [ho.top i (mem_range.1 hi), ho.bottom i (mem_range.1 hi), if_neg hik]; ring
  -- the layers
  have e3 : innerResponse a w S₂ F₁.u0 = ∑ l ∈ range a.tauArr.n, B l * (F₁.net (bdry a.tauArr.get l) - F₁.net (bdry a.tauArr.get (l + 1))) := by
    rw [show innerResponse a w S₂ F₁.u0 = innerResponse a w S₂ (U 0) from innerResponse_congr (a := under a S₁) hacc (w := w) (S := S₂) hu]
    refine sum_congr rfl fun l hl => ?_
    have hl' : l < a.tauArr.n := mem_range.1 hl
    have hlt := hlts l hl'
    have b0 : 0 ≤ bdry a.tauArr.get l ∧ bdry a.tauArr.get l ≤ bottom a := bdry_mem hacc (show l ≤ a.tauArr.n from hl'.le)
    have b1 : 0 ≤ bdry a.tauArr.get (l + 1) ∧ bdry a.tauArr.get (l + 1) ≤ bottom a := bdry_mem hacc (show l + 1 ≤ a.tauArr.n from hl')
    have hsub : Set.Icc (bdry a.tauArr.get l) (bdry a.tauArr.get (l + 1)) ⊆ Set.Icc 0 (bottom a) := Set.Icc_subset_Icc b0.1 b1.2
    have hx := exchange_layer hlt.le (fun i hi => (hs.cont i hi).mono hsub) (fun i _ => continuousOn_const)
      (continuous_const.mul (source_continuous (under a S₁) l)).continuousOn continuousOn_const (insideLayer_of ho.noBeam hs hl')
      (insideLayer_one (a := under a S₁) hacc hS₁.gauss hl' (hS₁.peak l hl') hn)
    rw [intervalIntegral.integral_congr (g := fun t => B l * ((1 - a.omega.get l) * actinic a w (U 0 t)))]
    swap
    · intro t ht
      rw [Set.uIcc_of_le hlt.le] at ht
      change (1 - a.omega.get l) * source (under a S₂) l t * _ = _
      rw [hgl.inner l hl' t ht]; ring
    rw [intervalIntegral.integral_const_mul, hnet _ b0.1 b0.2, hnet _ b1.1 b1.2]
    congr 1
    have hz : ∫ t in (bdry a.tauArr.get l)..(bdry a.tauArr.get (l + 1)), (1 - a.omega.get l) * source (under a S₁) l t * actinic a w (fun _ => 1) = 0 := by
      rw [intervalIntegral.integral_congr (g := fun _ => 0), intervalIntegral.integral_zero]
      intro t ht
      rw [Set.uIcc_of_le hlt.le] at ht
      beta_reduce
      rw [ho.noSource l hl' t ht, mul_zero, zero_mul]
    change _ = (∫ t in (bdry a.tauArr.get l)..(bdry a.tauArr.get (l + 1)), (1 - a.omega.get l) * actinic a w (U 0 t))
      - ∫ t in (bdry a.tauArr.get l)..(bdry a.tauArr.get (l + 1)), (1 - a.omega.get l) * source (under a S₁) l t * actinic a w (fun _ => 1) at hx
    rw [hz, sub_zero] at hx
    rw [← hx]
    change 2 * Real.pi * (exchange (nHalf a) mu w _ _ - exchange (nHalf a) mu w _ _) = _
    ring
  -- the surface
  have e4 : 2 * Real.pi * response a mu w S₂ F₁.u0 = Bs * F₁.net (bottom a) := by
    have hb : ∀ i < nHalf a, U 0 (bottom a) i = if 0 < a.bdrf.length then
        2 * ∑ j ∈ range (nHalf a), w j * mu j * rho 0 (mu i) (mu j) * U 0 (bottom a) (nHalf a + j) else 0 := by
      intro i hi
      have := hs.bot i hi
      change U 0 (bottom a) i = bcVal S₁.bpos 0 i + (if 0 < a.bdrf.length then ((1 + if 0 = 0 then 1 else 0) * ∑ j ∈ range (nHalf a), w j * mu j * rho 0 (mu i) (mu j) * U 0 (bottom a) (nHalf a + j)
          + a.mu0 * S₁.I0 / Real.pi * rho 0 (mu i) a.mu0 * Real.exp (-bdryStar a a.tauArr.n / a.mu0)) else 0) at this
      rw [this, if_pos rfl, ho.noBeam, ho.bottom i hi, one_add_one_eq_two]
      simp only [mul_zero, zero_div, zero_mul, add_zero, zero_add]
    have hup : ∑ i ∈ range (nHalf a), w i * mu i * U 0 (bottom a) i
        = ∑ i ∈ range (nHalf a), w i * mu i * (reflectance a mu w (rho 0) (mu i) * U 0 (bottom a) (nHalf a + i)) := by
      unfold reflectance
      by_cases hl : 0 < a.bdrf.length
      · simp only [if_pos hl] at hb ⊢
        rw [sum_congr rfl fun i hi => by rw [hb i (mem_range.1 hi)]]
        simp only [mul_sum, sum_mul]
        rw [sum_comm]
        refine sum_congr rfl fun i hi => sum_congr rfl fun j hj => ?_
        rw [hsym j (mem_range.1 hj) i (mem_range.1 hi)]
        ring
      · simp only [if_neg hl] at hb ⊢
        refine sum_congr rfl fun i hi => ?_
        rw [hb i (mem_range.1 hi)]; ring
    rw [response_congr (fun i hi => hu 0 le_rfl hbpos i (by omega)) (fun i hi => hu _ hbpos le_rfl _ (by omega)), hnet _ hbpos le_rfl]
    unfold response exchange
    have hex : ∑ i ∈ range (nHalf a), w i * mu i * (U 0 (bottom a) i * 1 - U 0 (bottom a) (nHalf a + i) * 1)
        = ∑ i ∈ range (nHalf a), w i * mu i * U 0 (bottom a) i - ∑ i ∈ range (nHalf a), w i * mu i * U 0 (bottom a) (nHalf a + i) := by
      rw [← sum_sub_distrib]; exact sum_congr rfl fun i _ => by ring
    rw [hex, hup, ← sum_sub_distrib, ← mul_neg, ← sum_neg_distrib, mul_left_comm]
    congr 1
    rw [mul_sum]
    refine sum_congr rfl fun i hi => ?_
    rw [hgl.top i (mem_range.1 hi), hgl.bottom i (mem_range.1 hi)]
    ring
  rw [e1, e2, e3, e4, add_zero] at hrec
  rw [hrec, add_comm]

/-- **C104, emissivity and albedo.** If all layers and the surface have the same temperature, the emissivity in a direction is the complement of the albedo for light from
that direction. -/
theorem C104_emissivity {S₁ S₂ : Sources} {J₁ J₂ : Junk} {R₁ R₂ : Solved} (h₁ : pydisort E J₁ (under a S₁) = .ok R₁)
    (h₂ : pydisort E J₂ (under a S₂) = .ok R₂) (hS₁ : Sound E (under a S₁)) (hS₂ : Sound E (under a S₂)) (hr₁ : Rescalable (under a S₁))
    (hr₂ : Rescalable (under a S₂)) (hp₁ : Azimuthless S₁.bpos) (hn₁ : Azimuthless S₁.bneg) (hp₂ : Azimuthless S₂.bpos)
    (hn₂ : Azimuthless S₂.bneg) {rho : ℕ → ℝ → ℝ → ℝ} (hrho : SurfaceIs a rho)
    (hsym : ∀ i < nHalf a, ∀ j < nHalf a, rho 0 (node E a i) (node E a j) = rho 0 (node E a j) (node E a i)) (hn : NoNeglect a)
    {k : ℕ} (hk : k < nHalf a) {c : ℝ} (hc : c ≠ 0) (ho : OneDirection a k c S₁)
    {B : ℝ} (hgl : Glows a (node E a) (weight E a) (rho 0) (fun _ => B) B S₂)
    {F₁ F₂ : Fields} (hF₁ : Evaluates (under a S₁) R₁ F₁) (hF₂ : Evaluates (under a S₂) R₂ F₂) :
    F₁.diffuse 0 ≠ 0 ∧ F₂.u0 0 k = B * (1 - F₁.up 0 / F₁.diffuse 0) := by
  have key := C104_kirchhoff h₁ h₂ hS₁ hS₂ hr₁ hr₂ hp₁ hn₁ hp₂ hn₂ hrho hsym hn hk ho hgl hF₁ hF₂
  obtain ⟨U, hU, _⟩ := C02_modes_solve_transfer_equation h₁ hS₁ hr₁
  have hacc := (pydisort_ok h₁).1
  have hs := modes_isSolution h₁ hS₁ hr₁ hp₁ hn₁ hrho hU (nFourier_pos h₁ hS₁)
  have hbpos : 0 ≤ bottom a := (bottom_pos hacc).le
  obtain ⟨-, -, e3, e4⟩ := evaluates_unique hF₁ (evaluates h₁ hr₁ hU) le_rfl hbpos
  have hd : F₁.diffuse 0 = 2 * Real.pi * (node E a k * weight E a k * c) := by
    rw [e3]
    change hemiFlux a (node E a) (weight E a) (fun i => U 0 0 (nHalf a + i)) + (S₁.I0 * _ * _ - S₁.I0 * _ * _) = _
    rw [ho.noBeam]
    unfold hemiFlux
    rw [sum_eq_single_of_mem k (mem_range.2 hk)]
    beta_reduce
    rw [show U 0 0 (nHalf a + k) = c from (hs.top k hk).trans ((ho.top k hk).trans (if_pos rfl))]
    · ring
    · intro i hi hik
      beta_reduce
      rw [show U 0 0 (nHalf a + i) = 0 from (hs.top i (mem_range.1 hi)).trans ((ho.top i (mem_range.1 hi)).trans (if_neg hik)), mul_zero]
  have hne : F₁.diffuse 0 ≠ 0 := by
    rw [hd]
    have := (node_pos hS₁.gauss hk).1
    have := weight_pos hS₁.gauss hk
    exact mul_ne_zero (mul_ne_zero two_ne_zero Real.pi_ne_zero) (mul_ne_zero (mul_ne_zero (node_pos hS₁.gauss hk).1.ne' (weight_pos hS₁.gauss hk).ne') hc)
  refine ⟨hne, ?_⟩
  have htel := Finset.sum_range_sub' (fun l => F₁.net (bdry a.tauArr.get l)) a.tauArr.n
  rw [show bdry a.tauArr.get a.tauArr.n = bottom a from bdry_bottom (a := under a S₁) hacc, bdry_zero] at htel
  rw [← mul_sum, htel] at key
  have hnet0 : F₁.net 0 = F₁.diffuse 0 - F₁.up 0 := by
    unfold Fields.net
    rw [e4]
    change _ + S₁.I0 * _ * _ - _ = _
    rw [ho.noBeam]; ring
  rw [hnet0] at key
  field_simp
  linarith

section
variable {n : ℕ}

/-- The hypotheses are met: a scattering atmosphere of two layers over a reflecting surface, with any number of streams; the first call is lit in the direction of
any stream, in the second the layers and the surface glow. -/
example (hn : 0 < n) {k : ℕ} (hk : k < n) {B : ℝ} (hB : 0 < B) (J : Junk) : ∃ (S₁ S₂ : Sources) (R₁ R₂ : Solved) (F₁ F₂ : Fields),
    pydisort refExt J (under (demoWarm n B) S₁) = .ok R₁ ∧ pydisort refExt J (under (demoWarm n B) S₂) = .ok R₂
    ∧ (∀ S, S = S₁ ∨ S = S₂ → Sound refExt (under (demoWarm n B) S) ∧ Rescalable (under (demoWarm n B) S) ∧ Azimuthless S.bpos ∧ Azimuthless S.bneg)
    ∧ SurfaceIs (demoWarm n B) (fun _ _ _ => 1 / 3) ∧ NoNeglect (demoWarm n B) ∧ k < nHalf (demoWarm n B) ∧ OneDirection (demoWarm n B) k 1 S₁
    ∧ Glows (demoWarm n B) (node refExt (demoWarm n B)) (weight refExt (demoWarm n B)) (fun _ _ => 1 / 3) (fun _ => B) B S₂
    ∧ Evaluates (under (demoWarm n B) S₁) R₁ F₁ ∧ Evaluates (under (demoWarm n B) S₂) R₂ F₂ := by
  have hh : nHalf (demoWarm n B) = n := demo_nHalf 1
  set S₁ : Sources := ⟨0, .scalar 0, .vec ⟨n, fun i => if i = k then 1 else 0⟩, ⟨2, 1, fun _ _ => 0⟩⟩ with hS₁
  set S₂ : Sources := ⟨0, (demoWarm n B).bpos, .scalar 0, (demoWarm n B).s⟩ with hS₂
  have w₁ : WellPosed refExt (under (demoWarm n B) S₁) :=
    wellPosed_under (demoWarm_wellPosed hn B) le_rfl (fun h => absurd h (lt_irrefl _)) trivial (Or.inr (Or.inr hh.symm)) trivial trivial rfl
  have w₂ : WellPosed refExt (under (demoWarm n B) S₂) :=
    wellPosed_under (demoWarm_wellPosed hn B) le_rfl (fun h => absurd h (lt_irrefl _)) trivial trivial trivial trivial rfl
  have r₁ : Rescalable (under (demoWarm n B) S₁) := Or.inl (Or.inr (Or.inr (Or.inl ⟨k, hk, by simp⟩)))
  have r₂ : Rescalable (under (demoWarm n B) S₂) := Or.inl (Or.inr (Or.inl (show 0 < 2 / 3 * B by positivity)))
  obtain ⟨R₁, e₁⟩ := pydisort_isOk w₁ J
  obtain ⟨R₂, e₂⟩ := pydisort_isOk w₂ J
  obtain ⟨F₁, f₁⟩ := evaluates_exists e₁ w₁.sound r₁
  obtain ⟨F₂, f₂⟩ := evaluates_exists e₂ w₂.sound r₂
  have hi := demoWarm_isothermal hn B
  refine ⟨S₁, S₂, R₁, R₂, F₁, F₂, e₁, e₂, ?_, fun m _ => demo_rho (n := n) 1 m, demoWarm_noNeglect hn B, by rwa [hh],
    ⟨⟨rfl, fun l _ t _ => by simp [source, under, hS₁]⟩, fun i hi => ?_, fun i _ => by simp [hS₁, bcVal]⟩,
    ⟨rfl, hi.inner, fun i _ => by simp [hS₂, bcVal], hi.bottom⟩, f₁, f₂⟩
  · rintro S (rfl | rfl)
    · exact ⟨w₁.sound, r₁, trivial, trivial⟩
    · exact ⟨w₂.sound, r₂, trivial, trivial⟩
  · rw [hh] at hi
    simp only [hS₁, bcVal, if_true]
    by_cases h1 : n = 1
    · rw [if_pos h1, show i = 0 by omega, show k = 0 by omega]
    · rw [if_neg h1, if_pos hi]

end

end Pydisort

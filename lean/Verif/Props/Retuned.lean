import Verif.Spec.Retuned
import Verif.Props.Neglect
import Verif.ReflectingLemmas

/-!
# C106: small changes of the optical properties have small effects

Specification used: `Spec.retuned`, `Spec.scattered`, `Spec.SimilarOptics`, `Spec.BelowBlackbody`, `Spec.NonnegSources`, `Spec.NoNeglect`.
-/

namespace Pydisort
open Finset Spec

variable {E : Ext} {a : Args} {om₁ om₂ : A1 ℝ} {g₁ g₂ : A2 ℝ} {f₁ f₂ : A1 ℝ}

/-- All that is scattered arrives somewhere. -/
theorem sum_scattered (hacc : Accepted a) (hg : GaussContract E (nHalf a)) {l : ℕ} (hl : l < a.tauArr.n) (hpk : peak a l < 1) (hn : NoNeglect a)
    {i : ℕ} (hi : i < 2 * nHalf a) :
    ∑ j ∈ range (2 * nHalf a), scattered a (node E a) (weight E a) l i j = a.omega.get l := by
  have hs := Args.scale_pos hacc hl
  have he : effAlbedo a l = omegaStar a l := by
    unfold effAlbedo
    rcases hn l hl with h | h
    · rw [h]; split_ifs <;> rfl
    · rw [if_pos h]
  unfold scattered
  rw [sum_add_distrib, sum_ite_eq, if_pos (mem_range.2 hi), ← mul_sum, row_sum_kernel hacc hg hpk, he]
  unfold omegaStar
  rw [mul_div_cancel₀ _ hs.ne']
  ring

/-- The equation of mode zero without a beam, per unit of the caller's optical depth. -/
theorem rteUser_scattered (a : Args) (hI : a.I0 = 0) (mu w : Vec) (l : ℕ) (t : ℝ) (u : ℕ → ℝ) {i : ℕ} (hi : i < 2 * nHalf a) :
    rteUser a mu w 0 l t u i = u i - ∑ j ∈ range (2 * nHalf a), scattered a mu w l i j * u j - (1 - a.omega.get l) * source a l t := by
  have hz : beamSource a 0 l (stream (nHalf a) mu i) = 0 := by
    unfold beamSource beamX; rw [hI]; simp
  rw [rteUser_zero, hz]
  unfold scattered
  simp only [add_mul, sum_add_distrib, ite_mul, zero_mul, sum_ite_eq, if_pos (mem_range.2 hi), mul_assoc, ← mul_sum]
  unfold scale
  ring

theorem retuned_bound (hacc₁ : Accepted (retuned a om₁ g₁ f₁)) (hacc₂ : Accepted (retuned a om₂ g₂ f₂)) (hg : GaussContract E (nHalf a))
    (hpk₁ : ∀ l < a.tauArr.n, peak (retuned a om₁ g₁ f₁) l < 1) (hpk₂ : ∀ l < a.tauArr.n, peak (retuned a om₂ g₂ f₂) l < 1)
    (hk : NonnegScattering (retuned a om₁ g₁ f₁) (node E a)) (hn₁ : NoNeglect (retuned a om₁ g₁ f₁)) (hn₂ : NoNeglect (retuned a om₂ g₂ f₂))
    {rho : ℝ → ℝ → ℝ} (hsf : FairSurface a (node E a) (weight E a) rho) (hI : a.I0 = 0) {B : ℝ}
    (hsrc : ∀ l < a.tauArr.n, ∀ t, InLayer a l t → 0 ≤ source a l t ∧ source a l t ≤ B) {ε : ℝ}
    (hsim : SimilarOptics (retuned a om₁ g₁ f₁) (retuned a om₂ g₂ f₂) (node E a) (weight E a) ε) {U V : ℝ → ℕ → ℝ}
    (hU : IsSolution (retuned a om₁ g₁ f₁) (node E a) (weight E a) rho 0 U)
    (hV : IsSolution (retuned a om₂ g₂ f₂) (node E a) (weight E a) rho 0 V)
    (hB : ∀ t, 0 ≤ t → t ≤ bottom a → ∀ i < 2 * nHalf a, 0 ≤ V t i ∧ V t i ≤ B) (s : ℝ) (hs : |s| = 1) :
    ∀ t, 0 ≤ t → t ≤ bottom a → ∀ i < 2 * nHalf a, 0 ≤ ε * B + s * (U t i - V t i) := by
  have hnp : 0 < nHalf a := streams_pos (a := retuned a om₁ g₁ f₁) hacc₁
  have hbot0 : 0 ≤ bottom a := by
    have := bdry_le hacc₁ (Nat.zero_le (retuned a om₁ g₁ f₁).tauArr.n) le_rfl
    rw [bdry_zero, bdry_bottom hacc₁] at this
    exact this
  have hB0 : 0 ≤ B := (hB 0 le_rfl hbot0 0 (by omega)).1.trans (hB 0 le_rfl hbot0 0 (by omega)).2
  have hL : 0 < a.tauArr.n := hacc₁.layers
  have he0 : 0 ≤ ε := by
    have h1 := hsim 0 hL 0 (show 0 < 2 * nHalf a by omega)
    have h2 := (hacc₁.omega 0 hL).2
    have h3 := (sum_nonneg fun j _ => abs_nonneg _).trans h1
    exact nonneg_of_mul_nonneg_left h3 (by linarith)
  have heB : 0 ≤ ε * B := mul_nonneg he0 hB0
  refine nonneg_of_super (a := retuned a om₁ g₁ f₁) (E := E) hacc₁ hg hpk₁ hk hsf.nonneg hsf.bounded (V := fun t i => ε * B + s * (U t i - V t i))
    (fun i hi => continuousOn_const.add (continuousOn_const.mul ((hU.cont i hi).sub (hV.cont i hi)))) ?_ ?_ ?_
  · intro l hl t ht0 ht1 i hi
    obtain ⟨d₁, k₁, e₁⟩ := hU.ode l hl t ht0 ht1 i hi
    obtain ⟨d₂, k₂, e₂⟩ := hV.ode l hl t ht0 ht1 i hi
    refine ⟨s * (d₁ - d₂), ((k₁.sub k₂).const_mul s).const_add _, ?_⟩
    have hi' : i < 2 * nHalf a := hi
    have hr : 0 ≤ t ∧ t ≤ bottom a := layer_in_range hacc₁ hl ht0 ht1
    have q₁ : ∑ j ∈ range (2 * nHalf a), scattered (retuned a om₁ g₁ f₁) (node E a) (weight E a) l i j = om₁.get l :=
      sum_scattered (E := E) hacc₁ hg hl (hpk₁ l hl) hn₁ hi
    have q₂ : ∑ j ∈ range (2 * nHalf a), scattered (retuned a om₂ g₂ f₂) (node E a) (weight E a) l i j = om₂.get l :=
      sum_scattered (E := E) hacc₂ hg hl (hpk₂ l hl) hn₂ hi
    rw [rteUser_scattered (retuned a om₁ g₁ f₁) hI _ _ _ _ _ hi] at e₁
    rw [rteUser_scattered (retuned a om₂ g₂ f₂) hI _ _ _ _ _ hi] at e₂
    change stream (nHalf a) (node E a) i * d₁ = U t i - ∑ j ∈ range (2 * nHalf a), scattered (retuned a om₁ g₁ f₁) (node E a) (weight E a) l i j * U t j
      - (1 - om₁.get l) * source a l t at e₁
    change stream (nHalf a) (node E a) i * d₂ = V t i - ∑ j ∈ range (2 * nHalf a), scattered (retuned a om₂ g₂ f₂) (node E a) (weight E a) l i j * V t j
      - (1 - om₂.get l) * source a l t at e₂
    have key : ∀ W : ℕ → ℝ, scale (retuned a om₁ g₁ f₁) l * (W i - ∑ j ∈ range (2 * nHalf a), streamW (nHalf a) (weight E a) j
        * kernel (retuned a om₁ g₁ f₁) 0 l (stream (nHalf a) (node E a) i) (stream (nHalf a) (node E a) j) * W j)
        = W i - ∑ j ∈ range (2 * nHalf a), scattered (retuned a om₁ g₁ f₁) (node E a) (weight E a) l i j * W j := by
      intro W
      unfold scattered
      simp only [add_mul, sum_add_distrib, ite_mul, zero_mul, sum_ite_eq, if_pos (mem_range.2 hi'), mul_assoc, ← mul_sum]
      unfold scale
      change _ = W i - ((retuned a om₁ g₁ f₁).omega.get l * (peak (retuned a om₁ g₁ f₁) l * W i) + (1 - (retuned a om₁ g₁ f₁).omega.get l
        * peak (retuned a om₁ g₁ f₁) l) * ∑ j ∈ range (2 * nHalf a), streamW (nHalf a) (weight E a) j
        * (kernel (retuned a om₁ g₁ f₁) 0 l (stream (nHalf a) (node E a) i) (stream (nHalf a) (node E a) j) * W j))
      ring
    change stream (nHalf a) (node E a) i * (s * (d₁ - d₂)) ≤ scale (retuned a om₁ g₁ f₁) l * (ε * B + s * (U t i - V t i)
      - ∑ j ∈ range (2 * nHalf a), streamW (nHalf a) (weight E a) j
        * kernel (retuned a om₁ g₁ f₁) 0 l (stream (nHalf a) (node E a) i) (stream (nHalf a) (node E a) j) * (ε * B + s * (U t j - V t j)))
    rw [key fun j => ε * B + s * (U t j - V t j)]
    have hsm := hsim l hl i hi
    change ∑ j ∈ range (2 * nHalf a), |scattered (retuned a om₁ g₁ f₁) (node E a) (weight E a) l i j
      - scattered (retuned a om₂ g₂ f₂) (node E a) (weight E a) l i j| ≤ ε * (1 - om₁.get l) at hsm
    set M₁ := scattered (retuned a om₁ g₁ f₁) (node E a) (weight E a) l i
    set M₂ := scattered (retuned a om₂ g₂ f₂) (node E a) (weight E a) l i
    obtain ⟨s0, s1⟩ := hsrc l hl t ⟨ht0.le, ht1.le⟩
    set S := source a l t
    have hres : |∑ j ∈ range (2 * nHalf a), (M₁ j - M₂ j) * (V t j - S)| ≤ ε * (1 - om₁.get l) * B := by
      refine (abs_sum_le_sum_abs _ _).trans ((sum_le_sum fun j hj => ?_).trans
        (b := ∑ j ∈ range (2 * nHalf a), |M₁ j - M₂ j| * B) (by rw [← sum_mul]; exact mul_le_mul_of_nonneg_right hsm hB0))
      rw [abs_mul]
      have := hB t hr.1 hr.2 j (mem_range.1 hj)
      exact mul_le_mul_of_nonneg_left (abs_le.2 ⟨by linarith, by linarith⟩) (abs_nonneg _)
    have hexp : ∑ j ∈ range (2 * nHalf a), (M₁ j - M₂ j) * (V t j - S) = ∑ j ∈ range (2 * nHalf a), M₁ j * V t j
        - ∑ j ∈ range (2 * nHalf a), M₂ j * V t j - (om₁.get l - om₂.get l) * S := by
      rw [← q₁, ← q₂, ← sum_sub_distrib, ← sum_sub_distrib, sum_mul, ← sum_sub_distrib]
      exact sum_congr rfl fun j _ => by ring
    have hexp2 : ∑ j ∈ range (2 * nHalf a), M₁ j * (ε * B + s * (U t j - V t j)) = om₁.get l * (ε * B)
        + s * (∑ j ∈ range (2 * nHalf a), M₁ j * U t j - ∑ j ∈ range (2 * nHalf a), M₁ j * V t j) := by
      rw [← q₁, sum_mul, ← sum_sub_distrib, mul_sum, ← sum_add_distrib]
      exact sum_congr rfl fun j _ => by ring
    have h1 : -(s * ∑ j ∈ range (2 * nHalf a), (M₁ j - M₂ j) * (V t j - S)) ≤ ε * (1 - om₁.get l) * B := by
      refine (neg_le_abs _).trans ?_
      rw [abs_mul, hs, one_mul]; exact hres
    rw [hexp] at h1
    beta_reduce
    rw [hexp2, show stream (nHalf a) (node E a) i * (s * (d₁ - d₂))
      = s * (stream (nHalf a) (node E a) i * d₁ - stream (nHalf a) (node E a) i * d₂) by ring, e₁, e₂]
    linarith
  · intro i hi
    beta_reduce
    have x₁ := hU.top i hi
    have x₂ := hV.top i hi
    change U 0 (nHalf a + i) = bcVal a.bneg 0 i at x₁
    change V 0 (nHalf a + i) = bcVal a.bneg 0 i at x₂
    change 0 ≤ ε * B + s * (U 0 (nHalf a + i) - V 0 (nHalf a + i))
    rw [x₁, x₂]; linarith
  · intro i hi
    beta_reduce
    have x₁ := hU.bot i hi
    have x₂ := hV.bot i hi
    have z : ∀ (om : A1 ℝ) (g : A2 ℝ) (f : A1 ℝ) (v : Vec), reflected (retuned a om g f) (node E a) (weight E a) rho 0 (node E a i) v
        = 2 * ∑ j ∈ range (nHalf a), weight E a j * node E a j * rho (node E a i) (node E a j) * v j := by
      intro om g f v
      unfold reflected
      rw [if_pos rfl, one_add_one_eq_two, show (retuned a om g f).I0 = 0 from hI]
      simp only [mul_zero, zero_div, zero_mul, add_zero]
      rfl
    rw [z] at x₁ x₂
    change U (bottom a) i = bcVal a.bpos 0 i + (if 0 < a.bdrf.length then 2 * ∑ j ∈ range (nHalf a), weight E a j * node E a j
      * rho (node E a i) (node E a j) * U (bottom a) (nHalf a + j) else 0) at x₁
    change V (bottom a) i = bcVal a.bpos 0 i + (if 0 < a.bdrf.length then 2 * ∑ j ∈ range (nHalf a), weight E a j * node E a j
      * rho (node E a i) (node E a j) * V (bottom a) (nHalf a + j) else 0) at x₂
    change (if 0 < a.bdrf.length then 2 * ∑ j ∈ range (nHalf a), weight E a j * node E a j
      * rho (node E a i) (node E a j) * (ε * B + s * (U (bottom a) (nHalf a + j) - V (bottom a) (nHalf a + j))) else 0)
      ≤ ε * B + s * (U (bottom a) i - V (bottom a) i)
    rw [x₁, x₂]
    have y1 := hsf.bounded i hi
    unfold reflectance at y1
    split_ifs at y1 ⊢ with hm
    · have h1 : ∑ j ∈ range (nHalf a), weight E a j * node E a j * rho (node E a i) (node E a j)
          * (ε * B + s * (U (bottom a) (nHalf a + j) - V (bottom a) (nHalf a + j)))
          = (∑ j ∈ range (nHalf a), weight E a j * node E a j * rho (node E a i) (node E a j)) * (ε * B)
            + s * (∑ j ∈ range (nHalf a), weight E a j * node E a j * rho (node E a i) (node E a j) * U (bottom a) (nHalf a + j)
              - ∑ j ∈ range (nHalf a), weight E a j * node E a j * rho (node E a i) (node E a j) * V (bottom a) (nHalf a + j)) := by
        rw [sum_mul, ← sum_sub_distrib, mul_sum, ← sum_add_distrib]
        exact sum_congr rfl fun j _ => by ring
      rw [h1]
      have h2 := mul_le_mul_of_nonneg_right y1 heB
      linarith
    · linarith

/-- **C106.** Two calls differ in the albedos, phase functions and peak fractions of the layers; there is no beam and no source exceeds what a black body of intensity
`B` would provide. If in every layer the scattering between the streams differs by at most the fraction `ε` of the absorption of the first call, then the azimuthally averaged
intensities differ by at most `ε B` and the fluxes by at most `π ε B`, at every depth, however thick the layers are. -/
theorem C106_similar_optics {J₁ J₂ : Junk} {R₁ R₂ : Solved} (h₁ : pydisort E J₁ (retuned a om₁ g₁ f₁) = .ok R₁)
    (h₂ : pydisort E J₂ (retuned a om₂ g₂ f₂) = .ok R₂) (hS₁ : Sound E (retuned a om₁ g₁ f₁)) (hS₂ : Sound E (retuned a om₂ g₂ f₂))
    (hr₁ : Rescalable (retuned a om₁ g₁ f₁)) (hr₂ : Rescalable (retuned a om₂ g₂ f₂)) (hbp : Azimuthless a.bpos) (hbn : Azimuthless a.bneg)
    {rho : ℕ → ℝ → ℝ → ℝ} (hrho : SurfaceIs a rho) (hsf : FairSurface a (node E a) (weight E a) (rho 0))
    (hk₁ : NonnegScattering (retuned a om₁ g₁ f₁) (node E a)) (hk₂ : NonnegScattering (retuned a om₂ g₂ f₂) (node E a))
    (hn₁ : NoNeglect (retuned a om₁ g₁ f₁)) (hn₂ : NoNeglect (retuned a om₂ g₂ f₂))
    {B : ℝ} (hB : 0 ≤ B) (hq0 : NonnegSources a (node E a)) (hq : BelowBlackbody a (node E a) (weight E a) (rho 0) B) {ε : ℝ}
    (hsim : SimilarOptics (retuned a om₁ g₁ f₁) (retuned a om₂ g₂ f₂) (node E a) (weight E a) ε) {F₁ F₂ : Fields}
    (hF₁ : Evaluates (retuned a om₁ g₁ f₁) R₁ F₁) (hF₂ : Evaluates (retuned a om₂ g₂ f₂) R₂ F₂) :
    ∀ t, 0 ≤ t → t ≤ bottom a → (∀ i < 2 * nHalf a, |F₁.u0 t i - F₂.u0 t i| ≤ ε * B)
      ∧ |F₁.up t - F₂.up t| ≤ Real.pi * (ε * B) ∧ |F₁.diffuse t - F₂.diffuse t| ≤ Real.pi * (ε * B) := by
  intro t h0 h1
  obtain ⟨U₁, hU₁, _⟩ := C02_modes_solve_transfer_equation h₁ hS₁ hr₁
  obtain ⟨U₂, hU₂, _⟩ := C02_modes_solve_transfer_equation h₂ hS₂ hr₂
  have hacc₁ := (pydisort_ok h₁).1
  have hacc₂ := (pydisort_ok h₂).1
  have hg : GaussContract E (nHalf a) := hS₁.gauss
  have s₁ := modes_isSolution h₁ hS₁ hr₁ hbp hbn hrho hU₁ (nFourier_pos h₁ hS₁)
  have s₂ := modes_isSolution h₂ hS₂ hr₂ hbp hbn hrho hU₂ (nFourier_pos h₂ hS₂)
  have hsf₂ : FairSurface (retuned a om₂ g₂ f₂) (node E a) (weight E a) (rho 0) := ⟨hsf.nonneg, hsf.beam, hsf.bounded⟩
  have hz : ∀ l i, beamSource (retuned a om₂ g₂ f₂) 0 l (stream (nHalf a) (node E a) i) = 0 := by
    intro l i
    unfold beamSource beamX; rw [show (retuned a om₂ g₂ f₂).I0 = 0 from hq.noBeam]; simp
  have hq₂ : NonnegSources (retuned a om₂ g₂ f₂) (node E a) := ⟨fun l _ i _ => (hz l i).ge, hq0.inner, hq0.top, hq0.bottom⟩
  have hb₂ : BelowBlackbody (retuned a om₂ g₂ f₂) (node E a) (weight E a) (rho 0) B := ⟨hq.noBeam, hq.inner, hq.top, hq.bottom⟩
  have hlow := solution_nonneg (E := E) (a := retuned a om₂ g₂ f₂) hacc₂ hS₂.gauss hS₂.peak hk₂ hsf₂ hq₂ s₂
  have hupp := solution_le (E := E) (a := retuned a om₂ g₂ f₂) hacc₂ hS₂.gauss hS₂.peak hk₂ hsf₂ hB hb₂ s₂
  have bound := retuned_bound (E := E) hacc₁ hacc₂ hg hS₁.peak hS₂.peak hk₁ hn₁ hn₂ hsf hq.noBeam
    (fun l hl t ht => ⟨hq0.inner l hl t ht, hq.inner l hl t ht⟩) hsim s₁ s₂ (fun t x y i hi => ⟨hlow t x y i hi, hupp t x y i hi⟩)
  have key : ∀ i < 2 * nHalf a, |U₁ 0 t i - U₂ 0 t i| ≤ ε * B := by
    intro i hi
    have p := bound 1 (by simp) t h0 h1 i hi
    have q := bound (-1) (by simp) t h0 h1 i hi
    exact abs_le.2 ⟨by linarith, by linarith⟩
  obtain ⟨e1, e2, e3, -⟩ := evaluates_unique hF₁ (evaluates h₁ hr₁ hU₁) h0 h1
  obtain ⟨k1, k2, k3, -⟩ := evaluates_unique hF₂ (evaluates h₂ hr₂ hU₂) h0 h1
  have hnp : 0 < nHalf a := streams_pos (a := retuned a om₁ g₁ f₁) hacc₁
  refine ⟨fun i hi => by rw [e1 i hi, k1 i hi]; exact key i hi, ?_, ?_⟩
  · rw [e2, k2]
    exact abs_hemiFlux_sub_le (a := a) hg hnp fun i hi => key i (by omega)
  · rw [e3, k3]
    simp only [fieldsOf, show (retuned a om₁ g₁ f₁).I0 = 0 from hq.noBeam, show (retuned a om₂ g₂ f₂).I0 = 0 from hq.noBeam, zero_mul, sub_self, add_zero]
    exact abs_hemiFlux_sub_le (a := a) hg hnp fun i hi => key (nHalf a + i) (by omega)

/-- Scattering is proportional to the albedo. -/
theorem scattered_form (hacc : Accepted (retuned a om₁ g₁ f₁)) (mu w : Vec) {l : ℕ} (hl : l < a.tauArr.n)
    (hn : NoNeglect (retuned a om₁ g₁ f₁)) (i j : ℕ) :
    scattered (retuned a om₁ g₁ f₁) mu w l i j = om₁.get l * ((if i = j then peak (retuned a om₁ g₁ f₁) l else 0)
      + (1 - peak (retuned a om₁ g₁ f₁) l) * (streamW (nHalf a) w j * (1 / 2 * phaseMoment (nLeg a) (legStar (retuned a om₁ g₁ f₁) l) 0
        (stream (nHalf a) mu i) (stream (nHalf a) mu j)))) := by
  have hs := Args.scale_pos hacc hl
  have e : scale (retuned a om₁ g₁ f₁) l * omegaStar (retuned a om₁ g₁ f₁) l = (1 - peak (retuned a om₁ g₁ f₁) l) * om₁.get l := by
    unfold omegaStar
    rw [mul_div_cancel₀ _ hs.ne']; rfl
  have hk : ∀ x y, kernel (retuned a om₁ g₁ f₁) 0 l x y = omegaStar (retuned a om₁ g₁ f₁) l
      * (1 / 2 * phaseMoment (nLeg a) (legStar (retuned a om₁ g₁ f₁) l) 0 x y) := by
    intro x y
    rw [kernel_form]
    rcases hn l hl with h | h
    · rw [h]; simp
    · rw [if_pos h]; rfl
  unfold scattered
  rw [hk]
  change (if i = j then om₁.get l * peak (retuned a om₁ g₁ f₁) l else 0) + scale (retuned a om₁ g₁ f₁) l * (streamW (nHalf a) w j
    * (omegaStar (retuned a om₁ g₁ f₁) l * (1 / 2 * phaseMoment (nLeg a) (legStar (retuned a om₁ g₁ f₁) l) 0
        (stream (nHalf a) mu i) (stream (nHalf a) mu j)))) = _
  generalize 1 / 2 * phaseMoment (nLeg a) (legStar (retuned a om₁ g₁ f₁) l) 0 (stream (nHalf a) mu i) (stream (nHalf a) mu j) = P
  split_ifs
  · linear_combination (streamW (nHalf a) w j * P) * e
  · linear_combination (streamW (nHalf a) w j * P) * e

/-- If only the albedos differ, scattering differs by as much as they do. -/
theorem similarOptics_of_albedo {g : A2 ℝ} {f : A1 ℝ} (hacc₁ : Accepted (retuned a om₁ g f)) (hacc₂ : Accepted (retuned a om₂ g f))
    (hg : GaussContract E (nHalf a)) (hpk : ∀ l < a.tauArr.n, peak (retuned a om₁ g f) l < 1)
    (hk₁ : NonnegScattering (retuned a om₁ g f) (node E a)) (hk₂ : NonnegScattering (retuned a om₂ g f) (node E a))
    (hn₁ : NoNeglect (retuned a om₁ g f)) (hn₂ : NoNeglect (retuned a om₂ g f)) {ε : ℝ}
    (hom : ∀ l < a.tauArr.n, |om₁.get l - om₂.get l| ≤ ε * (1 - om₁.get l)) :
    SimilarOptics (retuned a om₁ g f) (retuned a om₂ g f) (node E a) (weight E a) ε := by
  intro l hl i hi
  change ∑ j ∈ range (2 * nHalf a), |scattered (retuned a om₁ g f) (node E a) (weight E a) l i j
    - scattered (retuned a om₂ g f) (node E a) (weight E a) l i j| ≤ ε * (1 - om₁.get l)
  refine le_trans ?_ (hom l hl)
  have x₁ := fun j => scattered_form hacc₁ (node E a) (weight E a) hl hn₁ i j
  have x₂ := fun j => scattered_form hacc₂ (node E a) (weight E a) hl hn₂ i j
  have q₁ : ∑ j ∈ range (2 * nHalf a), scattered (retuned a om₁ g f) (node E a) (weight E a) l i j = om₁.get l :=
    sum_scattered (E := E) hacc₁ hg hl (hpk l hl) hn₁ hi
  have q₂ : ∑ j ∈ range (2 * nHalf a), scattered (retuned a om₂ g f) (node E a) (weight E a) l i j = om₂.get l :=
    sum_scattered (E := E) hacc₂ hg hl (hpk l hl) hn₂ hi
  have p : ∀ (om : A1 ℝ), Accepted (retuned a om g f) → NonnegScattering (retuned a om g f) (node E a) → ∀ j < 2 * nHalf a,
      0 ≤ scattered (retuned a om g f) (node E a) (weight E a) l i j := by
    intro om hacc hk j hj
    have hwj : 0 ≤ streamW (nHalf a) (weight E a) j := by
      unfold streamW; split_ifs <;> exact (weight_pos hg (by omega)).le
    have ho := (hacc.omega l hl).1
    have hf := (Args.peak_range hacc l).1
    refine add_nonneg ?_ (mul_nonneg (Args.scale_pos hacc hl).le (mul_nonneg hwj (hk l hl i hi j hj)))
    split_ifs
    · exact mul_nonneg ho hf
    · exact le_rfl
  have p₁ := p om₁ hacc₁ hk₁
  have p₂ := p om₂ hacc₂ hk₂
  change ∀ j, scattered (retuned a om₂ g f) (node E a) (weight E a) l i j = om₂.get l * ((if i = j then peak (retuned a om₁ g f) l else 0)
      + (1 - peak (retuned a om₁ g f) l) * (streamW (nHalf a) (weight E a) j * (1 / 2 * phaseMoment (nLeg a) (legStar (retuned a om₁ g f) l) 0
        (stream (nHalf a) (node E a) i) (stream (nHalf a) (node E a) j)))) at x₂
  simp only [x₁, ← mul_sum] at q₁ p₁ ⊢
  simp only [x₂, ← mul_sum] at q₂ p₂ ⊢
  simp only [← sub_mul, abs_mul]
  rw [← mul_sum]
  have o₁ : 0 ≤ om₁.get l := (hacc₁.omega l hl).1
  have o₂ : 0 ≤ om₂.get l := (hacc₂.omega l hl).1
  rcases o₁.lt_or_eq with h | h
  · have hc := mul_left_cancel₀ h.ne' (q₁.trans (mul_one _).symm)
    rw [sum_congr rfl fun j hj => abs_of_nonneg (nonneg_of_mul_nonneg_right (p₁ j (mem_range.1 hj)) h), hc, mul_one]
  · rcases o₂.lt_or_eq with h' | h'
    · have hc := mul_left_cancel₀ h'.ne' (q₂.trans (mul_one _).symm)
      rw [sum_congr rfl fun j hj => abs_of_nonneg (nonneg_of_mul_nonneg_right (p₂ j (mem_range.1 hj)) h'), hc, mul_one]
    · rw [← h, ← h']; simp

/-- **C106, albedo.** If the calls differ only in the single-scattering albedos, it suffices that these differ by at most the fraction `ε` of the co-albedo:
a relative error `ε` of the absorption changes thermal intensities by at most `ε B`. -/
theorem C106_albedo {g : A2 ℝ} {f : A1 ℝ} {J₁ J₂ : Junk} {R₁ R₂ : Solved} (h₁ : pydisort E J₁ (retuned a om₁ g f) = .ok R₁)
    (h₂ : pydisort E J₂ (retuned a om₂ g f) = .ok R₂) (hS₁ : Sound E (retuned a om₁ g f)) (hS₂ : Sound E (retuned a om₂ g f))
    (hr₁ : Rescalable (retuned a om₁ g f)) (hr₂ : Rescalable (retuned a om₂ g f)) (hbp : Azimuthless a.bpos) (hbn : Azimuthless a.bneg)
    {rho : ℕ → ℝ → ℝ → ℝ} (hrho : SurfaceIs a rho) (hsf : FairSurface a (node E a) (weight E a) (rho 0))
    (hk₁ : NonnegScattering (retuned a om₁ g f) (node E a)) (hk₂ : NonnegScattering (retuned a om₂ g f) (node E a))
    (hn₁ : NoNeglect (retuned a om₁ g f)) (hn₂ : NoNeglect (retuned a om₂ g f))
    {B : ℝ} (hB : 0 ≤ B) (hq0 : NonnegSources a (node E a)) (hq : BelowBlackbody a (node E a) (weight E a) (rho 0) B) {ε : ℝ}
    (hom : ∀ l < a.tauArr.n, |om₁.get l - om₂.get l| ≤ ε * (1 - om₁.get l)) {F₁ F₂ : Fields}
    (hF₁ : Evaluates (retuned a om₁ g f) R₁ F₁) (hF₂ : Evaluates (retuned a om₂ g f) R₂ F₂) :
    ∀ t, 0 ≤ t → t ≤ bottom a → (∀ i < 2 * nHalf a, |F₁.u0 t i - F₂.u0 t i| ≤ ε * B)
      ∧ |F₁.up t - F₂.up t| ≤ Real.pi * (ε * B) ∧ |F₁.diffuse t - F₂.diffuse t| ≤ Real.pi * (ε * B) :=
  C106_similar_optics h₁ h₂ hS₁ hS₂ hr₁ hr₂ hbp hbn hrho hsf hk₁ hk₂ hn₁ hn₂ hB hq0 hq
    (similarOptics_of_albedo (pydisort_ok h₁).1 (pydisort_ok h₂).1 hS₁.gauss hS₁.peak hk₁ hk₂ hn₁ hn₂ hom) hF₁ hF₂

/-! ### The hypotheses are met -/

section
variable {n : ℕ}

/-- The albedos of `demoWarm`, with `δ` less absorption in both layers. -/
noncomputable def nearOmega (δ : ℝ) : A1 ℝ := ⟨2, fun k => (if k = 0 then 1 / 2 else 3 / 4) + δ⟩

/-- `demoWarm` below a cold sky. -/
noncomputable def demoSky (n : ℕ) (B : ℝ) : Args := { demoWarm n B with bneg := .scalar 0 }

/-- `demoSky` with other albedos. -/
noncomputable def demoNear (n : ℕ) (B δ : ℝ) : Args := retuned (demoSky n B) (nearOmega δ) (demoSky n B).leg (demoSky n B).fArr

theorem demoNear_peak {B δ : ℝ} {l : ℕ} (hl : l < 2) : peak (demoNear n B δ) l = 1 / 8 := demo_peak (n := n) (x := 1) hl

theorem demoNear_wellPosed (hn : 0 < n) (B : ℝ) {δ : ℝ} (h0 : 0 ≤ δ) (h1 : δ < 1 / 4) : WellPosed refExt (demoNear n B δ) := by
  have hh : nHalf (demoNear n B δ) = n := demo_nHalf 1
  have hacc : Accepted (demoNear n B δ) :=
    { (demoWarm_wellPosed hn B).accepted with
      topBC := trivial
      omegaLen := rfl
      omega := by
        intro l _
        change 0 ≤ (if l = 0 then (1 / 2 : ℝ) else 3 / 4) + δ ∧ (if l = 0 then (1 / 2 : ℝ) else 3 / 4) + δ < 1
        constructor <;> split_ifs <;> linarith }
  refine wellPosed_of hacc (by rw [hh]; exact hn) ?_ ?_ (beamRegular_dark rfl _ _) (Or.inr ⟨1 / 3, by norm_num, rfl⟩) trivial trivial (Or.inr rfl) rfl
  · intro l hl
    rw [demoNear_peak hl]; norm_num
  · rw [hh]; simp [nLeg, demoNear, retuned, demoSky, demoWarm, demoMild, demo]

theorem demoNear_omega {B δ : ℝ} (h0 : 0 ≤ δ) (h1 : δ < 1 / 4) {l : ℕ} (hl : l < 2) : 1 / 4 ≤ omegaStar (demoNear n B δ) l := by
  unfold omegaStar scale
  rw [demoNear_peak hl]
  simp only [demoNear, retuned, nearOmega]
  split_ifs
  · rw [le_div_iff₀ (by linarith)]; linarith
  · rw [le_div_iff₀ (by linarith)]; linarith

theorem demoNear_scattering (hn : 0 < n) (B : ℝ) {δ : ℝ} (h0 : 0 ≤ δ) (h1 : δ < 1 / 4) :
    NonnegScattering (demoNear n B δ) (node refExt (demoNear n B δ)) := by
  have hg := (demoNear_wellPosed hn B h0 h1).gauss
  intro l hl i hi j hj
  unfold kernel
  split_ifs
  · refine mul_nonneg ?_ (demoMild_moment 1 hl (stream_abs_le hg hi) (stream_abs_le hg hj))
    have := demoNear_omega (n := n) (B := B) h0 h1 hl
    linarith
  · exact le_rfl

theorem demoNear_noNeglect (hn : 0 < n) (B : ℝ) {δ : ℝ} (h0 : 0 ≤ δ) (h1 : δ < 1 / 4) : NoNeglect (demoNear n B δ) := by
  refine fun l hl => Or.inr ⟨0, le_rfl, ?_, ?_⟩
  · simpa [nLeg, demoNear, retuned, demoSky, demoWarm, demoMild, demo] using hn
  · have h2 : legStar (demoNear n B δ) l 0 = 1 := by
      have := demoMild_legStar (n := n) 1 hl 0
      rwa [if_pos rfl] at this
    have := demoNear_omega (n := n) (B := B) h0 h1 hl
    rw [h2, abs_of_nonneg (by norm_num; linarith)]
    norm_num
    linarith

/-- The hypotheses of C106 are met for every number of streams and intensity, with albedos that differ. -/
example (hn : 0 < n) {B : ℝ} (hB : 0 < B) (J : Junk) : ∃ (a : Args) (om₁ om₂ : A1 ℝ) (g : A2 ℝ) (f : A1 ℝ) (rho : ℕ → ℝ → ℝ → ℝ) (R₁ R₂ : Solved)
    (F₁ F₂ : Fields), pydisort refExt J (retuned a om₁ g f) = .ok R₁ ∧ pydisort refExt J (retuned a om₂ g f) = .ok R₂
    ∧ Sound refExt (retuned a om₁ g f) ∧ Sound refExt (retuned a om₂ g f) ∧ Rescalable (retuned a om₁ g f) ∧ Rescalable (retuned a om₂ g f)
    ∧ Azimuthless a.bpos ∧ Azimuthless a.bneg ∧ SurfaceIs a rho ∧ FairSurface a (node refExt a) (weight refExt a) (rho 0)
    ∧ NonnegScattering (retuned a om₁ g f) (node refExt a) ∧ NonnegScattering (retuned a om₂ g f) (node refExt a)
    ∧ NoNeglect (retuned a om₁ g f) ∧ NoNeglect (retuned a om₂ g f) ∧ NonnegSources a (node refExt a)
    ∧ BelowBlackbody a (node refExt a) (weight refExt a) (rho 0) B
    ∧ (∀ l < a.tauArr.n, om₁.get l ≠ om₂.get l ∧ |om₁.get l - om₂.get l| ≤ 1 / 25 * (1 - om₁.get l))
    ∧ SimilarOptics (retuned a om₁ g f) (retuned a om₂ g f) (node refExt a) (weight refExt a) (1 / 25)
    ∧ Evaluates (retuned a om₁ g f) R₁ F₁ ∧ Evaluates (retuned a om₂ g f) R₂ F₂ := by
  have z0 : (0 : ℝ) < 1 / 4 := by norm_num
  have d0 : (0 : ℝ) ≤ 1 / 100 := by norm_num
  have d1 : (1 / 100 : ℝ) < 1 / 4 := by norm_num
  have w₁ := demoNear_wellPosed hn B le_rfl z0
  have w₂ := demoNear_wellPosed hn B d0 d1
  have r : ∀ δ, Rescalable (demoNear n B δ) := fun δ => Or.inl (Or.inr (Or.inl (show 0 < 2 / 3 * B by linarith)))
  obtain ⟨R₁, e₁⟩ := pydisort_isOk w₁ J
  obtain ⟨R₂, e₂⟩ := pydisort_isOk w₂ J
  obtain ⟨F₁, f₁⟩ := evaluates_exists e₁ w₁.sound (r _)
  obtain ⟨F₂, f₂⟩ := evaluates_exists e₂ w₂.sound (r _)
  have hi := demoWarm_isothermal hn B
  have hom : ∀ l < (demoSky n B).tauArr.n, (nearOmega 0).get l ≠ (nearOmega (1 / 100)).get l
      ∧ |(nearOmega 0).get l - (nearOmega (1 / 100)).get l| ≤ 1 / 25 * (1 - (nearOmega 0).get l) := by
    intro l _
    simp only [nearOmega]
    split_ifs <;> norm_num [abs_le]
  have hg : GaussContract refExt (nHalf (demoSky n B)) := w₁.gauss
  refine ⟨demoSky n B, nearOmega 0, nearOmega (1 / 100), (demoSky n B).leg, (demoSky n B).fArr, fun _ _ _ => 1 / 3, R₁, R₂, F₁, F₂, e₁, e₂, w₁.sound, w₂.sound,
    r _, r _, trivial, trivial, fun m _ => demo_rho (n := n) 1 m,
    ⟨(demoMild_surface (x := 1) hn).nonneg, (demoMild_surface (x := 1) hn).beam, (demoMild_surface (x := 1) hn).bounded⟩,
    demoNear_scattering hn B le_rfl z0, demoNear_scattering hn B d0 d1, demoNear_noNeglect hn B le_rfl z0, demoNear_noNeglect hn B d0 d1,
    ⟨fun l _ i _ => ?_, fun l hl t ht => ?_, fun i _ => ?_, fun i _ => ?_⟩,
    ⟨rfl, fun l hl t ht => (hi.inner l hl t ht).le, fun i h => ?_, fun i h => (hi.bottom i h).le⟩, hom,
    similarOptics_of_albedo w₁.accepted w₂.accepted hg w₁.peak (demoNear_scattering hn B le_rfl z0) (demoNear_scattering hn B d0 d1)
      (demoNear_noNeglect hn B le_rfl z0) (demoNear_noNeglect hn B d0 d1) fun l hl => (hom l hl).2, f₁, f₂⟩
  · unfold beamSource beamX
    rw [show (demoSky n B).I0 = 0 from rfl]; simp
  · rw [show source (demoSky n B) l t = B from hi.inner l hl t ht]; exact hB.le
  · simp [demoSky, bcVal]
  · simp [demoSky, demoWarm, bcVal]; linarith
  · simp [demoSky, bcVal]; exact hB.le

end

end Pydisort

import Verif.Spec.Reciprocity
import Verif.Props.Bounds

/-!
# C73, C74: reciprocity; no more light leaves the atmosphere than enters it

Specification used: `Spec.BoundaryOnly`, `Spec.response`, `Spec.LossySurface`.
-/

namespace Pydisort
open Finset Spec

variable {E : Ext} {J : Junk} {a : Args} {R : Solved}

/-- Exchange of two fields at one depth. -/
noncomputable def exchange (N : ℕ) (mu w : Vec) (u v : ℕ → ℝ) : ℝ :=
  ∑ i ∈ range N, w i * mu i * (u i * v (N + i) - u (N + i) * v i)

theorem antisymm_sum (N : ℕ) (f : ℕ → ℕ → ℝ) : ∑ i ∈ range N, ∑ j ∈ range N, (f i j - f j i) = 0 := by
  simp only [sum_sub_distrib]
  rw [sum_comm (f := fun i j => f j i), sub_self]

/-- Scattering does not change the exchange. -/
theorem scattering_exchange (a : Args) (mu w : Vec) (m l : ℕ) (u v : ℕ → ℝ) :
    ∑ i ∈ range (nHalf a), w i * (
      (u i - ∑ j ∈ range (2 * nHalf a), streamW (nHalf a) w j * kernel a m l (stream (nHalf a) mu i) (stream (nHalf a) mu j) * u j) * v (nHalf a + i)
      - u i * (v (nHalf a + i) - ∑ j ∈ range (2 * nHalf a), streamW (nHalf a) w j * kernel a m l (stream (nHalf a) mu (nHalf a + i)) (stream (nHalf a) mu j) * v j)
      + (u (nHalf a + i) - ∑ j ∈ range (2 * nHalf a), streamW (nHalf a) w j * kernel a m l (stream (nHalf a) mu (nHalf a + i)) (stream (nHalf a) mu j) * u j) * v i
      - u (nHalf a + i) * (v i - ∑ j ∈ range (2 * nHalf a), streamW (nHalf a) w j * kernel a m l (stream (nHalf a) mu i) (stream (nHalf a) mu j) * v j)) = 0 := by
  have hs : ∀ j < nHalf a, stream (nHalf a) mu j = mu j ∧ stream (nHalf a) mu (nHalf a + j) = -mu j ∧
      streamW (nHalf a) w j = w j ∧ streamW (nHalf a) w (nHalf a + j) = w j := by
    intro j hj
    refine ⟨if_pos hj, ?_, if_pos hj, ?_⟩
    · unfold stream; rw [if_neg (by omega), Nat.add_sub_cancel_left]
    · unfold streamW; rw [if_neg (by omega), Nat.add_sub_cancel_left]
  have hA : ∀ (x : ℝ) (f : ℕ → ℝ), ∑ j ∈ range (2 * nHalf a), streamW (nHalf a) w j * kernel a m l x (stream (nHalf a) mu j) * f j
      = ∑ j ∈ range (nHalf a), (w j * kernel a m l x (mu j) * f j + w j * kernel a m l x (-mu j) * f (nHalf a + j)) := by
    intro x f
    rw [sum_range_two_mul, ← sum_add_distrib]
    refine sum_congr rfl fun j hj => ?_
    obtain ⟨h1, h2, h3, h4⟩ := hs j (mem_range.1 hj)
    rw [h1, h2, h3, h4]
  set f : ℕ → ℕ → ℝ := fun i j => w i * w j * (
    kernel a m l (mu i) (mu j) * (u i * v (nHalf a + j) + u (nHalf a + i) * v j)
    + kernel a m l (mu i) (-mu j) * (u (nHalf a + i) * v (nHalf a + j) + u i * v j)) with hf
  rw [← antisymm_sum (nHalf a) f]
  refine sum_congr rfl fun i hi => ?_
  obtain ⟨h1, h2, -, -⟩ := hs i (mem_range.1 hi)
  rw [h1, h2, hA, hA, hA, hA]
  simp only [sub_mul, mul_sub, mul_sum, sum_mul]
  have hk : ∀ j, kernel a m l (-mu i) (mu j) = kernel a m l (mu i) (-mu j) ∧ kernel a m l (-mu i) (-mu j) = kernel a m l (mu i) (mu j)
      ∧ kernel a m l (mu j) (mu i) = kernel a m l (mu i) (mu j) ∧ kernel a m l (mu j) (-mu i) = kernel a m l (mu i) (-mu j) := by
    intro j
    have e1 : kernel a m l (-mu i) (mu j) = kernel a m l (mu i) (-mu j) := by
      have := kernel_neg_neg a m l (mu i) (-mu j)
      rwa [neg_neg] at this
    exact ⟨e1, kernel_neg_neg a m l (mu i) (mu j), kernel_symm a m l _ _, by rw [kernel_symm, e1]⟩
  have expand : ∀ j ∈ range (nHalf a), f i j - f j i =
      w i * (u i * (w j * kernel a m l (-mu i) (mu j) * v j + w j * kernel a m l (-mu i) (-mu j) * v (nHalf a + j)))
      - w i * ((w j * kernel a m l (mu i) (mu j) * u j + w j * kernel a m l (mu i) (-mu j) * u (nHalf a + j)) * v (nHalf a + i))
      + w i * (u (nHalf a + i) * (w j * kernel a m l (mu i) (mu j) * v j + w j * kernel a m l (mu i) (-mu j) * v (nHalf a + j)))
      - w i * ((w j * kernel a m l (-mu i) (mu j) * u j + w j * kernel a m l (-mu i) (-mu j) * u (nHalf a + j)) * v i) := by
    intro j _
    obtain ⟨k1, k2, k3, k4⟩ := hk j
    simp only [hf, k1, k2, k3, k4]
    ring
  rw [sum_congr rfl expand, sum_sub_distrib, sum_add_distrib, sum_sub_distrib]
  simp only [mul_sub, mul_add, mul_sum]
  ring_nf

theorem const_of_deriv_zero {f : ℝ → ℝ} {p q : ℝ} (h : p < q) (hc : ContinuousOn f (Set.Icc p q)) (hd : ∀ t, p < t → t < q → HasDerivAt f 0 t) :
    f p = f q := by
  obtain ⟨c, hc1, hc2⟩ := exists_hasDerivAt_eq_slope f (fun _ => 0) h hc fun t ht => hd t ht.1 ht.2
  rw [eq_div_iff (by linarith)] at hc2
  linarith

/-- How the exchange of two fields changes inside a layer with isotropic sources `q₁`, `q₂`. -/
theorem exchange_deriv {mu w : Vec} {m l : ℕ} {V₁ V₂ : ℝ → ℕ → ℝ} {t : ℝ} {d₁ d₂ : ℕ → ℝ} {q₁ q₂ : ℝ}
    (g₁ : ∀ i < 2 * nHalf a, HasDerivAt (fun x => V₁ x i) (d₁ i) t) (g₂ : ∀ i < 2 * nHalf a, HasDerivAt (fun x => V₂ x i) (d₂ i) t)
    (k₁ : ∀ i < 2 * nHalf a, stream (nHalf a) mu i * d₁ i = scale a l * (V₁ t i - ∑ j ∈ range (2 * nHalf a), streamW (nHalf a) w j
        * kernel a m l (stream (nHalf a) mu i) (stream (nHalf a) mu j) * V₁ t j) - q₁)
    (k₂ : ∀ i < 2 * nHalf a, stream (nHalf a) mu i * d₂ i = scale a l * (V₂ t i - ∑ j ∈ range (2 * nHalf a), streamW (nHalf a) w j
        * kernel a m l (stream (nHalf a) mu i) (stream (nHalf a) mu j) * V₂ t j) - q₂) :
    HasDerivAt (fun t => exchange (nHalf a) mu w (V₁ t) (V₂ t))
      (q₂ * ∑ i ∈ range (nHalf a), w i * (V₁ t i + V₁ t (nHalf a + i)) - q₁ * ∑ i ∈ range (nHalf a), w i * (V₂ t i + V₂ t (nHalf a + i))) t := by
  have hD : HasDerivAt (fun t => exchange (nHalf a) mu w (V₁ t) (V₂ t)) (∑ i ∈ range (nHalf a), w i * mu i *
      ((d₁ i * V₂ t (nHalf a + i) + V₁ t i * d₂ (nHalf a + i)) - (d₁ (nHalf a + i) * V₂ t i + V₁ t (nHalf a + i) * d₂ i))) t := by
    unfold exchange
    refine HasDerivAt.fun_sum fun i hi => ?_
    have hi' := mem_range.1 hi
    have c1 := g₁ i (by change i < 2 * nHalf a; omega)
    have c2 := g₁ (nHalf a + i) (by change _ < 2 * nHalf a; omega)
    have c3 := g₂ i (by change i < 2 * nHalf a; omega)
    have c4 := g₂ (nHalf a + i) (by change _ < 2 * nHalf a; omega)
    exact ((c1.fun_mul c4).fun_sub (c2.fun_mul c3)).const_mul _
  refine hD.congr_deriv ?_
  have hz := scattering_exchange a mu w m l (V₁ t) (V₂ t)
  have : ∀ i ∈ range (nHalf a), w i * mu i *
      ((d₁ i * V₂ t (nHalf a + i) + V₁ t i * d₂ (nHalf a + i)) - (d₁ (nHalf a + i) * V₂ t i + V₁ t (nHalf a + i) * d₂ i))
    = scale a l * (w i * (
      (V₁ t i - ∑ j ∈ range (2 * nHalf a), streamW (nHalf a) w j * kernel a m l (stream (nHalf a) mu i) (stream (nHalf a) mu j) * V₁ t j) * V₂ t (nHalf a + i)
      - V₁ t i * (V₂ t (nHalf a + i) - ∑ j ∈ range (2 * nHalf a), streamW (nHalf a) w j * kernel a m l (stream (nHalf a) mu (nHalf a + i)) (stream (nHalf a) mu j) * V₂ t j)
      + (V₁ t (nHalf a + i) - ∑ j ∈ range (2 * nHalf a), streamW (nHalf a) w j * kernel a m l (stream (nHalf a) mu (nHalf a + i)) (stream (nHalf a) mu j) * V₁ t j) * V₂ t i
      - V₁ t (nHalf a + i) * (V₂ t i - ∑ j ∈ range (2 * nHalf a), streamW (nHalf a) w j * kernel a m l (stream (nHalf a) mu i) (stream (nHalf a) mu j) * V₂ t j)))
        + (q₂ * (w i * (V₁ t i + V₁ t (nHalf a + i))) - q₁ * (w i * (V₂ t i + V₂ t (nHalf a + i)))) := by
    intro i hi
    have hi' := mem_range.1 hi
    have x1 := k₁ i (by omega)
    have x2 := k₁ (nHalf a + i) (by omega)
    have x3 := k₂ i (by omega)
    have x4 := k₂ (nHalf a + i) (by omega)
    have s1 : stream (nHalf a) mu i = mu i := if_pos hi'
    have s2 : stream (nHalf a) mu (nHalf a + i) = -mu i := by unfold stream; rw [if_neg (by omega), Nat.add_sub_cancel_left]
    generalize (∑ j ∈ range (2 * nHalf a), streamW (nHalf a) w j * kernel a m l (stream (nHalf a) mu i) (stream (nHalf a) mu j) * V₁ t j) = A1 at x1 ⊢
    generalize (∑ j ∈ range (2 * nHalf a), streamW (nHalf a) w j * kernel a m l (stream (nHalf a) mu (nHalf a + i)) (stream (nHalf a) mu j) * V₁ t j) = A2 at x2 ⊢
    generalize (∑ j ∈ range (2 * nHalf a), streamW (nHalf a) w j * kernel a m l (stream (nHalf a) mu i) (stream (nHalf a) mu j) * V₂ t j) = A3 at x3 ⊢
    generalize (∑ j ∈ range (2 * nHalf a), streamW (nHalf a) w j * kernel a m l (stream (nHalf a) mu (nHalf a + i)) (stream (nHalf a) mu j) * V₂ t j) = A4 at x4 ⊢
    rw [s1] at x1 x3
    rw [s2] at x2 x4
    linear_combination w i * V₂ t (nHalf a + i) * x1 - w i * V₁ t i * x4 + w i * V₂ t i * x2 - w i * V₁ t (nHalf a + i) * x3
  rw [sum_congr rfl this, sum_add_distrib, ← mul_sum, hz, mul_zero, zero_add, sum_sub_distrib, ← mul_sum, ← mul_sum]

/-- The exchange of two solutions is the same at the top and at the bottom. -/
theorem exchange_const {S₁ S₂ : Sources} (hacc : Accepted (under a S₁)) {mu w : Vec} {rho₁ rho₂ : ℝ → ℝ → ℝ} {m : ℕ}
    (hb₁ : BoundaryOnly a S₁) (hb₂ : BoundaryOnly a S₂) {V₁ V₂ : ℝ → ℕ → ℝ} (h₁ : IsSolution (under a S₁) mu w rho₁ m V₁)
    (h₂ : IsSolution (under a S₂) mu w rho₂ m V₂) :
    exchange (nHalf a) mu w (V₁ 0) (V₂ 0) = exchange (nHalf a) mu w (V₁ (bottom a)) (V₂ (bottom a)) := by
  have hcont : ContinuousOn (fun t => exchange (nHalf a) mu w (V₁ t) (V₂ t)) (Set.Icc 0 (bottom a)) := by
    unfold exchange
    refine continuousOn_finset_sum _ fun i hi => ?_
    have hi' := mem_range.1 hi
    have c1 : ContinuousOn (fun t => V₁ t i) (Set.Icc 0 (bottom a)) := h₁.cont i (by change i < 2 * nHalf a; omega)
    have c2 : ContinuousOn (fun t => V₁ t (nHalf a + i)) (Set.Icc 0 (bottom a)) := h₁.cont _ (by change _ < 2 * nHalf a; omega)
    have c3 : ContinuousOn (fun t => V₂ t i) (Set.Icc 0 (bottom a)) := h₂.cont i (by change i < 2 * nHalf a; omega)
    have c4 : ContinuousOn (fun t => V₂ t (nHalf a + i)) (Set.Icc 0 (bottom a)) := h₂.cont _ (by change _ < 2 * nHalf a; omega)
    exact continuousOn_const.mul ((c1.mul c4).sub (c2.mul c3))
  have hder : ∀ l < a.tauArr.n, ∀ t, bdry a.tauArr.get l < t → t < bdry a.tauArr.get (l + 1) →
      HasDerivAt (fun t => exchange (nHalf a) mu w (V₁ t) (V₂ t)) 0 t := by
    intro l hl t ht0 ht1
    have hin : InLayer a l t := ⟨ht0.le, ht1.le⟩
    choose! d₁ g₁ e₁ using h₁.ode l hl t ht0 ht1
    choose! d₂ g₂ e₂ using h₂.ode l hl t ht0 ht1
    have k₁ : ∀ i < 2 * nHalf a, stream (nHalf a) mu i * d₁ i = scale a l * (V₁ t i - ∑ j ∈ range (2 * nHalf a), streamW (nHalf a) w j
        * kernel a m l (stream (nHalf a) mu i) (stream (nHalf a) mu j) * V₁ t j) := by
      intro i hi
      have := e₁ i hi
      change stream (nHalf a) mu i * d₁ i = _ at this
      rw [this, rteUser_under, hb₁.noBeam, hb₁.noSource l hl t hin]
      simp
    have k₂ : ∀ i < 2 * nHalf a, stream (nHalf a) mu i * d₂ i = scale a l * (V₂ t i - ∑ j ∈ range (2 * nHalf a), streamW (nHalf a) w j
        * kernel a m l (stream (nHalf a) mu i) (stream (nHalf a) mu j) * V₂ t j) := by
      intro i hi
      have := e₂ i hi
      change stream (nHalf a) mu i * d₂ i = _ at this
      rw [this, rteUser_under, hb₂.noBeam, hb₂.noSource l hl t hin]
      simp
    exact (exchange_deriv (a := a) (q₁ := 0) (q₂ := 0) g₁ g₂ (fun i hi => by rw [k₁ i hi, sub_zero]) (fun i hi => by rw [k₂ i hi, sub_zero])).congr_deriv (by ring)
  have hstep : ∀ l ≤ a.tauArr.n, exchange (nHalf a) mu w (V₁ (bdry a.tauArr.get 0)) (V₂ (bdry a.tauArr.get 0))
      = exchange (nHalf a) mu w (V₁ (bdry a.tauArr.get l)) (V₂ (bdry a.tauArr.get l)) := by
    intro l
    induction l with
    | zero => intro _; rfl
    | succ l ih =>
      intro hl
      rw [ih (by omega)]
      have hb0 : bdry a.tauArr.get 0 ≤ bdry a.tauArr.get l := bdry_le hacc (Nat.zero_le l) (show l ≤ a.tauArr.n by omega)
      have hb1 : bdry a.tauArr.get (l + 1) ≤ bdry a.tauArr.get a.tauArr.n := bdry_le hacc hl le_rfl
      have hb2 : bdry a.tauArr.get a.tauArr.n = bottom a := bdry_bottom (a := under a S₁) hacc
      rw [bdry_zero] at hb0
      rw [hb2] at hb1
      exact const_of_deriv_zero (f := fun t => exchange (nHalf a) mu w (V₁ t) (V₂ t)) (bdry_lt hacc (show l < a.tauArr.n by omega))
        (hcont.mono (Set.Icc_subset_Icc hb0 hb1)) (hder l (by omega))
  have hfin := hstep a.tauArr.n le_rfl
  rw [bdry_zero, show bdry a.tauArr.get a.tauArr.n = bottom a from bdry_bottom (a := under a S₁) hacc] at hfin
  exact hfin

/-- The exchange at the two boundaries in terms of the illumination. -/
theorem exchange_ends {S₁ S₂ : Sources} {mu w : Vec} {rho : ℝ → ℝ → ℝ}
    (hsym : ∀ i < nHalf a, ∀ j < nHalf a, rho (mu i) (mu j) = rho (mu j) (mu i)) (n₁ : S₁.I0 = 0) (n₂ : S₂.I0 = 0)
    {V₁ V₂ : ℝ → ℕ → ℝ} (s₁ : IsSolution (under a S₁) mu w rho 0 V₁) (s₂ : IsSolution (under a S₂) mu w rho 0 V₂) :
    exchange (nHalf a) mu w (V₁ (bottom a)) (V₂ (bottom a)) - exchange (nHalf a) mu w (V₁ 0) (V₂ 0)
      = response a mu w S₁ V₂ - response a mu w S₂ V₁ := by
  have t₁ : ∀ i < nHalf a, V₁ 0 (nHalf a + i) = bcVal S₁.bneg 0 i := s₁.top
  have t₂ : ∀ i < nHalf a, V₂ 0 (nHalf a + i) = bcVal S₂.bneg 0 i := s₂.top
  have b₁ : ∀ i < nHalf a, V₁ (bottom a) i = bcVal S₁.bpos 0 i + if 0 < a.bdrf.length then
      2 * ∑ j ∈ range (nHalf a), w j * mu j * rho (mu i) (mu j) * V₁ (bottom a) (nHalf a + j) else 0 := by
    intro i hi
    have := s₁.bot i hi
    change V₁ (bottom a) i = bcVal S₁.bpos 0 i + (if 0 < a.bdrf.length then ((1 + if 0 = 0 then 1 else 0) * ∑ j ∈ range (nHalf a), w j * mu j * rho (mu i) (mu j) * V₁ (bottom a) (nHalf a + j)
        + a.mu0 * S₁.I0 / Real.pi * rho (mu i) a.mu0 * Real.exp (-bdryStar a a.tauArr.n / a.mu0)) else 0) at this
    rw [this, if_pos rfl, n₁, one_add_one_eq_two]
    simp only [mul_zero, zero_div, zero_mul, add_zero]
  have b₂ : ∀ i < nHalf a, V₂ (bottom a) i = bcVal S₂.bpos 0 i + if 0 < a.bdrf.length then
      2 * ∑ j ∈ range (nHalf a), w j * mu j * rho (mu i) (mu j) * V₂ (bottom a) (nHalf a + j) else 0 := by
    intro i hi
    have := s₂.bot i hi
    change V₂ (bottom a) i = bcVal S₂.bpos 0 i + (if 0 < a.bdrf.length then ((1 + if 0 = 0 then 1 else 0) * ∑ j ∈ range (nHalf a), w j * mu j * rho (mu i) (mu j) * V₂ (bottom a) (nHalf a + j)
        + a.mu0 * S₂.I0 / Real.pi * rho (mu i) a.mu0 * Real.exp (-bdryStar a a.tauArr.n / a.mu0)) else 0) at this
    rw [this, if_pos rfl, n₂, one_add_one_eq_two]
    simp only [mul_zero, zero_div, zero_mul, add_zero]
  -- the surface exchanges nothing
  have hsurf : ∑ i ∈ range (nHalf a), w i * mu i * ((if 0 < a.bdrf.length then
        2 * ∑ j ∈ range (nHalf a), w j * mu j * rho (mu i) (mu j) * V₁ (bottom a) (nHalf a + j) else 0) * V₂ (bottom a) (nHalf a + i)
      - V₁ (bottom a) (nHalf a + i) * (if 0 < a.bdrf.length then
        2 * ∑ j ∈ range (nHalf a), w j * mu j * rho (mu i) (mu j) * V₂ (bottom a) (nHalf a + j) else 0)) = 0 := by
    by_cases hl : 0 < a.bdrf.length
    · simp only [if_pos hl]
      rw [← antisymm_sum (nHalf a) (fun i j => 2 * (w i * mu i * (w j * mu j) * rho (mu i) (mu j) * V₁ (bottom a) (nHalf a + j) * V₂ (bottom a) (nHalf a + i)))]
      refine sum_congr rfl fun i hi => ?_
      simp only [mul_sub, mul_sum, sum_mul]
      rw [← sum_sub_distrib]
      refine sum_congr rfl fun j hj => ?_
      rw [hsym j (mem_range.1 hj) i (mem_range.1 hi)]
      ring
    · simp [if_neg hl]
  unfold exchange response
  have e1 : ∑ i ∈ range (nHalf a), w i * mu i * (V₁ 0 i * V₂ 0 (nHalf a + i) - V₁ 0 (nHalf a + i) * V₂ 0 i)
      = ∑ i ∈ range (nHalf a), w i * mu i * (bcVal S₂.bneg 0 i * V₁ 0 i - bcVal S₁.bneg 0 i * V₂ 0 i) :=
    sum_congr rfl fun i hi => by
      have hi' := mem_range.1 hi
      rw [t₁ i hi', t₂ i hi']; ring
  have e2 : ∑ i ∈ range (nHalf a), w i * mu i * (V₁ (bottom a) i * V₂ (bottom a) (nHalf a + i) - V₁ (bottom a) (nHalf a + i) * V₂ (bottom a) i)
      = ∑ i ∈ range (nHalf a), w i * mu i * (bcVal S₁.bpos 0 i * V₂ (bottom a) (nHalf a + i) - bcVal S₂.bpos 0 i * V₁ (bottom a) (nHalf a + i)) := by
    rw [← add_zero (∑ i ∈ range (nHalf a), w i * mu i * (bcVal S₁.bpos 0 i * V₂ (bottom a) (nHalf a + i) - bcVal S₂.bpos 0 i * V₁ (bottom a) (nHalf a + i))),
      ← hsurf, ← sum_add_distrib]
    refine sum_congr rfl fun i hi => ?_
    have hi' := mem_range.1 hi
    rw [b₁ i hi', b₂ i hi']; ring
  rw [e1, e2, ← sum_sub_distrib, ← sum_sub_distrib]
  exact sum_congr rfl fun i _ => by ring

theorem response_congr {S : Sources} {mu w : Vec} {u v : ℝ → ℕ → ℝ} (h0 : ∀ i < nHalf a, u 0 i = v 0 i)
    (h1 : ∀ i < nHalf a, u (bottom a) (nHalf a + i) = v (bottom a) (nHalf a + i)) : response a mu w S u = response a mu w S v :=
  sum_congr rfl fun i hi => by rw [h0 i (mem_range.1 hi), h1 i (mem_range.1 hi)]

/-- **C73.** Reciprocity: two calls with the same atmosphere and a surface with symmetric BDRF, under illumination of the boundaries. What the first
illumination would detect of the second field equals what the second illumination would detect of the first field. -/
theorem C73_reciprocity {S₁ S₂ : Sources} {J₁ J₂ : Junk} {R₁ R₂ : Solved} (h₁ : pydisort E J₁ (under a S₁) = .ok R₁)
    (h₂ : pydisort E J₂ (under a S₂) = .ok R₂) (hS₁ : Sound E (under a S₁)) (hS₂ : Sound E (under a S₂)) (hr₁ : Rescalable (under a S₁))
    (hr₂ : Rescalable (under a S₂)) (hp₁ : Azimuthless S₁.bpos) (hn₁ : Azimuthless S₁.bneg) (hp₂ : Azimuthless S₂.bpos)
    (hn₂ : Azimuthless S₂.bneg) {rho : ℕ → ℝ → ℝ → ℝ} (hrho : SurfaceIs a rho)
    (hsym : ∀ i < nHalf a, ∀ j < nHalf a, rho 0 (node E a i) (node E a j) = rho 0 (node E a j) (node E a i))
    (hb₁ : BoundaryOnly a S₁) (hb₂ : BoundaryOnly a S₂)
    {F₁ F₂ : Fields} (hF₁ : Evaluates (under a S₁) R₁ F₁) (hF₂ : Evaluates (under a S₂) R₂ F₂) :
    response a (node E a) (weight E a) S₁ F₂.u0 = response a (node E a) (weight E a) S₂ F₁.u0 := by
  obtain ⟨U₁, hU₁, _⟩ := C02_modes_solve_transfer_equation h₁ hS₁ hr₁
  obtain ⟨U₂, hU₂, _⟩ := C02_modes_solve_transfer_equation h₂ hS₂ hr₂
  have hacc₁ := (pydisort_ok h₁).1
  have s₁ := modes_isSolution h₁ hS₁ hr₁ hp₁ hn₁ hrho hU₁ (nFourier_pos h₁ hS₁)
  have s₂ := modes_isSolution h₂ hS₂ hr₂ hp₂ hn₂ hrho hU₂ (nFourier_pos h₂ hS₂)
  have hbpos : 0 ≤ bottom a := (bottom_pos hacc₁).le
  have key := exchange_const hacc₁ hb₁ hb₂ s₁ s₂
  change exchange (nHalf a) (node E a) (weight E a) _ _ = exchange (nHalf a) (node E a) (weight E a) _ _ at key
  have x₁ := (evaluates_unique hF₁ (evaluates h₁ hr₁ hU₁) (t := 0) le_rfl hbpos).1
  have x₂ := (evaluates_unique hF₂ (evaluates h₂ hr₂ hU₂) (t := 0) le_rfl hbpos).1
  have y₁ := (evaluates_unique hF₁ (evaluates h₁ hr₁ hU₁) (t := bottom a) hbpos le_rfl).1
  have y₂ := (evaluates_unique hF₂ (evaluates h₂ hr₂ hU₂) (t := bottom a) hbpos le_rfl).1
  change ∀ i < 2 * nHalf a, F₁.u0 0 i = U₁ 0 0 i at x₁
  change ∀ i < 2 * nHalf a, F₂.u0 0 i = U₂ 0 0 i at x₂
  change ∀ i < 2 * nHalf a, F₁.u0 (bottom a) i = U₁ 0 (bottom a) i at y₁
  change ∀ i < 2 * nHalf a, F₂.u0 (bottom a) i = U₂ 0 (bottom a) i at y₂
  have hend := exchange_ends hsym hb₁.noBeam hb₂.noBeam s₁ s₂
  change exchange (nHalf a) (node E a) (weight E a) _ _ - exchange (nHalf a) (node E a) (weight E a) _ _
    = response a (node E a) (weight E a) S₁ _ - response a (node E a) (weight E a) S₂ _ at hend
  rw [response_congr (fun i hi => x₂ i (by omega)) (fun i hi => y₂ _ (by omega)), response_congr (fun i hi => x₁ i (by omega)) (fun i hi => y₁ _ (by omega)),
    ← sub_eq_zero, ← hend, key, sub_self]

section
variable {n : ℕ}

/-- The hypotheses are met: uniform illumination from above, and illumination by the surface, which also reflects. -/
example (hn : 0 < n) (J : Junk) : ∃ (S₁ S₂ : Sources) (R₁ R₂ : Solved) (F₁ F₂ : Fields),
    pydisort refExt J (under (demo n 1) S₁) = .ok R₁ ∧ pydisort refExt J (under (demo n 1) S₂) = .ok R₂
    ∧ (∀ S, S = S₁ ∨ S = S₂ → Sound refExt (under (demo n 1) S) ∧ Rescalable (under (demo n 1) S) ∧ Azimuthless S.bpos ∧ Azimuthless S.bneg
      ∧ BoundaryOnly (demo n 1) S)
    ∧ SurfaceIs (demo n 1) (fun _ _ _ => 1 / 3) ∧ Evaluates (under (demo n 1) S₁) R₁ F₁ ∧ Evaluates (under (demo n 1) S₂) R₂ F₂ := by
  have hd : demoDark n = { demo n 1 with I0 := 0 } := rfl
  set S₁ : Sources := ⟨0, .scalar 0, .scalar 1, ⟨2, 1, fun _ _ => 0⟩⟩ with hS₁
  set S₂ : Sources := ⟨0, .scalar 1, .scalar 0, ⟨2, 1, fun _ _ => 0⟩⟩ with hS₂
  have w₁ : WellPosed refExt (under (demo n 1) S₁) :=
    wellPosed_under (a := demoDark n) (demoDark_wellPosed hn) le_rfl (fun h => absurd h (lt_irrefl _)) trivial trivial trivial trivial rfl
  have w₂ : WellPosed refExt (under (demo n 1) S₂) :=
    wellPosed_under (a := demoDark n) (demoDark_wellPosed hn) le_rfl (fun h => absurd h (lt_irrefl _)) trivial trivial trivial trivial rfl
  have r₁ : Rescalable (under (demo n 1) S₁) := Or.inl (Or.inr (Or.inr (Or.inl one_pos)))
  have r₂ : Rescalable (under (demo n 1) S₂) := Or.inl (Or.inr (Or.inl one_pos))
  obtain ⟨R₁, e₁⟩ := pydisort_isOk w₁ J
  obtain ⟨R₂, e₂⟩ := pydisort_isOk w₂ J
  obtain ⟨F₁, f₁⟩ := evaluates_exists e₁ w₁.sound r₁
  obtain ⟨F₂, f₂⟩ := evaluates_exists e₂ w₂.sound r₂
  refine ⟨S₁, S₂, R₁, R₂, F₁, F₂, e₁, e₂, ?_, fun m _ => demo_rho (n := n) 1 m, f₁, f₂⟩
  rintro S (rfl | rfl)
  · exact ⟨w₁.sound, r₁, trivial, trivial, rfl, fun l _ t _ => by simp [source, under, hS₁]⟩
  · exact ⟨w₂.sound, r₂, trivial, trivial, rfl, fun l _ t _ => by simp [source, under, hS₂]⟩

end

/-! ## C74 -/

/-- Inside a layer the net flux of a non-negative field without internal sources does not decrease. -/
theorem net_layer (h : pydisort E J a = .ok R) (hS : Sound E a) (hres : Rescalable a)
    (hpos : ∀ F, Evaluates a R F → ∀ t, 0 ≤ t → t ≤ bottom a → ∀ i < 2 * nHalf a, 0 ≤ F.u0 t i)
    (hns : ∀ l < a.tauArr.n, ∀ t, InLayer a l t → source a l t = 0) {F : Fields} (hF : Evaluates a R F) {l : ℕ} (hl : l < a.tauArr.n) :
    MonotoneOn (fun t => F.up t - F.diffuse t - F.direct t) (Set.Icc (bdry a.tauArr.get l) (bdry a.tauArr.get (l + 1))) := by
  have hacc := (pydisort_ok h).1
  obtain ⟨U, hU, _⟩ := C02_modes_solve_transfer_equation h hS hres
  have hb0 : 0 ≤ bdry a.tauArr.get l := by
    have := bdry_le hacc (Nat.zero_le l) hl.le
    rwa [bdry_zero] at this
  have hb1 : bdry a.tauArr.get (l + 1) ≤ bottom a := by
    have := bdry_le hacc (show l + 1 ≤ a.tauArr.n by omega) le_rfl
    rwa [bdry_bottom hacc] at this
  have hnet : ∀ t ∈ Set.Icc (bdry a.tauArr.get l) (bdry a.tauArr.get (l + 1)), F.up t - F.diffuse t - F.direct t
      = hemiFlux a (node E a) (weight E a) (fun i => U 0 t i) - hemiFlux a (node E a) (weight E a) (fun i => U 0 t (nHalf a + i))
        - a.I0 * a.mu0 * Real.exp (-tauStar a l t / a.mu0) := by
    intro t ht
    obtain ⟨-, e2, e3, e4⟩ := evaluates_unique hF (evaluates h hres hU) (hb0.trans ht.1) (ht.2.trans hb1)
    rw [e2, e3, e4]
    obtain ⟨x1, x2⟩ := layOf_spec hacc (hb0.trans ht.1) (ht.2.trans hb1)
    simp only [fieldsOf, tauStar_layers hacc x1 hl x2 ht]
    ring
  have hcU : ∀ i < 2 * nHalf a, ContinuousOn (fun t => U 0 t i) (Set.Icc (bdry a.tauArr.get l) (bdry a.tauArr.get (l + 1))) := fun i hi =>
    (C05_continuous_across_layers h hS hres hU 0 (nFourier_pos h hS) i hi).mono (Set.Icc_subset_Icc hb0 hb1)
  refine monotoneOn_of_deriv_nonneg (convex_Icc _ _) ?_ ?_ ?_
  · refine ContinuousOn.congr ?_ hnet
    unfold hemiFlux tauStar
    refine ContinuousOn.sub (ContinuousOn.sub (continuousOn_const.mul (continuousOn_finset_sum _ fun i hi => ?_))
      (continuousOn_const.mul (continuousOn_finset_sum _ fun i hi => ?_))) (by fun_prop)
    · exact continuousOn_const.mul (hcU i (by have := mem_range.1 hi; omega))
    · exact continuousOn_const.mul (hcU _ (by have := mem_range.1 hi; omega))
  all_goals
    obtain ⟨up, diffuse, direct, u, hev, hder⟩ := C11_energy_balance h hS hres
    have hud : Evaluates a R ⟨u, up, diffuse, direct, F.u⟩ :=
      ⟨fun tau ht => (hev tau ht).2.2, fun tau ht => (hev tau ht).1, fun tau ht => (hev tau ht).2.1, hF.u⟩
    have hD : ∀ t, bdry a.tauArr.get l < t → t < bdry a.tauArr.get (l + 1) →
        HasDerivAt (fun t => F.up t - F.diffuse t - F.direct t)
          (scale a l * (1 - effAlbedo a l) * (actinic a (weight E a) (u t) + a.I0 * Real.exp (-tauStar a l t / a.mu0))
            - 4 * Real.pi * (1 - a.omega.get l) * source a l t) t := by
      intro t h1 h2
      refine (hder l hl t h1 h2).congr_of_eventuallyEq ?_
      filter_upwards [Ioo_mem_nhds h1 h2] with x hx
      obtain ⟨-, e2, e3, e4⟩ := evaluates_unique hF hud (hb0.trans hx.1.le) (hx.2.le.trans hb1)
      rw [e2, e3, e4]
  · intro t ht
    rw [interior_Icc] at ht
    exact (hD t ht.1 ht.2).differentiableAt.differentiableWithinAt
  · intro t ht
    rw [interior_Icc] at ht
    rw [(hD t ht.1 ht.2).deriv, hns l hl t ⟨ht.1.le, ht.2.le⟩, mul_zero, sub_zero]
    have x1 := (effAlbedo_range hacc hl (hS.peak l hl)).2.1
    have x2 := Args.scale_pos hacc hl
    have x3 : 0 ≤ actinic a (weight E a) (u t) := by
      unfold actinic
      refine mul_nonneg (by positivity) (sum_nonneg fun i hi => ?_)
      have hi' := mem_range.1 hi
      refine mul_nonneg ?_ (hpos _ hud t (hb0.trans ht.1.le) (ht.2.le.trans hb1) i hi')
      unfold streamW; split_ifs <;> exact (weight_pos hS.gauss (by omega)).le
    exact mul_nonneg (mul_nonneg x2.le (by linarith)) (add_nonneg x3 (mul_nonneg hacc.beam (Real.exp_pos _).le))

/-- **C74, absorption.** Without internal emission, and with non-negative scattering, illumination and surface, the net upward flux does not decrease with
depth: every slab absorbs at least nothing. -/
theorem C74_net_flux_monotone (h : pydisort E J a = .ok R) (hS : Sound E a) (hres : Rescalable a) (hbp : Azimuthless a.bpos) (hbn : Azimuthless a.bneg)
    {rho : ℕ → ℝ → ℝ → ℝ} (hrho : SurfaceIs a rho) (hsf : FairSurface a (node E a) (weight E a) (rho 0)) (hk : NonnegScattering a (node E a))
    (hq : NonnegSources a (node E a)) (hns : ∀ l < a.tauArr.n, ∀ t, InLayer a l t → source a l t = 0) {F : Fields} (hF : Evaluates a R F) :
    ∀ t t', 0 ≤ t → t ≤ t' → t' ≤ bottom a → F.up t - (F.diffuse t + F.direct t) ≤ F.up t' - (F.diffuse t' + F.direct t') := by
  have hacc := (pydisort_ok h).1
  have hpos : ∀ F, Evaluates a R F → ∀ t, 0 ≤ t → t ≤ bottom a → ∀ i < 2 * nHalf a, 0 ≤ F.u0 t i := fun F hF t h0 h1 =>
    (C71_nonneg h hS hres hbp hbn hrho hsf hk hq hF t h0 h1).1
  have hmono : ∀ l < a.tauArr.n, _ := fun l hl => net_layer h hS hres hpos hns hF (l := l) hl
  have hall : ∀ l ≤ a.tauArr.n, MonotoneOn (fun t => F.up t - F.diffuse t - F.direct t) (Set.Icc 0 (bdry a.tauArr.get l)) := by
    intro l
    induction l with
    | zero =>
      intro _ x hx y hy _
      rw [bdry_zero] at hx hy
      rw [le_antisymm hx.2 hx.1, le_antisymm hy.2 hy.1]
    | succ l ih =>
      intro hl x hx y hy hxy
      have h1 := ih (by omega)
      have h2 := hmono l (by omega)
      have hb0 : 0 ≤ bdry a.tauArr.get l := by
        have := bdry_le hacc (Nat.zero_le l) (show l ≤ a.tauArr.n by omega)
        rwa [bdry_zero] at this
      have hb := bdry_lt hacc (l := l) (by omega)
      rcases le_total y (bdry a.tauArr.get l) with hyl | hyl
      · exact h1 ⟨hx.1, hxy.trans hyl⟩ ⟨hy.1, hyl⟩ hxy
      · rcases le_total x (bdry a.tauArr.get l) with hxl | hxl
        · exact (h1 ⟨hx.1, hxl⟩ ⟨hb0, le_rfl⟩ hxl).trans (h2 ⟨le_rfl, hb.le⟩ ⟨hyl, hy.2⟩ hyl)
        · exact h2 ⟨hxl, hx.2⟩ ⟨hyl, hy.2⟩ hxy
  intro t t' h0 h1 h2
  have := hall a.tauArr.n le_rfl
  rw [bdry_bottom hacc] at this
  have := this ⟨h0, h1.trans h2⟩ ⟨h0.trans h1, h2⟩ h1
  simp only at this
  linarith

/-- **C74.** If moreover the surface emits nothing and returns at most what it receives, then at every depth no more light goes up than comes down; at the
top: the atmosphere returns at most the illumination it receives. -/
theorem C74_no_more_up_than_down (h : pydisort E J a = .ok R) (hS : Sound E a) (hres : Rescalable a) (hbp : Azimuthless a.bpos) (hbn : Azimuthless a.bneg)
    {rho : ℕ → ℝ → ℝ → ℝ} (hrho : SurfaceIs a rho) (hsf : FairSurface a (node E a) (weight E a) (rho 0)) (hk : NonnegScattering a (node E a))
    (hq : NonnegSources a (node E a)) (hns : ∀ l < a.tauArr.n, ∀ t, InLayer a l t → source a l t = 0) (hne : ∀ i < nHalf a, bcVal a.bpos 0 i = 0)
    (hls : LossySurface a (node E a) (weight E a) (rho 0)) {F : Fields} (hF : Evaluates a R F) :
    ∀ t, 0 ≤ t → t ≤ bottom a → F.up t ≤ F.diffuse t + F.direct t := by
  intro t h0 h1
  have hacc := (pydisort_ok h).1
  have hmono := C74_net_flux_monotone h hS hres hbp hbn hrho hsf hk hq hns hF t (bottom a) h0 h1 le_rfl
  suffices hb : F.up (bottom a) - (F.diffuse (bottom a) + F.direct (bottom a)) ≤ 0 by linarith
  obtain ⟨U, hU, _⟩ := C02_modes_solve_transfer_equation h hS hres
  have hpos := solution_nonneg hacc hS.gauss hS.peak hk hsf hq
    (modes_isSolution h hS hres hbp hbn hrho hU (nFourier_pos h hS)) (bottom a) (bottom_pos hacc).le le_rfl
  have hbot := (modes_isSolution h hS hres hbp hbn hrho hU (nFourier_pos h hS)).bot
  obtain ⟨-, e2, e3, e4⟩ := evaluates_unique hF (evaluates h hres hU) (bottom_pos hacc).le le_rfl
  have hlast : a.tauArr.n - 1 + 1 = a.tauArr.n := by have := hacc.layers; omega
  have hin : InLayer a (a.tauArr.n - 1) (bottom a) := by
    refine ⟨?_, by rw [hlast, bdry_bottom hacc]⟩
    have := bdry_lt hacc (l := a.tauArr.n - 1) (by omega)
    rw [hlast, bdry_bottom hacc] at this
    exact this.le
  have hstar : tauStar a (layOf a (bottom a)) (bottom a) = bdryStar a a.tauArr.n := by
    obtain ⟨x1, x2⟩ := layOf_spec hacc (bottom_pos hacc).le le_rfl
    rw [tauStar_layers hacc x1 (by omega) x2 hin]
    have := bdryStar_eq a (a.tauArr.n - 1)
    rw [hlast, bdry_bottom hacc] at this
    exact this.symm
  rw [e2, e3, e4]
  simp only [fieldsOf, hstar]
  set D := Real.exp (-bdryStar a a.tauArr.n / a.mu0) with hD
  set mu := node E a with hmu
  set w := weight E a with hw
  have hwm : ∀ i < nHalf a, 0 < w i * mu i := fun i hi => mul_pos (weight_pos hS.gauss hi) (node_pos hS.gauss hi).1
  have hbeam : 0 ≤ a.mu0 * a.I0 * D := by
    rcases hacc.beam.lt_or_eq with hI | hI
    · have := (hacc.beamDir hI).1.1
      positivity
    · rw [← hI]; simp
  suffices hup : hemiFlux a mu w (fun i => U 0 (bottom a) i)
      ≤ hemiFlux a mu w (fun i => U 0 (bottom a) (nHalf a + i)) + a.mu0 * a.I0 * D by linarith
  have hdn : 0 ≤ hemiFlux a mu w (fun i => U 0 (bottom a) (nHalf a + i)) := by
    have := hemiFlux_mono hS.gauss (v := fun _ => 0) (v' := fun i => U 0 (bottom a) (nHalf a + i)) fun i hi => hpos _ (by omega)
    refine le_trans (le_of_eq ?_) this
    unfold hemiFlux; simp
  by_cases hm : 0 < a.bdrf.length
  · have hval : ∀ i < nHalf a, U 0 (bottom a) i = 2 * ∑ j ∈ range (nHalf a), w j * mu j * rho 0 (mu i) (mu j) * U 0 (bottom a) (nHalf a + j)
        + a.mu0 * a.I0 / Real.pi * rho 0 (mu i) a.mu0 * D := by
      intro i hi
      rw [hbot i hi, hne i hi, if_pos hm]
      unfold reflected
      rw [if_pos rfl, one_add_one_eq_two, zero_add]
    have hsum : ∑ i ∈ range (nHalf a), mu i * w i * U 0 (bottom a) i
        = ∑ j ∈ range (nHalf a), w j * mu j * U 0 (bottom a) (nHalf a + j) * (2 * ∑ i ∈ range (nHalf a), w i * mu i * rho 0 (mu i) (mu j))
          + a.mu0 * a.I0 / Real.pi * D * ∑ i ∈ range (nHalf a), w i * mu i * rho 0 (mu i) a.mu0 := by
      have : ∀ i ∈ range (nHalf a), mu i * w i * U 0 (bottom a) i
          = ∑ j ∈ range (nHalf a), w j * mu j * U 0 (bottom a) (nHalf a + j) * (2 * (w i * mu i * rho 0 (mu i) (mu j)))
            + a.mu0 * a.I0 / Real.pi * D * (w i * mu i * rho 0 (mu i) a.mu0) := by
        intro i hi
        rw [hval i (mem_range.1 hi), mul_add, mul_sum, mul_sum]
        congr 1
        · exact sum_congr rfl fun j _ => by ring
        · ring
      rw [sum_congr rfl this, sum_add_distrib, sum_comm, ← mul_sum]
      congr 1
      exact sum_congr rfl fun j _ => by rw [← mul_sum, ← mul_sum]
    have h3 : ∑ j ∈ range (nHalf a), w j * mu j * U 0 (bottom a) (nHalf a + j) * (2 * ∑ i ∈ range (nHalf a), w i * mu i * rho 0 (mu i) (mu j))
        ≤ ∑ j ∈ range (nHalf a), mu j * w j * U 0 (bottom a) (nHalf a + j) := by
      refine sum_le_sum fun j hj => ?_
      have hj' := mem_range.1 hj
      have x1 := mul_nonneg (hwm j hj').le (hpos (nHalf a + j) (by omega))
      calc _ ≤ w j * mu j * U 0 (bottom a) (nHalf a + j) * 1 := mul_le_mul_of_nonneg_left (hls.1 j hj') x1
        _ = _ := by ring
    have h4 : a.mu0 * a.I0 / Real.pi * D * (2 * ∑ i ∈ range (nHalf a), w i * mu i * rho 0 (mu i) a.mu0) ≤ a.mu0 * a.I0 / Real.pi * D * 1 := by
      refine mul_le_mul_of_nonneg_left hls.2 ?_
      rw [div_mul_eq_mul_div]
      exact div_nonneg hbeam Real.pi_pos.le
    unfold hemiFlux
    rw [hsum, mul_add]
    have h5 := mul_le_mul_of_nonneg_left h3 (show 0 ≤ 2 * Real.pi by positivity)
    have h6 := mul_le_mul_of_nonneg_left h4 Real.pi_pos.le
    have h7 : Real.pi * (a.mu0 * a.I0 / Real.pi * D * 1) = a.mu0 * a.I0 * D := by
      have := Real.pi_ne_zero
      field_simp
    rw [h7] at h6
    linarith
  · have hz : hemiFlux a mu w (fun i => U 0 (bottom a) i) = 0 := by
      unfold hemiFlux
      rw [sum_eq_zero fun i hi => by beta_reduce; rw [hbot i (mem_range.1 hi), hne i (mem_range.1 hi), if_neg hm]; ring, mul_zero]
    rw [hz]; linarith

/-- The hypotheses are met, with a beam and a reflecting surface. -/
example {n : ℕ} (hn : 0 < n) (J : Junk) : ∃ (a : Args) (R : Solved) (F : Fields), nHalf a = n ∧ pydisort refExt J a = .ok R ∧ Sound refExt a
    ∧ Rescalable a ∧ Azimuthless a.bpos ∧ Azimuthless a.bneg ∧ SurfaceIs a (fun _ _ _ => 1 / 3)
    ∧ FairSurface a (node refExt a) (weight refExt a) (fun _ _ => 1 / 3) ∧ NonnegScattering a (node refExt a) ∧ NonnegSources a (node refExt a)
    ∧ (∀ l < a.tauArr.n, ∀ t, InLayer a l t → source a l t = 0) ∧ (∀ i < nHalf a, bcVal a.bpos 0 i = 0)
    ∧ LossySurface a (node refExt a) (weight refExt a) (fun _ _ => 1 / 3) ∧ Evaluates a R F := by
  obtain ⟨x, h0, h1, hw⟩ := demoMild_wellPosed hn
  have hh : nHalf (demoMild n x) = n := demo_nHalf x
  have hg : GaussContract refExt (nHalf (demoMild n x)) := by rw [hh]; exact refExt_gauss hn
  set S : Sources := ⟨1, .scalar 0, .scalar 1, ⟨2, 1, fun _ _ => 0⟩⟩ with hSd
  have hw' : WellPosed refExt (under (demoMild n x) S) := wellPosed_under hw zero_le_one (fun _ => one_pos) trivial trivial trivial trivial rfl
  have hr : Rescalable (under (demoMild n x) S) := Or.inl (Or.inl one_pos)
  obtain ⟨R, hR⟩ := pydisort_isOk hw' J
  obtain ⟨F, hF⟩ := evaluates_exists hR hw'.sound hr
  have hsf := demoMild_surface (n := n) (x := x) hn
  have hz : ∀ l t, source (under (demoMild n x) S) l t = 0 := fun l t => by simp [source, under, hSd]
  have hsum : 2 * ∑ i ∈ range (nHalf (demoMild n x)), weight refExt (demoMild n x) i * node refExt (demoMild n x) i * (1 / 3) ≤ 1 := by
    rw [← sum_mul, sum_weight_node hg (by rw [hh]; exact hn)]; norm_num
  refine ⟨under (demoMild n x) S, R, F, hh, hR, hw'.sound, hr, trivial, trivial, fun m _ => demo_rho (n := n) x m, ⟨hsf.nonneg, hsf.beam, hsf.bounded⟩,
    demoMild_scattering hn x, ⟨(demoMild_sources hn h0 h1).beam, fun l _ t _ => (hz l t).ge, fun i _ => ?_, fun i _ => ?_⟩, fun l _ t _ => hz l t,
    fun i _ => ?_, ⟨fun j _ => hsum, hsum⟩, hF⟩ <;> simp [under, hSd, bcVal]

end Pydisort

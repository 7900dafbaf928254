import Verif.SlabLemmas

/-!
# Transport of light in all directions

Banach's fixed point theorem for "emit, then solve along every direction", for fields that depend on depth, polar angle and azimuth. How light is emitted and reflected is left open: both
have to be continuous and to be contractions of the supremum norm.
-/

namespace Pydisort
open MeasureTheory Set Filter Topology
open scoped BoundedContinuousFunction

/-! ### The formal solution with a parameter -/

section
variable {b : ℝ} {P : Set ℝ} {c T : ℝ → ℝ}

theorem integrand_bound_of (hC : Column b P c T) {Q : ℝ} (hQ0 : 0 ≤ Q) {m₀ : ℝ} (hm₀ : 0 < m₀) :
    ∃ K, ∀ q : ℝ → ℝ, (∀ s ∉ Ioo 0 b \ P, q s = 0) → (∀ s, |q s| ≤ Q) → ∀ m ∈ Ioc (0 : ℝ) 1, m₀ ≤ m → ∀ s, |Real.exp (T s / m) * q s / m| ≤ K := by
  obtain ⟨τ, hτ⟩ := hC.bound
  have hτ0 : 0 ≤ τ := (abs_nonneg _).trans (hτ 0 ⟨le_rfl, hC.pos.le⟩)
  refine ⟨Real.exp (τ / m₀) * Q / m₀, fun q hq hQ m hm hmm s => ?_⟩
  by_cases hs : s ∈ Ioo 0 b \ P
  · have h1 : Real.exp (T s / m) ≤ Real.exp (τ / m₀) := by
      refine Real.exp_le_exp.2 ?_
      calc T s / m ≤ τ / m := div_le_div_of_nonneg_right ((le_abs_self _).trans (hτ s (Ioo_subset_Icc_self hs.1))) hm.1.le
        _ ≤ τ / m₀ := div_le_div_of_nonneg_left hτ0 hm₀ hmm
    rw [abs_div, abs_mul, abs_of_pos (Real.exp_pos _), abs_of_pos hm.1]
    exact div_le_div₀ (by positivity) (mul_le_mul h1 (hQ s) (abs_nonneg _) (Real.exp_pos _).le) hm₀ hmm
  · rw [hq s hs]
    simp only [mul_zero, zero_div, abs_zero]
    positivity

/-- Emission into all directions. -/
structure SkyEmission (b : ℝ) (P : Set ℝ) (q : ℝ → ℝ → ℝ → ℝ) : Prop where
  zero : ∀ s ∉ Ioo 0 b \ P, ∀ m x, q s m x = 0
  cont : ContinuousOn (fun p : ℝ × ℝ × ℝ => q p.1 p.2.1 p.2.2) ((Ioo 0 b \ P) ×ˢ Ioc 0 1 ×ˢ univ)
  bdd : ∃ Q, ∀ s, ∀ m ∈ Ioc (0 : ℝ) 1, ∀ x, |q s m x| ≤ Q

theorem SkyEmission.at {q : ℝ → ℝ → ℝ → ℝ} (h : SkyEmission b P q) (x : ℝ) : Emission b P (fun s m => q s m x) := by
  obtain ⟨Q, hQ⟩ := h.bdd
  exact ⟨fun s hs m => h.zero s hs m x, h.cont.comp (f := fun p : ℝ × ℝ => (p.1, p.2, x)) (by fun_prop) fun p hp => ⟨hp.1, hp.2, trivial⟩,
    Q, fun s m hm => hQ s m hm x⟩

/-- Joint continuity in depth, direction and azimuth. -/
theorem sky_formal_cont (hC : Column b P c T) {q : ℝ → ℝ → ℝ → ℝ} (hq : SkyEmission b P q) {g : ℝ → ℝ → ℝ}
    (hg : ContinuousOn (fun p : ℝ × ℝ => g p.1 p.2) (Ioc 0 1 ×ˢ univ)) :
    ContinuousOn (fun p : ℝ × ℝ × ℝ => formal T (fun s m => q s m p.2.2) (fun m => g m p.2.2) p.1 p.2.1) (Icc 0 b ×ˢ Ioc 0 1 ×ˢ univ) := by
  have hint : ContinuousOn (fun p : ℝ × ℝ × ℝ => ∫ s in (0 : ℝ)..p.1, Real.exp (T s / p.2.1) * q s p.2.1 p.2.2 / p.2.1) (Icc 0 b ×ˢ Ioc 0 1 ×ˢ univ) := by
    have key : Continuous fun p : (Ioc (0 : ℝ) 1 × ℝ) × Icc 0 b => ∫ s in (0 : ℝ)..p.2, Real.exp (T s / p.1.1) * q s p.1.1 p.1.2 / p.1.1 := by
      rw [continuous_iff_continuousAt]
      rintro ⟨⟨⟨m₀, hm₀⟩, x₀⟩, ⟨t₀, ht₀⟩⟩
      obtain ⟨Q, hQ⟩ := hq.bdd
      have hQ0 : 0 ≤ Q := (abs_nonneg _).trans (hQ 0 1 ⟨one_pos, le_rfl⟩ 0)
      obtain ⟨K, hK⟩ := integrand_bound_of hC hQ0 (half_pos hm₀.1)
      have := intervalIntegral.continuousAt_parametric_primitive_of_dominated (X := Ioc (0 : ℝ) 1 × ℝ) (μ := volume)
        (F := fun m s => Real.exp (T s / m.1) * q s m.1 m.2 / m.1) (fun _ => K) (-1) (b + 1) (a₀ := 0) (b₀ := t₀) (x₀ := (⟨m₀, hm₀⟩, x₀))
        (fun m => (integrand_meas hC (hq.at m.2) m.1.2).restrict) ?_ (by simp) (ae_of_all _ fun s => ?_) ⟨by norm_num, by linarith [hC.pos]⟩
        ⟨by linarith [ht₀.1], by linarith [ht₀.2]⟩ (by simp)
      · have hpr : ContinuousAt (fun p : (Ioc (0 : ℝ) 1 × ℝ) × Icc 0 b => (p.1, (p.2 : ℝ))) ((⟨m₀, hm₀⟩, x₀), ⟨t₀, ht₀⟩) := by fun_prop
        exact ContinuousAt.comp (f := fun p : (Ioc (0 : ℝ) 1 × ℝ) × Icc 0 b => (p.1, (p.2 : ℝ))) (x := ((⟨m₀, hm₀⟩, x₀), ⟨t₀, ht₀⟩)) this hpr
      · have : ∀ᶠ m : Ioc (0 : ℝ) 1 × ℝ in 𝓝 (⟨m₀, hm₀⟩, x₀), m₀ / 2 < m.1 := by
          have hc : Continuous fun m : Ioc (0 : ℝ) 1 × ℝ => (m.1 : ℝ) := by fun_prop
          refine hc.continuousAt.eventually (lt_mem_nhds ?_)
          linarith [hm₀.1]
        filter_upwards [this] with m hm
        exact ae_of_all _ fun s => hK (fun s => q s m.1 m.2) (fun s hs => hq.zero s hs _ _) (fun s => hQ s _ m.1.2 _) m.1 m.1.2 hm.le s
      · by_cases hs : s ∈ Ioo 0 b \ P
        · have h1 : ContinuousAt (fun m : Ioc (0 : ℝ) 1 × ℝ => q s m.1 m.2) (⟨m₀, hm₀⟩, x₀) := by
            have := hq.cont.comp_continuous (f := fun m : Ioc (0 : ℝ) 1 × ℝ => (s, (m.1 : ℝ), m.2)) (by fun_prop) fun m => ⟨hs, m.1.2, trivial⟩
            exact this.continuousAt
          have h2 : ContinuousAt (fun m : Ioc (0 : ℝ) 1 × ℝ => (m.1 : ℝ)) (⟨m₀, hm₀⟩, x₀) := by fun_prop
          have h3 : (((⟨m₀, hm₀⟩, x₀) : Ioc (0 : ℝ) 1 × ℝ).1 : ℝ) ≠ 0 := hm₀.1.ne'
          exact ((Real.continuous_exp.continuousAt.comp (continuousAt_const.div h2 h3)).mul h1).div h2 h3
        · simp only [hq.zero s hs]
          simp only [mul_zero, zero_div]
          exact continuousAt_const
    rw [continuousOn_iff_continuous_domRestrict]
    exact key.comp (f := fun p : ↥(Icc 0 b ×ˢ Ioc (0 : ℝ) 1 ×ˢ (univ : Set ℝ)) => ((⟨p.1.2.1, p.2.2.1⟩, p.1.2.2), ⟨p.1.1, p.2.1⟩)) (by fun_prop)
  have h0 : ∀ p ∈ Icc 0 b ×ˢ Ioc (0 : ℝ) 1 ×ˢ (univ : Set ℝ), p.2.1 ≠ 0 := fun p hp => hp.2.1.1.ne'
  have hm : ContinuousOn (fun p : ℝ × ℝ × ℝ => p.2.1) (Icc 0 b ×ˢ Ioc 0 1 ×ˢ univ) := by fun_prop
  have hT : ContinuousOn (fun p : ℝ × ℝ × ℝ => T p.1) (Icc 0 b ×ˢ Ioc 0 1 ×ˢ univ) := hC.Tcont.comp continuousOn_fst fun p hp => hp.1
  have hg' : ContinuousOn (fun p : ℝ × ℝ × ℝ => g p.2.1 p.2.2) (Icc 0 b ×ˢ Ioc 0 1 ×ˢ univ) := hg.comp continuousOn_snd fun p hp => hp.2
  unfold formal
  exact (Real.continuous_exp.comp_continuousOn (hT.neg.div hm h0)).mul
    ((hg'.mul (Real.continuous_exp.comp_continuousOn (continuousOn_const.div hm h0))).add hint)

end

/-- A slab with arbitrary emission and reflection. -/
structure Transport where
  b : ℝ
  P : Set ℝ
  c : ℝ → ℝ
  T : ℝ → ℝ
  emis : (ℝ → ℝ → ℝ → ℝ) → ℝ → ℝ → ℝ → ℝ
  refl : (ℝ → ℝ → ℝ → ℝ) → ℝ → ℝ → ℝ
  down : ℝ → ℝ → ℝ
  q : ℝ

def Transport.S (σ : Transport) : Set ℝ := Ioo 0 σ.b \ σ.P

/-- Bounded by `M` and continuous, except for the horizontal direction. -/
structure NiceSky (b M : ℝ) (v : ℝ → ℝ → ℝ → ℝ) : Prop where
  bdd : ∀ t ∈ Icc 0 b, ∀ y ∈ Icc (-1 : ℝ) 1 \ {0}, ∀ x, |v t y x| ≤ M
  cont : ContinuousOn (fun p : ℝ × ℝ × ℝ => v p.1 p.2.1 p.2.2) (Icc 0 b ×ˢ (Icc (-1) 1 \ {0}) ×ˢ univ)

structure Transport.Valid (σ : Transport) : Prop where
  col : Column σ.b σ.P σ.c σ.T
  zero : ∀ v, ∀ s ∉ σ.S, ∀ y x, σ.emis v s y x = 0
  ecnt : ∀ v M, NiceSky σ.b M v → ContinuousOn (fun p : ℝ × ℝ × ℝ => σ.emis v p.1 p.2.1 p.2.2) (σ.S ×ˢ Icc (-1) 1 ×ˢ univ)
  ebdd : ∀ v M, NiceSky σ.b M v → ∃ k, 0 ≤ k ∧ ∀ s, ∀ y ∈ Icc (-1 : ℝ) 1, ∀ x, |σ.emis v s y x| ≤ k * σ.c s
  elip : ∀ v M v' M' k, NiceSky σ.b M v → NiceSky σ.b M' v' → NiceSky σ.b k (fun t y x => v t y x - v' t y x) → ∀ s, ∀ y ∈ Icc (-1 : ℝ) 1, ∀ x,
    |σ.emis v s y x - σ.emis v' s y x| ≤ σ.q * k * σ.c s
  rcnt : ∀ v M, NiceSky σ.b M v → ContinuousOn (fun p : ℝ × ℝ => σ.refl v p.1 p.2) (Ioc 0 1 ×ˢ univ)
  rbdd : ∀ v M, NiceSky σ.b M v → ∃ k, ∀ m ∈ Ioc (0 : ℝ) 1, ∀ x, |σ.refl v m x| ≤ k
  rlip : ∀ v M v' M' k, NiceSky σ.b M v → NiceSky σ.b M' v' → NiceSky σ.b k (fun t y x => v t y x - v' t y x) → ∀ m ∈ Ioc (0 : ℝ) 1, ∀ x,
    |σ.refl v m x - σ.refl v' m x| ≤ σ.q * k
  dcnt : ContinuousOn (fun p : ℝ × ℝ => σ.down p.1 p.2) (Ioc 0 1 ×ˢ univ)
  dbdd : ∃ k, ∀ m ∈ Ioc (0 : ℝ) 1, ∀ x, |σ.down m x| ≤ k
  qnonneg : 0 ≤ σ.q
  qlt : σ.q < 1

section
variable {σ : Transport} {M M' : ℝ} {v v' : ℝ → ℝ → ℝ → ℝ}

theorem Transport.S_sub (σ : Transport) {s : ℝ} (hs : s ∈ σ.S) : s ∈ Icc 0 σ.b := Ioo_subset_Icc_self hs.1

theorem NiceSky.nonneg {b : ℝ} (hb : 0 ≤ b) (h : NiceSky b M v) : 0 ≤ M :=
  (abs_nonneg _).trans (h.bdd 0 ⟨le_rfl, hb⟩ 1 ⟨by norm_num, by norm_num⟩ 0)

theorem sky_emission_down (hσ : σ.Valid) (h : NiceSky σ.b M v) : SkyEmission σ.b σ.P (fun s m x => σ.emis v s (-m) x) := by
  obtain ⟨k, hk0, hk⟩ := hσ.ebdd v M h
  obtain ⟨C, hC⟩ := hσ.col.bdd
  have hneg : ∀ m ∈ Ioc (0 : ℝ) 1, -m ∈ Icc (-1 : ℝ) 1 := fun m hm => (neg_mem_punctured hm).1
  refine ⟨fun s hs m x => hσ.zero v s hs _ _, ?_, ⟨k * C, fun s m hm x => ?_⟩⟩
  · exact (hσ.ecnt v M h).comp (f := fun p : ℝ × ℝ × ℝ => (p.1, -p.2.1, p.2.2)) (by fun_prop) fun p hp => ⟨hp.1, hneg _ hp.2.1, trivial⟩
  · exact (hk s _ (hneg m hm) x).trans (mul_le_mul_of_nonneg_left (hC s) hk0)

theorem sky_column_up (hσ : σ.Valid) : Column σ.b ((fun s => σ.b - s) ⁻¹' σ.P) (fun s => σ.c (σ.b - s)) (fun s => -σ.T (σ.b - s)) := by
  have hc := hσ.col
  have hmap : ∀ s ∈ Ioo 0 σ.b \ ((fun s => σ.b - s) ⁻¹' σ.P), σ.b - s ∈ σ.S := fun s hs => ⟨⟨by linarith [hs.1.2], by linarith [hs.1.1]⟩, hs.2⟩
  refine ⟨hc.pos, ?_, fun s => hc.nonneg _, ?_, ?_, ?_, ?_⟩
  · exact hc.fin.preimage (fun x _ y _ h => by simpa using h)
  · obtain ⟨C, hC⟩ := hc.bdd
    exact ⟨C, fun s => hC _⟩
  · exact hc.ccont.comp (f := fun s => σ.b - s) (by fun_prop) hmap
  · exact (hc.Tcont.comp (f := fun s => σ.b - s) (by fun_prop) fun s hs => ⟨by linarith [hs.2], by linarith [hs.1]⟩).neg
  · intro s hs
    have h1 := hc.deriv _ (hmap s hs)
    have h2 : HasDerivAt (fun s => σ.b - s) (-1) s := by simpa using (hasDerivAt_id s).const_sub σ.b
    exact (h1.comp s h2).neg.congr_deriv (by ring)

theorem sky_mem_up {s : ℝ} (hs : σ.b - s ∈ σ.S) : s ∈ Ioo 0 σ.b \ ((fun s => σ.b - s) ⁻¹' σ.P) :=
  ⟨⟨by have := hs.1.2; linarith, by have := hs.1.1; linarith⟩, hs.2⟩

theorem sky_emission_up (hσ : σ.Valid) (h : NiceSky σ.b M v) : SkyEmission σ.b ((fun s => σ.b - s) ⁻¹' σ.P) (fun s m x => σ.emis v (σ.b - s) m x) := by
  obtain ⟨k, hk0, hk⟩ := hσ.ebdd v M h
  obtain ⟨C, hC⟩ := hσ.col.bdd
  have hpos : ∀ m ∈ Ioc (0 : ℝ) 1, m ∈ Icc (-1 : ℝ) 1 := fun m hm => (pos_mem_punctured hm).1
  refine ⟨fun s hs m x => hσ.zero v _ (fun h' => hs (sky_mem_up h')) _ _, ?_, ⟨k * C, fun s m hm x => ?_⟩⟩
  · exact (hσ.ecnt v M h).comp (f := fun p : ℝ × ℝ × ℝ => (σ.b - p.1, p.2.1, p.2.2)) (by fun_prop)
      fun p hp => ⟨⟨⟨by linarith [hp.1.1.2], by linarith [hp.1.1.1]⟩, hp.1.2⟩, hpos _ hp.2.1, trivial⟩
  · exact (hk _ _ (hpos m hm) x).trans (mul_le_mul_of_nonneg_left (hC _) hk0)

noncomputable def Transport.solveDown (σ : Transport) (v : ℝ → ℝ → ℝ → ℝ) (t m x : ℝ) : ℝ :=
  formal σ.T (fun s m => σ.emis v s (-m) x) (fun m => σ.down m x) t m

noncomputable def Transport.solveUp (σ : Transport) (v : ℝ → ℝ → ℝ → ℝ) (t m x : ℝ) : ℝ :=
  formal (fun s => -σ.T (σ.b - s)) (fun s m => σ.emis v (σ.b - s) m x) (fun m => σ.refl v m x) (σ.b - t) m

/-- Solve along every direction. -/
noncomputable def Transport.solve (σ : Transport) (v : ℝ → ℝ → ℝ → ℝ) (t y x : ℝ) : ℝ := if 0 < y then σ.solveUp v t y x else σ.solveDown v t (-y) x

theorem solve_pos {t m : ℝ} (hm : m ∈ Ioc (0 : ℝ) 1) (x : ℝ) : σ.solve v t m x = σ.solveUp v t m x := if_pos hm.1

theorem solve_neg {t m : ℝ} (hm : m ∈ Ioc (0 : ℝ) 1) (x : ℝ) : σ.solve v t (-m) x = σ.solveDown v t m x := by
  unfold Transport.solve
  rw [if_neg (by linarith [hm.1]), neg_neg]

theorem sky_glue {A : Set ℝ} {u d : ℝ → ℝ → ℝ → ℝ} (hu : ContinuousOn (fun p : ℝ × ℝ × ℝ => u p.1 p.2.1 p.2.2) (A ×ˢ Ioc 0 1 ×ˢ univ))
    (hd : ContinuousOn (fun p : ℝ × ℝ × ℝ => d p.1 p.2.1 p.2.2) (A ×ˢ Ioc 0 1 ×ˢ univ)) :
    ContinuousOn (fun p : ℝ × ℝ × ℝ => if 0 < p.2.1 then u p.1 p.2.1 p.2.2 else d p.1 (-p.2.1) p.2.2) (A ×ˢ (Icc (-1) 1 \ {0}) ×ˢ univ) := by
  have hy2 : Continuous fun p : ℝ × ℝ × ℝ => p.2.1 := by fun_prop
  rintro ⟨t, y, x⟩ ⟨ht, ⟨hy, hy0⟩, -⟩
  simp only [mem_singleton_iff] at hy0 ht hy
  rcases lt_or_gt_of_ne hy0 with hneg | hpos
  · have ho : IsOpen {p : ℝ × ℝ × ℝ | p.2.1 < 0} := isOpen_lt hy2 continuous_const
    have hmem : A ×ˢ Ico (-1) 0 ×ˢ univ ∈ 𝓝[A ×ˢ (Icc (-1 : ℝ) 1 \ {0}) ×ˢ (univ : Set ℝ)] (t, y, x) := by
      refine mem_nhdsWithin.2 ⟨_, ho, hneg, ?_⟩
      rintro ⟨s, z, x'⟩ ⟨hz, hs, hz1, -⟩
      exact ⟨hs, ⟨hz1.1.1, hz⟩, trivial⟩
    have h1 : ContinuousOn (fun p : ℝ × ℝ × ℝ => d p.1 (-p.2.1) p.2.2) (A ×ˢ Ico (-1) 0 ×ˢ univ) :=
      hd.comp (f := fun p : ℝ × ℝ × ℝ => (p.1, -p.2.1, p.2.2)) (by fun_prop)
        fun p hp => ⟨hp.1, ⟨by have := hp.2.1.2; simp; linarith, by have := hp.2.1.1; simp; linarith⟩, trivial⟩
    refine ((h1 (t, y, x) ⟨ht, ⟨hy.1, hneg⟩, trivial⟩).mono_of_mem_nhdsWithin hmem).congr_of_eventuallyEq ?_ (by simp [not_lt.2 hneg.le])
    filter_upwards [nhdsWithin_le_nhds (ho.mem_nhds hneg)] with p hp
    have : ¬ 0 < p.2.1 := not_lt.2 (le_of_lt hp)
    simp [this]
  · have ho : IsOpen {p : ℝ × ℝ × ℝ | 0 < p.2.1} := isOpen_lt continuous_const hy2
    have hmem : A ×ˢ Ioc 0 1 ×ˢ univ ∈ 𝓝[A ×ˢ (Icc (-1 : ℝ) 1 \ {0}) ×ˢ (univ : Set ℝ)] (t, y, x) := by
      refine mem_nhdsWithin.2 ⟨_, ho, hpos, ?_⟩
      rintro ⟨s, z, x'⟩ ⟨hz, hs, hz1, -⟩
      exact ⟨hs, ⟨hz, hz1.1.2⟩, trivial⟩
    refine ((hu (t, y, x) ⟨ht, ⟨hpos, hy.2⟩, trivial⟩).mono_of_mem_nhdsWithin hmem).congr_of_eventuallyEq ?_ (by simp [hpos])
    filter_upwards [nhdsWithin_le_nhds (ho.mem_nhds hpos)] with p hp
    have : 0 < p.2.1 := hp
    simp [this]

theorem solve_nice (hσ : σ.Valid) (h : NiceSky σ.b M v) : ∃ K, NiceSky σ.b K (σ.solve v) := by
  obtain ⟨k, hk0, hk⟩ := hσ.ebdd v M h
  obtain ⟨B, hB⟩ := hσ.dbdd
  obtain ⟨R, hR⟩ := hσ.rbdd v M h
  refine ⟨max k (max B R), fun t ht y hy x => ?_, sky_glue (u := σ.solveUp v) (d := σ.solveDown v) ?_ (sky_formal_cont hσ.col (sky_emission_down hσ h) hσ.dcnt)⟩
  · have hkm : 0 ≤ max k (max B R) := hk0.trans (le_max_left _ _)
    rcases punctured_cases hy with hm | ⟨m, hm, rfl⟩
    · rw [solve_pos hm]
      refine formal_le (sky_column_up hσ) hm hkm (fun s => ?_) ((hR y hm x).trans ((le_max_right _ _).trans (le_max_right _ _))) (flip_mem ht)
      exact (hk _ _ (pos_mem_punctured hm).1 x).trans (mul_le_mul_of_nonneg_right (le_max_left _ _) (hσ.col.nonneg _))
    · rw [solve_neg hm]
      refine formal_le hσ.col hm hkm (fun s => ?_) ((hB m hm x).trans ((le_max_left _ _).trans (le_max_right _ _))) ht
      exact (hk s _ (neg_mem_punctured hm).1 x).trans (mul_le_mul_of_nonneg_right (le_max_left _ _) (hσ.col.nonneg s))
  · have h1 := sky_formal_cont (sky_column_up hσ) (sky_emission_up hσ h) (hσ.rcnt v M h)
    exact h1.comp (f := fun p : ℝ × ℝ × ℝ => (σ.b - p.1, p.2.1, p.2.2)) (by fun_prop) fun p hp => ⟨flip_mem hp.1, hp.2⟩

theorem solve_sub (hσ : σ.Valid) (h : NiceSky σ.b M v) (h' : NiceSky σ.b M' v') {k : ℝ} (hk : NiceSky σ.b k (fun t y x => v t y x - v' t y x)) {t : ℝ}
    (ht : t ∈ Icc 0 σ.b) {y : ℝ} (hy : y ∈ Icc (-1 : ℝ) 1 \ {0}) (x : ℝ) : |σ.solve v t y x - σ.solve v' t y x| ≤ σ.q * k := by
  have h0 : 0 ≤ σ.q * k := mul_nonneg hσ.qnonneg (hk.nonneg hσ.col.pos.le)
  rcases punctured_cases hy with hm | ⟨m, hm, rfl⟩
  · rw [solve_pos hm, solve_pos hm]
    unfold Transport.solveUp
    rw [formal_sub (sky_column_up hσ) ((sky_emission_up hσ h).at x) ((sky_emission_up hσ h').at x) hm]
    exact formal_le (sky_column_up hσ) hm h0 (fun s => hσ.elip _ _ _ _ _ h h' hk _ _ (pos_mem_punctured hm).1 x) (hσ.rlip _ _ _ _ _ h h' hk _ hm x) (flip_mem ht)
  · rw [solve_neg hm, solve_neg hm]
    unfold Transport.solveDown
    rw [formal_sub hσ.col ((sky_emission_down hσ h).at x) ((sky_emission_down hσ h').at x) hm]
    refine formal_le hσ.col hm h0 (fun s => hσ.elip _ _ _ _ _ h h' hk s _ (neg_mem_punctured hm).1 x) ?_ ht
    simpa using h0

/-! ### The space of fields -/

/-- Depths, cosines and azimuths. -/
abbrev SkyDom (b : ℝ) := Icc (0 : ℝ) b × ↥(Icc (-1 : ℝ) 1 \ {0}) × ℝ

open Classical in
noncomputable def toSky (b : ℝ) (f : ℝ → ℝ → ℝ → ℝ) : SkyDom b →ᵇ ℝ :=
  if h : ∃ K, NiceSky b K f then
    BoundedContinuousFunction.ofNormedAddCommGroup (fun p : SkyDom b => f p.1 p.2.1 p.2.2)
      (h.choose_spec.cont.comp_continuous (f := fun p : SkyDom b => ((p.1 : ℝ), (p.2.1 : ℝ), p.2.2)) (by fun_prop) fun p => ⟨p.1.2, p.2.1.2, trivial⟩) h.choose
      (fun p => h.choose_spec.bdd _ p.1.2 _ p.2.1.2 _)
  else 0

theorem toSky_apply {b : ℝ} {f : ℝ → ℝ → ℝ → ℝ} (h : ∃ K, NiceSky b K f) (p : SkyDom b) : toSky b f p = f p.1 p.2.1 p.2.2 := by
  rw [toSky, dif_pos h]
  rfl

open Classical in
noncomputable def ofSky {b : ℝ} (f : SkyDom b →ᵇ ℝ) (t y x : ℝ) : ℝ :=
  if h : t ∈ Icc 0 b ∧ y ∈ Icc (-1 : ℝ) 1 \ {0} then f (⟨t, h.1⟩, ⟨y, h.2⟩, x) else 0

theorem ofSky_apply {b : ℝ} (f : SkyDom b →ᵇ ℝ) {t y : ℝ} (ht : t ∈ Icc 0 b) (hy : y ∈ Icc (-1 : ℝ) 1 \ {0}) (x : ℝ) : ofSky f t y x = f (⟨t, ht⟩, ⟨y, hy⟩, x) := by
  rw [ofSky, dif_pos ⟨ht, hy⟩]

theorem ofSky_nice {b : ℝ} (f : SkyDom b →ᵇ ℝ) : NiceSky b ‖f‖ (ofSky f) := by
  refine ⟨fun t ht y hy x => ?_, ?_⟩
  · rw [ofSky_apply f ht hy]
    exact f.norm_coe_le_norm _
  · rw [continuousOn_iff_continuous_domRestrict]
    have : (Icc 0 b ×ˢ (Icc (-1 : ℝ) 1 \ {0}) ×ˢ (univ : Set ℝ)).domRestrict (fun p : ℝ × ℝ × ℝ => ofSky f p.1 p.2.1 p.2.2)
        = fun p => f (⟨p.1.1, p.2.1⟩, ⟨p.1.2.1, p.2.2.1⟩, p.1.2.2) := by
      funext p
      exact ofSky_apply f p.2.1 p.2.2.1 _
    rw [this]
    exact f.continuous.comp (f := fun p : ↥(Icc 0 b ×ˢ (Icc (-1 : ℝ) 1 \ {0}) ×ˢ (univ : Set ℝ)) => (⟨p.1.1, p.2.1⟩, ⟨p.1.2.1, p.2.2.1⟩, p.1.2.2)) (by fun_prop)

theorem ofSky_sub_nice {b : ℝ} (f g : SkyDom b →ᵇ ℝ) : NiceSky b (dist f g) (fun t y x => ofSky f t y x - ofSky g t y x) := by
  refine ⟨fun t ht y hy x => ?_, (ofSky_nice f).cont.sub (ofSky_nice g).cont⟩
  rw [ofSky_apply f ht hy, ofSky_apply g ht hy]
  exact BoundedContinuousFunction.dist_coe_le_dist (f := f) (g := g) _

/-- One step: emit, then solve. -/
noncomputable def Transport.step (σ : Transport) (F : SkyDom σ.b →ᵇ ℝ) : SkyDom σ.b →ᵇ ℝ := toSky σ.b (σ.solve (ofSky F))

theorem sky_step_contracting (hσ : σ.Valid) : ContractingWith ⟨σ.q, hσ.qnonneg⟩ σ.step := by
  refine ⟨by exact_mod_cast hσ.qlt, LipschitzWith.of_dist_le_mul fun F G => ?_⟩
  refine (BoundedContinuousFunction.dist_le (mul_nonneg hσ.qnonneg dist_nonneg)).2 fun p => ?_
  unfold Transport.step
  rw [toSky_apply (solve_nice hσ (ofSky_nice F)), toSky_apply (solve_nice hσ (ofSky_nice G)), Real.dist_eq]
  exact solve_sub hσ (ofSky_nice F) (ofSky_nice G) (ofSky_sub_nice F G) p.1.2 p.2.1.2 _

/-- There is a field that is emitted and reflected by itself. -/
theorem transport_exists (hσ : σ.Valid) : ∃ v, (∃ M, NiceSky σ.b M v) ∧ ∀ t ∈ Icc 0 σ.b, ∀ y ∈ Icc (-1 : ℝ) 1 \ {0}, ∀ x, v t y x = σ.solve v t y x := by
  have hK := sky_step_contracting hσ
  set F := ContractingWith.fixedPoint σ.step hK
  have hF : σ.step F = F := hK.fixedPoint_isFixedPt
  refine ⟨ofSky F, ⟨_, ofSky_nice F⟩, fun t ht y hy x => ?_⟩
  rw [ofSky_apply F ht hy]
  conv_lhs => rw [← hF]
  exact toSky_apply (solve_nice hσ (ofSky_nice F)) _

/-- Such a field solves the differential equation and satisfies the boundary conditions. -/
theorem transport_ode (hσ : σ.Valid) (hN : NiceSky σ.b M v) (hv : ∀ t ∈ Icc 0 σ.b, ∀ y ∈ Icc (-1 : ℝ) 1 \ {0}, ∀ x, v t y x = σ.solve v t y x) :
    (∀ t ∈ σ.S, ∀ y ∈ Icc (-1 : ℝ) 1 \ {0}, ∀ x, ∃ d, HasDerivAt (fun t => v t y x) d t ∧ y * d = σ.c t * v t y x - σ.emis v t y x)
      ∧ (∀ m ∈ Ioc (0 : ℝ) 1, ∀ x, v 0 (-m) x = σ.down m x) ∧ ∀ m ∈ Ioc (0 : ℝ) 1, ∀ x, v σ.b m x = σ.refl v m x := by
  have h0 : (0 : ℝ) ∈ Icc 0 σ.b := ⟨le_rfl, hσ.col.pos.le⟩
  have hb : σ.b ∈ Icc 0 σ.b := ⟨hσ.col.pos.le, le_rfl⟩
  have hop : IsOpen σ.S := isOpen_away hσ.col.fin σ.b
  refine ⟨fun t ht y hy x => ?_, fun m hm x => ?_, fun m hm x => ?_⟩
  · have hev : (fun t => v t y x) =ᶠ[𝓝 t] fun t => σ.solve v t y x := by
      filter_upwards [hop.mem_nhds ht] with s hs
      exact hv s (σ.S_sub hs) y hy x
    have e := hv t (σ.S_sub ht) y hy x
    rcases punctured_cases hy with hm | ⟨m, hm, rfl⟩
    · have ht' : σ.b - (σ.b - t) ∈ σ.S := by rwa [sub_sub_cancel]
      have d1 := formal_deriv (g := fun m => σ.refl v m x) (sky_column_up hσ) ((sky_emission_up hσ hN).at x) hm (sky_mem_up ht')
      have d2 : HasDerivAt (fun s => σ.b - s) (-1) t := by simpa using (hasDerivAt_id t).const_sub σ.b
      have d3 := d1.comp t d2
      simp only [solve_pos hm] at hev e
      refine ⟨_, d3.congr_of_eventuallyEq hev, ?_⟩
      unfold Transport.solveUp at e
      rw [← e, sub_sub_cancel]
      have := hm.1.ne'
      field_simp
      ring
    · have d1 := formal_deriv (g := fun m => σ.down m x) hσ.col ((sky_emission_down hσ hN).at x) hm ht
      simp only [solve_neg hm] at hev e
      refine ⟨_, d1.congr_of_eventuallyEq hev, ?_⟩
      unfold Transport.solveDown at e
      rw [← e]
      have := hm.1.ne'
      field_simp
      ring
  · rw [hv 0 h0 _ (neg_mem_punctured hm), solve_neg hm]
    exact formal_zero _ _ _ _
  · rw [hv σ.b hb _ (pos_mem_punctured hm), solve_pos hm]
    unfold Transport.solveUp
    rw [sub_self]
    exact formal_zero _ _ _ _

/-- If emission, reflection and illumination are periodic in azimuth, so is the field. -/
theorem transport_periodic (hv : ∀ t ∈ Icc 0 σ.b, ∀ y ∈ Icc (-1 : ℝ) 1 \ {0}, ∀ x, v t y x = σ.solve v t y x) {p : ℝ}
    (he : ∀ s y x, σ.emis v s y (x + p) = σ.emis v s y x) (hr : ∀ m x, σ.refl v m (x + p) = σ.refl v m x) (hd : ∀ m x, σ.down m (x + p) = σ.down m x)
    {t : ℝ} (ht : t ∈ Icc 0 σ.b) {y : ℝ} (hy : y ∈ Icc (-1 : ℝ) 1 \ {0}) (x : ℝ) : v t y (x + p) = v t y x := by
  rw [hv t ht y hy, hv t ht y hy]
  unfold Transport.solve Transport.solveUp Transport.solveDown
  simp only [he, hr, hd]

end

end Pydisort

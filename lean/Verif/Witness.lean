import Verif.GaussExists
import Verif.Dissipation
import Mathlib.LinearAlgebra.Matrix.Charpoly.Basic

/-! Well-posed problems exist for every number of streams: the hypotheses of the property theorems can be met. -/

namespace Pydisort
open Finset Spec

/-- All but finitely many beam directions are regular. -/
theorem exists_beamRegular (a : Args) (mu w : Vec) :
    ∃ x : ℝ, 0 < x ∧ x ≤ 1 ∧ BeamRegular { a with mu0 := x } mu w := by
  classical
  set M : ℕ → ℕ → Matrix (Fin (nHalf a)) (Fin (nHalf a)) ℝ :=
    fun m l => toM (nHalf a) (reduced (nHalf a) mu w (kernel a m l)) with hM
  set bad : Finset ℝ := (range (nFourier a)).biUnion fun m => (range a.tauArr.n).biUnion fun l => (M m l).charpoly.roots.toFinset with hbad
  have hinf : (Set.Ici (1 : ℝ)).Infinite := Set.Ici_infinite _
  obtain ⟨y, hy, hyb⟩ := hinf.exists_notMem_finset bad
  have hy1 : (1 : ℝ) ≤ y := hy
  have hs : 1 ≤ Real.sqrt y := Real.one_le_sqrt.2 hy1
  have hsq : Real.sqrt y ^ 2 = y := Real.sq_sqrt (by linarith)
  refine ⟨1 / Real.sqrt y, by positivity, by rw [div_le_one (by linarith)]; exact hs, ?_⟩
  intro _ m hm l hl _ hdet
  apply hyb
  have hm' : m < nFourier a := hm
  have hl' : l < a.tauArr.n := hl
  simp only [hbad, mem_biUnion, mem_range]
  refine ⟨m, hm', l, hl', ?_⟩
  rw [Multiset.mem_toFinset, Polynomial.mem_roots (Matrix.charpoly_monic _).ne_zero, Polynomial.IsRoot, Matrix.eval_charpoly]
  have e : Matrix.scalar (Fin (nHalf a)) y - M m l = -(toM (nHalf a) (fun i j => reduced (nHalf a) mu w (kernel a m l) i j
      - if i = j then 1 / (1 / Real.sqrt y) ^ 2 else 0)) := by
    ext i j
    have : 1 / (1 / Real.sqrt y) ^ 2 = y := by rw [div_pow, hsq]; field_simp
    rw [this]
    simp only [hM, Matrix.sub_apply, Matrix.neg_apply, toM, Matrix.scalar_apply, Matrix.diagonal_apply, Fin.ext_iff]
    ring
  rw [e, Matrix.det_neg]
  have h2 : (toM (nHalf a) (fun i j => reduced (nHalf a) mu w (kernel a m l) i j
      - if i = j then 1 / (1 / Real.sqrt y) ^ 2 else 0)).det = 0 := hdet
  rw [h2, mul_zero]

/-- `Σ w μ = 1/2`. -/
theorem sum_weight_node {E : Ext} {a : Args} (hg : GaussContract E (nHalf a)) (hn : 0 < nHalf a) :
    ∑ i ∈ range (nHalf a), weight E a i * node E a i = 1 / 2 := by
  have := half_exact hg Polynomial.X (by rw [Polynomial.natDegree_X]; omega)
  simp only [Polynomial.eval_X] at this
  rw [this]; simp

/-- A Lambertian surface with albedo of magnitude at most one is passive. -/
theorem passive_lambertian {E : Ext} {a : Args} (hg : GaussContract E (nHalf a)) (hn : 0 < nHalf a) {c : ℝ}
    (hc : c ^ 2 ≤ 1) (hb : a.bdrf = [.scalar c]) : PassiveSurface a (node E a) (weight E a) := by
  intro m _ M hM
  have hm : m = 0 := by
    by_contra h
    rw [hb, List.getElem?_eq_none (by simp; omega)] at hM
    cases hM
  subst hm
  rw [hb] at hM
  simp only [List.getElem?_cons_zero, Option.some.injEq] at hM
  subst hM
  refine ⟨fun _ _ => c, fun _ _ => rfl, fun d => ?_⟩
  set S := ∑ j ∈ range (nHalf a), weight E a j * node E a j * d j with hS
  have h1 : ∀ i ∈ range (nHalf a), weight E a i * node E a i *
      ((1 + if (0 : ℕ) = 0 then 1 else 0) * ∑ j ∈ range (nHalf a), weight E a j * node E a j * c * d j) ^ 2
      = weight E a i * node E a i * (4 * c ^ 2 * S ^ 2) := by
    intro i _
    have : ∑ j ∈ range (nHalf a), weight E a j * node E a j * c * d j = c * S := by
      rw [hS, mul_sum]; exact sum_congr rfl fun j _ => by ring
    rw [this, if_pos rfl]; ring
  rw [sum_congr rfl h1, ← sum_mul, sum_weight_node hg hn]
  have hpos : ∀ i ∈ range (nHalf a), 0 ≤ weight E a i * node E a i :=
    fun i hi => (mul_pos (weight_pos hg (mem_range.1 hi)) (node_pos hg (mem_range.1 hi)).1).le
  have hcs : S ^ 2 ≤ (∑ i ∈ range (nHalf a), weight E a i * node E a i)
      * ∑ i ∈ range (nHalf a), weight E a i * node E a i * d i ^ 2 := by
    refine sum_sq_le_sum_mul_sum_of_sq_le_mul _ hpos (fun i hi => mul_nonneg (hpos i hi) (sq_nonneg _)) fun i _ => ?_
    nlinarith
  rw [sum_weight_node hg hn] at hcs
  nlinarith [sq_nonneg S]

theorem passive_black {E : Ext} {a : Args} (hb : a.bdrf = []) : PassiveSurface a (node E a) (weight E a) := by
  intro m _ M hM
  rw [hb] at hM
  simp at hM

/-- A general source of well-posed problems: accepted arguments with at most one Legendre coefficient per stream of a
hemisphere, no beam (or a regular one) and a Lambertian or black surface. -/
theorem wellPosed_of {a : Args} (hacc : Accepted a) (hn : 0 < nHalf a) (hpk : ∀ l < a.tauArr.n, peak a l < 1)
    (hL : nLeg a ≤ nHalf a) (hbeam : BeamRegular a (node refExt a) (weight refExt a))
    (hs : a.bdrf = [] ∨ ∃ c : ℝ, c ^ 2 ≤ 1 ∧ a.bdrf = [.scalar c]) (hp : Azimuthless a.bpos) (hq : Azimuthless a.bneg)
    (hr : a.s.r = 1 ∨ a.s.r = a.tauArr.n) (hnt : a.NTcor = false)
    (hd : a.s.c ≤ 21 := by exact Nat.le_of_ble_eq_true rfl) : WellPosed refExt a := by
  have hg : GaussContract refExt (nHalf a) := refExt_gauss hn
  refine ⟨hacc, hg, refExt_eig, hpk, ?_, hbeam, ?_, hp, hq, hr, Or.inr hd, fun h => by rw [hnt] at h; cases h⟩
  · refine dissipates_of_nLeg_le hg hL hacc.omega (fun l hl => ⟨(Args.peak_range hacc l).1, hpk l hl⟩) ?_
    intro l hl k hk
    unfold leg
    split_ifs with h
    · exact le_rfl
    · refine (hacc.legVal l hl k ?_ (by omega)).2.le
      have := hacc.legCols
      unfold nLeg at hk
      omega
  · rcases hs with hs | ⟨c, hc, hs⟩
    · exact passive_black hs
    · exact passive_lambertian hg hn hc hs

/-- Without a beam there is no resonance. -/
theorem beamRegular_dark {a : Args} (h : a.I0 = 0) (mu w : Vec) : BeamRegular a mu w :=
  fun h' => absurd h' (by rw [h]; exact lt_irrefl _)

/-- A two-layer atmosphere with forward-peaked scattering, a beam, boundary intensities, a linear internal source,
delta-M scaling and a reflecting surface, with `2 n` streams. -/
noncomputable def demo (n : ℕ) (mu0 : ℝ) : Args where
  tauArr := ⟨2, fun k => (k : ℝ) + 1⟩
  omega := ⟨2, fun k => if k = 0 then 1 / 2 else 3 / 4⟩
  NQuad := 2 * n
  leg := ⟨2, 2 * n, fun _ k => (1 / 2) ^ k⟩
  mu0 := mu0
  I0 := 1
  phi0 := 1
  NLeg := some n
  NFourier := some n
  bpos := .scalar 1
  bneg := .vec ⟨n, fun _ => 1⟩
  fArr := ⟨2, fun _ => 1 / 8⟩
  bdrf := [.scalar (1 / 3)]
  s := ⟨2, 2, fun _ _ => 1⟩

section
variable {n : ℕ}

theorem demo_nHalf (x : ℝ) : nHalf (demo n x) = n := by
  show ((2 * (n : ℤ)) / 2).toNat = n
  omega

theorem demo_accepted (hn : 0 < n) {x : ℝ} (h0 : 0 < x) (h1 : x ≤ 1) : Accepted (demo n x) where
  layers := by simp [demo]
  top := by simp [demo]
  increasing := by intro k hk; simp [demo]
  omegaLen := rfl
  omega := by intro k _; simp only [demo]; split_ifs <;> norm_num
  legRows := rfl
  legCols := by simp only [demo, Option.getD_some]; push_cast; omega
  legVal := by
    intro l _ k _ hk
    simp only [demo]
    have hp : (0 : ℝ) < (1 / 2) ^ k := by positivity
    refine ⟨by linarith, ?_⟩
    exact pow_lt_one₀ (by norm_num) (by norm_num) (by omega)
  peakLen := Or.inr rfl
  peak := by intro k _; simp only [demo]; norm_num
  sourceRows := Or.inr rfl
  streams := by
    simp only [demo]
    exact ⟨by omega, ⟨(n : ℤ), by ring⟩⟩
  modes := by intro _; simp only [demo, Option.getD_some]; omega
  nLeg := by simp only [demo, Option.getD_some]; omega
  beam := by simp [demo]
  beamDir := by
    intro _
    refine ⟨⟨h0, h1⟩, by simp [demo], ?_⟩
    simp only [demo]
    linarith [Real.two_le_pi]
  bottom := trivial
  topBC := by
    rw [demo_nHalf]
    exact Or.inr (Or.inr rfl)
  banded := by simp [demo]

theorem demo_peak {x : ℝ} {l : ℕ} (hl : l < (demo n x).tauArr.n) : peak (demo n x) l = 1 / 8 := by
  unfold peak
  exact if_pos hl

theorem demo_rescalable (x : ℝ) : Rescalable (demo n x) := Or.inl (Or.inl (by simp [demo]))

/-- For every number of streams there is a well-posed problem of this kind. -/
theorem demo_wellPosed (hn : 0 < n) : ∃ x, WellPosed refExt (demo n x) := by
  obtain ⟨x, h0, h1, hb⟩ := exists_beamRegular (demo n 1) (node refExt (demo n 1)) (weight refExt (demo n 1))
  have hg : GaussContract refExt (nHalf (demo n x)) := by rw [demo_nHalf]; exact refExt_gauss hn
  refine ⟨x, demo_accepted hn h0 h1, hg, refExt_eig, ?_, ?_, hb, ?_, trivial, trivial, Or.inr rfl, Or.inr (by simp [demo]),
    by simp [demo]⟩
  · intro l hl; rw [demo_peak hl]; norm_num
  · refine dissipates_of_nLeg_le hg ?_ (demo_accepted hn h0 h1).omega ?_ ?_
    · rw [demo_nHalf]
      simp [nLeg, demo]
    · intro l hl; rw [demo_peak hl]; norm_num
    · intro l _ k _
      unfold leg
      split_ifs with h
      · exact le_rfl
      · exact pow_le_one₀ (by norm_num) (by norm_num)
  · exact passive_lambertian hg (by rw [demo_nHalf]; exact hn) (by norm_num) rfl

/-- A successful call meeting the standing hypotheses of the property theorems. -/
theorem demo_call (hn : 0 < n) (J : Junk) : ∃ x R, pydisort refExt J (demo n x) = .ok R ∧ WellPosed refExt (demo n x)
    ∧ Sound refExt (demo n x) ∧ Rescalable (demo n x) := by
  obtain ⟨x, hx⟩ := demo_wellPosed hn
  obtain ⟨R, hR⟩ := pydisort_isOk hx J
  exact ⟨x, R, hR, hx, hx.sound, demo_rescalable x⟩

/-- The surface of `demo`. -/
theorem demo_rho (x : ℝ) : ∀ (m : ℕ) (M : BDRFMode), (demo n x).bdrf[m]? = some M → Represents M (fun _ _ => 1 / 3) := by
  intro m M hM
  have hm : m = 0 := by
    by_contra h
    rw [show (demo n x).bdrf = [.scalar (1 / 3)] from rfl, List.getElem?_eq_none (by simp; omega)] at hM
    cases hM
  subst hm
  rw [show (demo n x).bdrf = [.scalar (1 / 3)] from rfl] at hM
  simp only [List.getElem?_cons_zero, Option.some.injEq] at hM
  subst hM
  exact fun _ _ => rfl

/-- The same atmosphere without a beam. -/
noncomputable def demoDark (n : ℕ) : Args := { demo n 1 with I0 := 0 }

theorem demoDark_accepted (hn : 0 < n) : Accepted (demoDark n) :=
  { demo_accepted (n := n) hn one_pos le_rfl with
    beam := le_rfl
    beamDir := fun h => absurd h (lt_irrefl _) }

theorem demoDark_wellPosed (hn : 0 < n) : WellPosed refExt (demoDark n) := by
  have hh : nHalf (demoDark n) = n := demo_nHalf 1
  have hg : GaussContract refExt (nHalf (demoDark n)) := by rw [hh]; exact refExt_gauss hn
  have hpk : ∀ l < (demoDark n).tauArr.n, peak (demoDark n) l = 1 / 8 := fun l hl => demo_peak (n := n) (x := 1) hl
  refine ⟨demoDark_accepted hn, hg, refExt_eig, ?_, ?_, fun h => absurd h (lt_irrefl _), ?_, trivial, trivial, Or.inr rfl,
    Or.inr (by simp [demoDark, demo]), by simp [demoDark, demo]⟩
  · intro l hl; rw [hpk l hl]; norm_num
  · refine dissipates_of_nLeg_le hg ?_ (demoDark_accepted hn).omega ?_ ?_
    · rw [hh]; simp [nLeg, demoDark, demo]
    · intro l hl; rw [hpk l hl]; norm_num
    · intro l _ k _
      unfold leg
      split_ifs with h
      · exact le_rfl
      · exact pow_le_one₀ (by norm_num) (by norm_num)
  · exact passive_lambertian hg (by rw [hh]; exact hn) (by norm_num) rfl

end

end Pydisort

import Verif.Spec.RTE
import Verif.Model.Pydisort
import Mathlib.Algebra.Polynomial.Eval.Degree
import Mathlib.MeasureTheory.Integral.IntervalIntegral.Basic

/-!
# Specification: the physical problem described by the arguments of `pydisort`

Everything here is written in terms of the caller's arguments (`Args`), following sections 1 and 3 of the
Comprehensive Documentation. None of the helper functions of the model are used.
-/

namespace Pydisort.Spec
open Finset

/-! ## Reading results -/

/-- The call succeeds and returns an array of length `n` with entries `v`. -/
def Returns1 (x : Py (A1 ℝ)) (n : ℕ) (v : ℕ → ℝ) : Prop :=
  ∃ A, x = .ok A ∧ A.n = n ∧ ∀ i < n, A.get i = v i

/-- The call succeeds and returns an array of shape `(r, c)` with entries `v`. -/
def Returns2 (x : Py (A2 ℝ)) (r c : ℕ) (v : ℕ → ℕ → ℝ) : Prop :=
  ∃ A, x = .ok A ∧ A.r = r ∧ A.c = c ∧ ∀ i < r, ∀ j < c, A.get i j = v i j

/-- The call succeeds and returns an array of shape `(d0, d1, d2)` with entries `v`. -/
def Returns3 (x : Py (A3 ℝ)) (d0 d1 d2 : ℕ) (v : ℕ → ℕ → ℕ → ℝ) : Prop :=
  ∃ A, x = .ok A ∧ A.d0 = d0 ∧ A.d1 = d1 ∧ A.d2 = d2 ∧
    ∀ i < d0, ∀ j < d1, ∀ k < d2, A.get i j k = v i j k

/-! ## Atmosphere -/

/-- Depth of layer boundary `l` (`0` is the top of the atmosphere). -/
def bdry (tau : ℕ → ℝ) (l : ℕ) : ℝ := if l = 0 then 0 else tau (l - 1)

/-- All entries of a depth array lie in the atmosphere. -/
def InRange (a : Args) (tau : A1 ℝ) : Prop :=
  ∀ t < tau.n, 0 ≤ tau.get t ∧ tau.get t ≤ a.tauArr.get (a.tauArr.n - 1)

/-- Fraction of light scattered into the forward peak, zero for missing entries. -/
def peak (a : Args) (l : ℕ) : ℝ := if l < a.fArr.n then a.fArr.get l else 0

/-- Phase-function Legendre coefficients: the zeroth one is 1 by normalisation. -/
def leg (a : Args) (l k : ℕ) : ℝ := if k = 0 then 1 else a.leg.get l k

/-- `dτ*/dτ = 1 - ω f` in layer `l`. -/
def scale (a : Args) (l : ℕ) : ℝ := 1 - a.omega.get l * peak a l

/-- Delta-M scaled single-scattering albedo. -/
noncomputable def omegaStar (a : Args) (l : ℕ) : ℝ := (1 - peak a l) * a.omega.get l / scale a l

/-- Delta-M scaled Legendre coefficients. -/
noncomputable def legStar (a : Args) (l k : ℕ) : ℝ := (leg a l k - peak a l) / (1 - peak a l)

/-- Delta-M scaled depth of layer boundary `l`. -/
noncomputable def bdryStar (a : Args) (l : ℕ) : ℝ :=
  ∑ k ∈ range l, scale a k * (bdry a.tauArr.get (k + 1) - bdry a.tauArr.get k)

/-- Delta-M scaled depth of depth `t` in layer `l`. -/
noncomputable def tauStar (a : Args) (l : ℕ) (t : ℝ) : ℝ := bdryStar a l + scale a l * (t - bdry a.tauArr.get l)

/-- The caller's isotropic source polynomial of layer `l` at depth `t` (zero if no row is given). -/
noncomputable def source (a : Args) (l : ℕ) (t : ℝ) : ℝ :=
  if l < a.s.r then ∑ k ∈ range a.s.c, a.s.get l k * t ^ k else 0

/-- Number of streams per hemisphere. -/
def nHalf (a : Args) : ℕ := (a.NQuad / 2).toNat

/-- Number of Legendre coefficients used. -/
def nLeg (a : Args) : ℕ := (a.NLeg.getD a.NQuad).toNat

/-- Number of Fourier modes used. -/
def nFourier (a : Args) : ℕ := if a.onlyFlux = true then 1 else (a.NFourier.getD a.NQuad).toNat

/-- Scattering is ignored in a Fourier mode in which no coefficient `ω/2 (2ℓ+1) g_ℓ`, `ℓ ≥ m`, exceeds
`1e-8` in magnitude. -/
def Significant (om : ℝ) (NLeg : ℕ) (g : ℕ → ℝ) (m : ℕ) : Prop :=
  ∃ k, m ≤ k ∧ k < NLeg ∧ 1 / 10 ^ 8 < |om / 2 * ((2 * (k : ℝ) + 1) * g k)|

open Classical in
/-- The scattering kernel `D^m(μ, μ')` of layer `l`. -/
noncomputable def kernel (a : Args) (m l : ℕ) (x y : ℝ) : ℝ :=
  if Significant (omegaStar a l) (nLeg a) (legStar a l) m then
    scatD (omegaStar a l) (nLeg a) (legStar a l) m x y else 0

open Classical in
/-- The beam source amplitude `X^m(μ)` of layer `l`. -/
noncomputable def beamSource (a : Args) (m l : ℕ) (x : ℝ) : ℝ :=
  if Significant (omegaStar a l) (nLeg a) (legStar a l) m then
    beamX (omegaStar a l) (nLeg a) (legStar a l) a.I0 a.mu0 m x else 0

/-! ## Contracts of the external routines -/

/-- Contract of `numpy.polynomial.legendre.leggauss(n)`: nodes strictly inside `(-1, 1)`, positive weights,
exact for polynomials of degree at most `2 n - 1`. -/
structure GaussContract (E : Ext) (n : ℕ) : Prop where
  node : ∀ i < n, -1 < (E.leggauss n).1 i ∧ (E.leggauss n).1 i < 1
  weight : ∀ i < n, 0 < (E.leggauss n).2 i
  exact : ∀ p : Polynomial ℝ, p.natDegree ≤ 2 * n - 1 →
    ∑ i ∈ range n, (E.leggauss n).2 i * p.eval ((E.leggauss n).1 i) = ∫ x in (-1 : ℝ)..1, p.eval x

/-- `V` is a matrix of eigenvectors of the `n × n` matrix `A` with eigenvalues `d`, and it is invertible. -/
def IsEigenBasis (n : ℕ) (A : Mat) (d : Vec) (V : Mat) : Prop :=
  (toM n V).det ≠ 0 ∧ ∀ i < n, ∀ j < n, ∑ k ∈ range n, A i k * V k j = d j * V i j

/-- Contract of `np.linalg.eig`: on a matrix that is diagonalisable over the reals it returns an
eigenvector basis with its eigenvalues. -/
def EigContract (E : Ext) : Prop :=
  ∀ (n : ℕ) (A : Mat), (∃ d V, IsEigenBasis n A d V) → IsEigenBasis n A (E.eig n (toM n A)).1 (E.eig n (toM n A)).2

/-- Diagonalisable with positive eigenvalues. -/
def PosDiag (n : ℕ) (A : Mat) : Prop := ∃ d V, IsEigenBasis n A d V ∧ ∀ j < n, 0 < d j

/-- `α`: `(D(μ_i, μ_j) w_j - δ_ij) / μ_i`. -/
noncomputable def alpha (mu w : Vec) (D : ℝ → ℝ → ℝ) (i j : ℕ) : ℝ :=
  (D (mu i) (mu j) * w j - if i = j then 1 else 0) / mu i

/-- `β`: `D(μ_i, -μ_j) w_j / μ_i`. -/
noncomputable def beta (mu w : Vec) (D : ℝ → ℝ → ℝ) (i j : ℕ) : ℝ := D (mu i) (-mu j) * w j / mu i

/-- The reduced matrix `(α - β)(α + β)` of the order-reduced eigenvalue problem. -/
noncomputable def reduced (N : ℕ) (mu w : Vec) (D : ℝ → ℝ → ℝ) (i j : ℕ) : ℝ :=
  ∑ k ∈ range N, (alpha mu w D i k - beta mu w D i k) * (alpha mu w D k j + beta mu w D k j)

/-- The discrete ordinates problem of the arguments is regular: in every layer and every Fourier mode with
scattering, the reduced matrix has real, positive eigenvalues and a basis of eigenvectors. -/
def Regular (a : Args) (mu w : Vec) : Prop :=
  ∀ m < nFourier a, ∀ l < a.tauArr.n, Significant (omegaStar a l) (nLeg a) (legStar a l) m →
    PosDiag (nHalf a) (reduced (nHalf a) mu w (kernel a m l))

/-- Quadrature nodes in `(0, 1)`: the Gauss nodes transported from `(-1, 1)`. -/
noncomputable def node (E : Ext) (a : Args) (i : ℕ) : ℝ := ((E.leggauss (nHalf a)).1 i + 1) / 2

/-- Quadrature weights for `(0, 1)`. -/
noncomputable def weight (E : Ext) (a : Args) (i : ℕ) : ℝ := (E.leggauss (nHalf a)).2 i / 2

/-- When both a beam and an internal source are present: `1 / μ₀²` is not an eigenvalue of the reduced matrix
of a scattering layer in mode zero. (With a beam alone the code detects this case itself and raises.) -/
def NonResonant (a : Args) (mu w : Vec) : Prop :=
  0 < a.I0 → (∃ i < a.s.r, ∃ j < a.s.c, a.s.get i j ≠ 0) → ∀ l < a.tauArr.n,
    Significant (omegaStar a l) (nLeg a) (legStar a l) 0 →
    (toM (nHalf a) (fun i j => reduced (nHalf a) mu w (kernel a 0 l) i j
      - if i = j then 1 / a.mu0 ^ 2 else 0)).det ≠ 0

/-- Assumptions under which the numerical ingredients of a call are meaningful: the external routines meet
their contracts, no forward peak carries all the scattering (`f = 1` makes the code divide by zero), and
the eigenvalue problems are regular. -/
structure Numerics (E : Ext) (a : Args) : Prop where
  gauss : GaussContract E (nHalf a)
  eig : EigContract E
  peak : ∀ l < a.tauArr.n, peak a l < 1
  regular : Regular a (node E a) (weight E a)
  nonres : NonResonant a (node E a) (weight E a)

/-- Besides, a source polynomial has at most 21 coefficients: `_mathscr_v` (subroutines.py 838-841) multiplies the factorials in 64-bit
integers, and `21!` overflows (C07). -/
structure Sound (E : Ext) (a : Args) : Prop extends Numerics E a where
  degree : (∀ i < a.s.r, ∀ j < a.s.c, a.s.get i j = 0) ∨ a.s.c ≤ 21

instance (E : Ext) (a : Args) : Coe (Sound E a) (Numerics E a) := ⟨Sound.toNumerics⟩

/-! ## The equation in the caller's terms -/

/-- Right-hand side of the transfer equation of Fourier mode `m` in layer `l` at the caller's depth `t`,
`μ_i du_i/dτ = (1 - ω f) (u_i - Σ_j w_j D^m(μ_i, μ_j) u_j - X^m(μ_i) e^{-τ*/μ₀}) - δ_{m0} (1 - ω) S(τ)`. -/
noncomputable def rteUser (a : Args) (mu w : Vec) (m l : ℕ) (t : ℝ) (u : ℕ → ℝ) (i : ℕ) : ℝ :=
  scale a l * rteRHS (nHalf a) mu w (kernel a m l) (beamSource a m l) a.mu0 0 (tauStar a l t) u i
    - if m = 0 then (1 - a.omega.get l) * source a l t else 0

end Pydisort.Spec

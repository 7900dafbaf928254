import Verif.Spec.Validation

/-!
# Specification: what the intensity field has to satisfy

In terms of the caller's arguments; sections 1, 3.1 and 3.6 of the Comprehensive Documentation.
-/

namespace Pydisort.Spec
open Finset

/-- Some entry of the boundary value is positive. -/
def HasPos : BCv → Prop
  | .scalar x => 0 < x
  | .vec v => ∃ i < v.n, 0 < v.get i
  | .mat v => ∃ i < v.r, ∃ j < v.c, 0 < v.get i j

/-- There is light: a beam, a positive boundary value, or an internal source that is positive at the very
top or at the very bottom of the atmosphere. -/
def Lit (a : Args) : Prop :=
  0 < a.I0 ∨ HasPos a.bpos ∨ HasPos a.bneg ∨ 0 < source a 0 0
    ∨ 0 < source a (a.tauArr.n - 1) (a.tauArr.get (a.tauArr.n - 1))

/-- The boundary value is zero. -/
def ZeroBC : BCv → Prop
  | .scalar x => x = 0
  | .vec v => ∀ i < v.n, v.get i = 0
  | .mat v => ∀ i < v.r, ∀ j < v.c, v.get i j = 0

/-- The internal normalisation of the sources is possible: there is light, or there is no source of any
kind. (See C30 for what happens otherwise.) -/
def Rescalable (a : Args) : Prop := Lit a ∨ (NoSource a ∧ ZeroBC a.bpos ∧ ZeroBC a.bneg)

/-- Boundary value of Fourier mode `m` at node `i`: azimuth-independent scalars and vectors contribute to mode
zero only, a two-dimensional array has one column per mode. A vector of length one is a scalar. Missing
entries are zero. -/
def bcVal (b : BCv) (m i : ℕ) : ℝ :=
  match b with
  | .scalar x => if m = 0 then x else 0
  | .vec v => if m = 0 then (if v.n = 1 then v.get 0 else if i < v.n then v.get i else 0) else 0
  | .mat v => if i < v.r ∧ m < v.c then v.get i m else 0

/-- The boundary value does not depend on azimuth: a scalar or one value per stream. -/
def Azimuthless : BCv → Prop
  | .mat v => ∀ i < v.r, ∀ j < v.c, v.get i j = 0
  | _ => True

/-- A BDRF mode represents the function `rho` of `(μ, μ')`: a number represents a constant, a function returns
the two-dimensional array of values. -/
def Represents : BDRFMode → (ℝ → ℝ → ℝ) → Prop
  | .scalar c, rho => ∀ x y, rho x y = c
  | .func f, rho => ∀ x y : A1 ℝ, ∃ v, f x y = .arr v ∧ v.r = x.n ∧ v.c = y.n ∧
      ∀ i < x.n, ∀ j < y.n, v.get i j = rho (x.get i) (y.get j)

/-- Light reflected by the surface into the upward direction `x` in mode `m`: from the downward diffuse
intensities `d j` and from the direct beam. -/
noncomputable def reflected (a : Args) (mu w : Vec) (rho : ℝ → ℝ → ℝ) (m : ℕ) (x : ℝ) (d : ℕ → ℝ) : ℝ :=
  (1 + if m = 0 then 1 else 0) * ∑ j ∈ range (nHalf a), w j * mu j * rho x (mu j) * d j
    + a.mu0 * a.I0 / Real.pi * rho x a.mu0 * Real.exp (-bdryStar a a.tauArr.n / a.mu0)

/-- Depth `t` lies in layer `l` (closed). -/
def InLayer (a : Args) (l : ℕ) (t : ℝ) : Prop :=
  bdry a.tauArr.get l ≤ t ∧ t ≤ bdry a.tauArr.get (l + 1)

/-- `U m t i` are the Fourier modes of the intensity computed by `R`: `u0` returns mode zero, and the
uncorrected intensity function is their Fourier series. -/
structure IsModes (a : Args) (R : Solved) (U : ℕ → ℝ → ℕ → ℝ) : Prop where
  u0 : ∀ tau, InRange a tau →
    Returns2 (R.u0 tau false) (2 * nHalf a) tau.n (fun i t => U 0 (tau.get t) i)
  u : ∀ tau phi, InRange a tau →
    Returns3 (R.uUncorrected tau phi false) (2 * nHalf a) tau.n phi.n (fun i t p =>
      ∑ m ∈ range (nFourier a), U m (tau.get t) i * Real.cos (m * (a.phi0 - phi.get p)))

end Pydisort.Spec

import Verif.Spec.Flux

/-!
# Specification: the returned functions as functions of depth and azimuth, and changes of the sources
-/

namespace Pydisort.Spec

/-- What the returned functions compute, as functions of depth `t`, stream `i` and azimuth `ph`. -/
structure Fields where
  u0 : ℝ → ℕ → ℝ
  up : ℝ → ℝ
  diffuse : ℝ → ℝ
  direct : ℝ → ℝ
  u : ℝ → ℝ → ℕ → ℝ

/-- `F` is what the functions returned in `R` compute: for every array of depths of the atmosphere (and every array of
azimuths). `u` is absent with `only_flux = True`; with `NT_cor = True` it needs a non-empty array of depths and, if there are
only two streams, a single azimuth (see C45). -/
structure Evaluates (a : Args) (R : Solved) (F : Fields) : Prop where
  u0 : ∀ tau, InRange a tau → Returns2 (R.u0 tau false) (2 * nHalf a) tau.n (fun i t => F.u0 (tau.get t) i)
  up : ∀ tau, InRange a tau → Returns1 (R.fluxUp tau false) tau.n (fun t => F.up (tau.get t))
  down : ∀ tau, InRange a tau → ReturnsFluxes (R.fluxDown tau false) tau.n (fun t => F.diffuse (tau.get t))
    (fun t => F.direct (tau.get t))
  u : a.onlyFlux = false → ∀ tau phi, InRange a tau → (a.NTcor = true → tau.n ≠ 0 ∧ (nHalf a ≠ 1 ∨ phi.n = 1)) →
    Returns3 (R.u tau phi false) (2 * nHalf a) tau.n phi.n (fun i t p => F.u (tau.get t) (phi.get p) i)

/-- The sources of light: beam intensity, boundary values and internal source. -/
structure Sources where
  I0 : ℝ
  bpos : BCv
  bneg : BCv
  s : A2 ℝ

/-- The same atmosphere (and options) with other sources. -/
def under (a : Args) (S : Sources) : Args :=
  { a with
    I0 := S.I0
    bpos := S.bpos
    bneg := S.bneg
    s := S.s }

/-- The sources `S` are the sum of `S₁` and `S₂`: of the beam intensities, of the boundary values of every Fourier mode and
stream, and of the internal sources at every depth. -/
structure SumOf (a : Args) (S₁ S₂ S : Sources) : Prop where
  beam : S.I0 = S₁.I0 + S₂.I0
  bottom : ∀ m i, bcVal S.bpos m i = bcVal S₁.bpos m i + bcVal S₂.bpos m i
  top : ∀ m i, bcVal S.bneg m i = bcVal S₁.bneg m i + bcVal S₂.bneg m i
  source : ∀ l < a.tauArr.n, ∀ t, source (under a S) l t = source (under a S₁) l t + source (under a S₂) l t

/-- The fields add up. -/
def Fields.add (F G : Fields) : Fields where
  u0 := fun t i => F.u0 t i + G.u0 t i
  up := fun t => F.up t + G.up t
  diffuse := fun t => F.diffuse t + G.diffuse t
  direct := fun t => F.direct t + G.direct t
  u := fun t ph i => F.u t ph i + G.u t ph i

end Pydisort.Spec

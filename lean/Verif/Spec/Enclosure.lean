import Verif.Spec.Bounds
import Verif.Spec.Thermal

/-!
# Specification: a thermal problem set up with the helpers of the package
-/

namespace Pydisort.Spec

/-- A surface of emissivity `e` radiating like a body whose black body emission is `B`, as a boundary value. -/
def emits (B : ℝ) : Emis → BCv
  | .scalar e => .scalar (e * B)
  | .arr v => .vec (v.map (· * B))

/-- The sources of the call are those of a body of temperature `T` throughout, in the band `[lo, hi]`, set up with `generate_s_poly_coeffs`,
`blackbody_contrib_to_BCs` and `generate_emissivity_from_BDRF`. -/
structure HelpersAt (E : Ext) (Q : QuadVec) (a : Args) (T lo hi : ℝ) : Prop where
  noBeam : a.I0 = 0
  source : generateSPoly Q a.tauArr ⟨a.tauArr.n + 1, fun _ => T⟩ lo hi = .ok a.s
  top : a.bneg = .scalar ((blackbodyContrib Q ⟨1, fun _ => T⟩ lo hi).get 0)
  black : a.bdrf = [] → a.bpos = .scalar ((blackbodyContrib Q ⟨1, fun _ => T⟩ lo hi).get 0)
  surface : ∀ M, a.bdrf[0]? = some M → ∃ e, emissivity E (nHalf a) M = .ok e ∧
    a.bpos = emits ((blackbodyContrib Q ⟨1, fun _ => T⟩ lo hi).get 0) e

end Pydisort.Spec

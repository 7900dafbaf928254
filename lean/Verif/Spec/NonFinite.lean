import Verif.Model.NonFinite

/-! # Specification: values that are not finite numbers -/

namespace Pydisort.Spec

/-- The boundary condition contains the value. -/
def Contains : BCvF → Fl → Prop
  | .scalar y, x => y = x
  | .vec v, x => ∃ i < v.n, v.get i = x
  | .mat v, x => ∃ i < v.r, ∃ j < v.c, v.get i j = x

/-- The incident intensity or a boundary condition contains the value. -/
def SourceContains (a : ArgsF) (x : Fl) : Prop := a.I0 = x ∨ Contains a.bpos x ∨ Contains a.bneg x

/-- Every number in the results of `u`, `u0`, `flux_up` and `flux_down` at these depths and azimuths, if they are returned, has the property. -/
structure AllResults (I : AsmF) (tau phi : A1 Fl) (P : Fl → Prop) : Prop where
  intensity : ∀ A, I.u tau phi = .ok A → ∀ i < A.d0, ∀ t < A.d1, ∀ p < A.d2, P (A.get i t p)
  mean : ∀ A, I.u0 tau = .ok A → ∀ i < A.r, ∀ t < A.c, P (A.get i t)
  up : ∀ A, I.fluxUp tau = .ok A → ∀ t < A.n, P (A.get t)
  down : ∀ A, I.fluxDown tau = .ok A → (∀ t < A.1.n, P (A.1.get t)) ∧ ∀ t < A.2.n, P (A.2.get t)

end Pydisort.Spec

import Verif.Model.Pydisort

/-!
# Model of `cache_BDRF_Fourier_modes` (`subroutines.py` 490-570)
-/

namespace Pydisort

/-- `np.append(v, x)` for a number `x`. -/
def A1.append1 (v : A1 ℝ) (x : ℝ) : A1 ℝ := ⟨v.n + 1, fun i => if i < v.n then v.get i else x⟩

/-- One entry of the cached list with caching of `mu0`, lines 526-547. `np.isscalar` of the evaluated mode is the constructor `BOut.scalar`.
(Simplification: an evaluated mode without columns makes `[:, [-1]]` raise; this is not modelled.) -/
noncomputable def cacheWithMu0 (pts : A1 ℝ) (mu0 : ℝ) (M : BDRFMode) : BDRFMode :=
  let ev : BOut := match M with
    | .scalar c => .scalar c
    | .func f => f pts (pts.append1 mu0)
  .func fun _ neg =>
    match ev with
    | .scalar c => .scalar c
    | .arr v => if neg.n = 1 then .arr ⟨v.r, 1, fun i _ => v.get i (v.c - 1)⟩ else .arr ⟨v.r, v.c - 1, v.get⟩

/-- One entry of the cached list without caching of `mu0`, lines 549-570. -/
noncomputable def cacheWithoutMu0 (pts : A1 ℝ) (M : BDRFMode) : BDRFMode :=
  match M with
  | .scalar c => .func fun _ _ => .scalar c
  | .func f => .func fun _ neg =>
    match f pts pts with
    | .scalar c => .scalar c
    | .arr v => if neg.n = 1 then f pts neg else .arr v

open Classical in
/-- `cache_BDRF_Fourier_modes(N, BDRF_Fourier_modes, mu0)`. The warning of line 520 is not modelled. -/
noncomputable def cacheBDRF (E : Ext) (N : ℕ) (modes : List BDRFMode) (mu0 : ℝ) : Py (List BDRFMode) := do
  let q ← gaussLegendreQuad E N 0 1
  if 0 < mu0 ∧ mu0 ≤ 1 then return modes.map (cacheWithMu0 q.1 mu0)
  else return modes.map (cacheWithoutMu0 q.1)

end Pydisort

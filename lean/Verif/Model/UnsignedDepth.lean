import Verif.Model.IntDepth

/-!
# Model: the returned functions on unsigned depths

`np.atleast_1d(tau)` (lines 179, 344, 453, 535 of `_assemble_intensity_and_fluxes.py`) keeps the dtype of the depths, and the code forms `-tau`: for unsigned integers of `w` bits this is `2^w - tau`
(zero for `tau = 0`), which is divided by `mu0` and exponentiated. Without delta-M scaling `scaled_tau` is `tau` itself, so that `-scaled_tau` wraps around as well. Everything else that is done with the
depths gives floats, except for the powers in `_mathscr_v` (line 860 of `subroutines.py`): the exponents are 64-bit signed integers, so that the powers are 64-bit signed integers as well if `w < 64`
(as in `Model/IntDepth.lean`), and floats if `w = 64`. Modelled are the values, not the antiderivatives, and `u` without the intensity corrections. The arithmetic after the conversion to floats is exact:
with 16 bits or more the exponentials would overflow to infinity.
-/

namespace Pydisort
open Finset

/-- `-t` for an unsigned integer of `w` bits. -/
def negU (w t : ℕ) : ℕ := (2 ^ w - t) % 2 ^ w

/-- The depths as signed integers. -/
def A1.natToInt (tau : A1 ℕ) : A1 ℤ := ⟨tau.n, fun k => (tau.get k : ℤ)⟩

/-- The depths as floats. -/
def A1.natToReal (tau : A1 ℕ) : A1 ℝ := ⟨tau.n, fun k => (tau.get k : ℝ)⟩

namespace AsmIn
variable (I : AsmIn) (w : ℕ)

open Classical in
/-- Lines 190-195 (and their repetitions), negated: `-scaled_tau`. -/
noncomputable def negScaledU (t : ℕ) : ℝ := if ∃ k < I.NLayers, I.scale k ≠ 1 then -I.scaledTau t else (negU w t : ℝ)

/-- Lines 222-233 / 398-408 / 511 / 591, as `umPlain`. -/
noncomputable def umPlainU (S : Sols) (m i : ℕ) (t : ℕ) : ℝ :=
  (∑ j ∈ range (2 * I.N), S.GC m (I.layer t) i j * Real.exp (I.exponent S m t j))
    + if I.beam = true then S.B m (I.layer t) i * Real.exp (I.negScaledU w t / I.mu0) else 0

/-- As `addIso`. -/
noncomputable def addIsoU (S : Sols) (tau : A1 ℕ) (row0 rows : ℕ) (a : A2 ℝ) : Py (A2 ℝ) :=
  if w < 64 then I.addIsoInt S tau.natToInt false row0 rows a else I.addIso S tau.natToReal false row0 rows a

/-- Lines 334-433: `u0(tau)`. -/
noncomputable def u0U (S : Sols) (tau : A1 ℕ) : Py (A2 ℝ) := do
  I.checkTau tau.natToReal
  let a ← I.addIsoU w S tau 0 (2 * I.N) ⟨2 * I.N, tau.n, fun i t => I.umPlainU w S 0 i (tau.get t)⟩
  return a.map (fun x => I.rescale * x)

/-- Lines 446-524: `flux_up(tau)`. -/
noncomputable def fluxUpU (S : Sols) (tau : A1 ℕ) : Py (A1 ℝ) := do
  I.checkTau tau.natToReal
  let a ← I.addIsoU w S tau 0 I.N ⟨I.N, tau.n, fun i t => I.umPlainU w S 0 i (tau.get t)⟩
  return (I.fluxQuad a).map (fun x => I.rescale * x)

/-- Line 592: `direct_beam`. -/
noncomputable def directU (t : ℕ) : ℝ := I.I0 * I.mu0 * Real.exp ((negU w t : ℝ) / I.mu0)

/-- Line 593: `direct_beam_scaled`. -/
noncomputable def directScaledU (t : ℕ) : ℝ := I.I0 * I.mu0 * Real.exp (I.negScaledU w t / I.mu0)

/-- Lines 527-613: `flux_down(tau)`. -/
noncomputable def fluxDownU (S : Sols) (tau : A1 ℕ) : Py (A1 ℝ × A1 ℝ × Bool) := do
  I.checkTau tau.natToReal
  let a ← I.addIsoU w S tau I.N I.N ⟨I.N, tau.n, fun i t => I.umPlainU w S 0 (I.N + i) (tau.get t)⟩
  let q := I.fluxQuad a
  if I.beam = true then do
    let d1 ← A1.bin (fun x y => x + y) q ⟨tau.n, fun t => I.directScaledU w (tau.get t)⟩
    let d2 ← A1.bin (fun x y => x - y) d1 ⟨tau.n, fun t => I.directU w (tau.get t)⟩
    return (d2.map (fun x => I.rescale * x), ⟨tau.n, fun t => I.rescale * I.directU w (tau.get t)⟩, true)
  else
    return (q.map (fun x => I.rescale * (x + 0 - 0)), ⟨1, fun _ => I.rescale * 0⟩, false)

/-- Lines 236-254, as `um0`. -/
noncomputable def um0U (S : Sols) (tau : A1 ℕ) : Py (A2 ℝ) :=
  let a : A2 ℝ := ⟨2 * I.N, tau.n, fun i t => I.umPlainU w S 0 i (tau.get t)⟩
  if I.iso = true then do
    let r ← I.addIsoU w S tau 0 (2 * I.N) a
    if I.NFourier = 1 ∨ r.c = tau.n then .ok r else .error .shapeError
  else .ok a

/-- Lines 170-262: `u(tau, phi)`. -/
noncomputable def uU (S : Sols) (tau : A1 ℕ) (phi : A1 ℝ) : Py (A3 ℝ) := do
  I.checkTau tau.natToReal
  let a ← I.um0U w S tau
  return ⟨2 * I.N, a.c, phi.n, fun i t p => I.rescale * ∑ m ∈ range I.NFourier,
    (if m = 0 then a.get i t else I.umPlainU w S m i (tau.get t)) * Real.cos ((m : ℝ) * (I.phi0 - phi.get p))⟩

end AsmIn

namespace Solved
variable (R : Solved) (w : ℕ)

/-- The returned function `u0`. -/
noncomputable def u0U (tau : A1 ℕ) : Py (A2 ℝ) := R.I.u0U w R.S tau
/-- The returned function `flux_up`. -/
noncomputable def fluxUpU (tau : A1 ℕ) : Py (A1 ℝ) := R.I.fluxUpU w R.S tau
/-- The returned function `flux_down`. -/
noncomputable def fluxDownU (tau : A1 ℕ) : Py (A1 ℝ × A1 ℝ × Bool) := R.I.fluxDownU w R.S tau
/-- The returned function `u`, if there are no intensity corrections. -/
noncomputable def uU (tau : A1 ℕ) (phi : A1 ℝ) : Py (A3 ℝ) := if R.onlyFlux = true then .error .typeError else R.I.uU w R.S tau phi

end Solved

end Pydisort

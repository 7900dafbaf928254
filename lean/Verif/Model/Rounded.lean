import Verif.Model.Pydisort

/-!
# Model: delta-M scaling with rounded arithmetic

The lines of the code that prepare the optical properties and locate a depth, with a rounding `r` after every arithmetic operation; comparisons are exact. With `r = id` this
is the exact model (`opticsR_id` in `Props/Rounded.lean`). Multiplications by an integer array convert it to floats, which is exact here. The internal source and the
linear algebra are not covered.
-/

namespace Pydisort
open Finset

/-- `np.cumsum`: running sums, rounded one after the other. -/
def cumsumR (r : ℝ → ℝ) (v : Vec) : ℕ → ℝ
  | 0 => v 0
  | k + 1 => r (cumsumR r v k + v (k + 1))

namespace Args
variable (r : ℝ → ℝ) (a : Args)

/-- `thickness_arr`, line 212 of `pydisort.py`. -/
def thickR (k : ℕ) : ℝ := if k = 0 then a.tauArr.get 0 else r (a.tauArr.get (k - 1 + 1) - a.tauArr.get (k - 1))

open Classical in
/-- Lines 246-248 of `pydisort.py`. -/
noncomputable def legFixR : Mat := fun l k =>
  if ¬ (∀ l < a.NLayers, r (a.omega.get l * a.leg.get l 0) = a.omega.get l) ∧ k = 0 then 1 else a.leg.get l k

/-- Delta-M scaled optical properties without the internal source. -/
structure _root_.Pydisort.OpticsR where
  scale : Vec
  tau0 : Vec
  omega : Vec
  leg : Mat
  wLeg : Mat

/-- `scale_tau`, line 318 of `pydisort.py`. -/
def scaleR (k : ℕ) : ℝ := r (1 - r (a.omega.get k * a.fArr.get k))

open Classical in
/-- Lines 316-338 of `pydisort.py`, without the lines for `scaled_s_poly_coeffs`. -/
noncomputable def opticsR : OpticsR :=
  if ∃ k < a.fArr.n, 0 < a.fArr.get k then
    let leg := fun l k => r (r (a.legFixR r l k - a.fArr.get l) / r (1 - a.fArr.get l))
    ⟨a.scaleR r, fun k => if k = 0 then 0 else cumsumR r (fun j => r (a.scaleR r j * a.thickR r j)) (k - 1),
      fun k => r (r (r (1 - a.fArr.get k) / a.scaleR r k) * a.omega.get k), leg, fun l k => r (leg l k * (2 * (k : ℝ) + 1))⟩
  else
    ⟨fun _ => 1, fun k => if k = 0 then 0 else a.tauArr.get (k - 1), a.omega.get, a.legFixR r, fun l k => r (a.legFixR r l k * (2 * (k : ℝ) + 1))⟩

open Classical in
/-- `scaled_tau` of a depth in layer `l`: lines 190-195 of `_assemble_intensity_and_fluxes.py`, repeated on lines 354-369, 463-468 and 545-550. -/
noncomputable def scaledTauR (l : ℕ) (t : ℝ) : ℝ :=
  if ∃ k < a.NLayers, (a.opticsR r).scale k ≠ 1 then
    r ((a.opticsR r).tau0 (l + 1) - r (r (a.tauArr.get l - t) * (a.opticsR r).scale l))
  else t

/-- The exponents of the homogeneous solution, lines 197-203 of `_assemble_intensity_and_fluxes.py`, repeated on lines 373-379, 485-491 and 567-573: eigenvalue `K`, in the first half of the columns (`front`) measured from the
upper boundary of the layer, in the second half from the lower boundary. -/
noncomputable def exponentR (K : ℝ) (front : Bool) (l : ℕ) (t : ℝ) : ℝ :=
  r (K * r (a.scaledTauR r l t - (a.opticsR r).tau0 (if front = true then l else l + 1)))

end Args

/-- A quadrature node of `Gauss_Legendre_quad(N)`: `(arr - a) * (d - c) / (b - a) + c` with `a = -1, b = 1, c = 0, d = 1` (`subroutines.py` 55, 138). -/
noncomputable def nodeR (r : ℝ → ℝ) (x : ℝ) : ℝ := r (r (r (r (x - -1) * r (1 - 0)) / r (1 - -1)) + 0)

/-- A source divided by the rescale factor, lines 361-363 and 368-370 of `pydisort.py`. -/
noncomputable def rescaledR (r : ℝ → ℝ) (x m : ℝ) : ℝ := r (x / m)

end Pydisort

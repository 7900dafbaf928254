import Verif.Model.NonFinite

/-!
# Model: the intensity corrections when exponentials underflow

Lines 409-694 of `pydisort.py` once more, with an exponential function `ex` that may return zero, and with the divisions by `decay_prod` (lines 534 and 575) in IEEE arithmetic: what is divided by zero
is infinite or NaN. Simplification: everything else is exact (as in `Model/NT.lean`), in particular the uncorrected intensity and the secondary-scattering correction, in which
nothing is divided by an exponential.
-/

namespace Pydisort
open Finset

namespace NTIn
variable (I : NTIn) (ex : ℝ → ℝ)

/-- Lines 459-479, as in `tmsOwn`. -/
noncomputable def tmsOwnU (anti : Bool) (l : ℕ) (st : ℝ) (i : ℕ) : ℝ :=
  if i < I.N then
    if anti = true then
      ex (-st / I.mu0) / (-I.scale l / I.mu0)
        - ex ((st - I.tau0 (l + 1)) / I.mu i - I.tau0 (l + 1) / I.mu0) / (I.scale l / I.mu i)
    else ex (-st / I.mu0) - ex ((st - I.tau0 (l + 1)) / I.mu i - I.tau0 (l + 1) / I.mu0)
  else
    if anti = true then
      ex (-st / I.mu0) / (-I.scale l / I.mu0)
        + ex ((I.tau0 l - st) / I.mu (i - I.N) - I.tau0 l / I.mu0) / (I.scale l / I.mu (i - I.N))
    else ex (-st / I.mu0) - ex ((I.tau0 l - st) / I.mu (i - I.N) - I.tau0 l / I.mu0)

/-- Lines 498-500: `exp_taufront_mu0_inv`. -/
noncomputable def expFrontU (r : ℕ) : ℝ := if r = 0 then 1 else ex (-I.tau0 r * (1 / I.mu0))

/-- Lines 507-511: `decay_prod[n, k]`. -/
noncomputable def decayProdU (n k : ℕ) : ℝ := if k = 0 then 1 else ex (cumsum (I.logDecay n) (k - 1))

/-- Lines 527-531: `weighted_layer_term_pos[n, r]`. `np.expm1` (line 523) tends to -1 and needs no `ex`. -/
noncomputable def wTermPosU (anti : Bool) (n r : ℕ) : ℝ := I.em1Pos anti n r * I.expFrontU ex r * I.decayProdU ex n r

/-- Line 532. -/
noncomputable def cumsumPosU (anti : Bool) (n r : ℕ) : ℝ :=
  cumsum (fun k => I.wTermPosU ex anti n (I.NLayers - 1 - k)) (I.NLayers - 1 - r)

/-- Lines 534-535: `Rpos[n, l]`, with the division of line 534 in IEEE arithmetic. -/
noncomputable def RposU (anti : Bool) (n l : ℕ) : Fl :=
  if l < I.NLayers - 1 then Fl.div (.fin (I.cumsumPosU ex anti n (l + 1))) (.fin (I.decayProdU ex n (l + 1))) else .fin 0

open Classical in
/-- Lines 552-571: `layer_term_neg[n, r]`. -/
noncomputable def termNegU (anti : Bool) (n r : ℕ) : ℝ :=
  let th := I.thick r * (I.M_inv n - 1 / I.mu0)
  let x1 := ex (-I.tau0 (r + 1) * (1 / I.mu0))
  let x0 := ex (I.logDecay n r) * I.expFrontU ex r
  let em1 := Real.exp (-|th|) - 1
  let t := -em1 * x1 * (if th ≥ 0 then 1 else 0) + em1 * x0 * (if th ≥ 0 then 0 else 1)
  if anti = true then -I.intFactor n r * t else t

/-- Lines 575-579: `Rneg[n, l]`, with the division of line 575 in IEEE arithmetic. -/
noncomputable def RnegU (anti : Bool) (n l : ℕ) : Fl :=
  if l = 0 then .fin 0
  else Fl.mul (.fin (I.decayProdU ex n l)) (Fl.sum l fun r => Fl.div (.fin (I.termNegU ex anti n r)) (.fin (I.decayProdU ex n (r + 1))))

/-- Lines 482-589, as in `tmsVal`. -/
noncomputable def tmsValU (anti : Bool) (i l : ℕ) (st nu : ℝ) : Fl :=
  Fl.add (.fin (I.tmsB i l nu * I.tmsOwnU ex anti l st i))
    (if I.NLayers > 1 then
        if i < I.N then Fl.mul (Fl.mul (I.RposU ex anti i l) (.fin (ex (I.M_inv i * (st - I.tau0 (l + 1)))))) (.fin (I.tmsB i l nu))
        else Fl.mul (Fl.mul (I.RnegU ex anti (i - I.N) l) (.fin (ex (I.M_inv (i - I.N) * (I.tau0 l - st))))) (.fin (I.tmsB i l nu))
      else .fin 0)

/-- Lines 409-596, as in `tms`. -/
noncomputable def tmsU (tau phi : A1 ℝ) (anti : Bool) (l : ℕ → ℕ) : Py (A3 Fl) := do
  let nu ← I.nuTMS phi
  if tau.n = 0 then .error (.valueError "need at least one array to concatenate")
  else return ⟨2 * I.N, tau.n, nu.c, fun i t p => I.tmsValU ex anti i (l t) (I.st (l t) (tau.get t)) (nu.get i p)⟩

/-- Lines 661-687, as in `corr`. -/
noncomputable def corrU (tau phi : A1 ℝ) (anti : Bool) (l : ℕ → ℕ) : Py (A3 Fl) := do
  let a ← I.tmsU ex tau phi anti l
  let b ← I.ims tau phi anti
  let r ← bdim b.d0 I.N
  let c ← bdim b.d2 a.d2
  if r = I.N ∧ c = a.d2 then
    return ⟨a.d0, a.d1, a.d2, fun i t p =>
      if i < I.N then a.get i t p else Fl.add (a.get i t p) (.fin (b.get (bix b.d0 (i - I.N)) t (bix b.d2 p)))⟩
  else .error .shapeError

end NTIn

/-- Lines 689-694, as in `addSqueezed`. -/
noncomputable def addSqueezedU (k : ℝ) (x : A3 ℝ) (c : A3 Fl) : Py (A3 Fl) :=
  if x.d0 = c.d0 ∧ x.d1 = c.d1 ∧ x.d2 = c.d2 then
    .ok ⟨x.d0, x.d1, x.d2, fun i t p => Fl.add (.fin (x.get i t p)) (Fl.mul (.fin k) (c.get i t p))⟩
  else if x.d0 = c.d0 ∧ x.d2 = c.d2 ∧ c.d1 = 1 ∧ x.d1 = c.d0 then
    .ok ⟨x.d0, x.d1, x.d2, fun i t p => Fl.add (.fin (x.get i t p)) (Fl.mul (.fin k) (c.get t 0 p))⟩
  else .error .shapeError

namespace Solved
variable (R : Solved)

/-- Lines 643-694: `u_corrected` with exponentials that underflow. -/
noncomputable def uCorrectedU (ex : ℝ → ℝ) (n : NTIn) (tau phi : A1 ℝ) (anti : Bool) : Py (A3 Fl) := do
  let x ← R.uUncorrected tau phi anti
  let c ← n.corrU ex tau phi anti (fun t => R.I.layer (tau.get t))
  addSqueezedU R.I.rescale x c

end Solved
end Pydisort

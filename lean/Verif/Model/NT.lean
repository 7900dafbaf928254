import Verif.Subroutines.Core
import Verif.Model.Assemble

/-!
# Model of the Nakajima-Tanaka corrections in `pydisort.py` (lines 407-694)

`autograd_compatible = False`. `l_uniq, l_inv` come from `np.unique(l, return_inverse=True)`, so that
indexing `X[l_uniq]` with `l_inv` is `X[l]`; the model indexes with `l` directly.
-/

namespace Pydisort
open Finset

/-- The variables of `pydisort` that the corrections use. -/
structure NTIn where
  N : ℕ
  NLayers : ℕ
  NLeg : ℕ
  NLegAll : ℕ
  tauArr : Vec
  /-- `scaled_tau_arr_with_0` -/
  tau0 : Vec
  /-- `scaled_thickness_arr` -/
  thick : Vec
  scale : Vec
  omega : Vec
  /-- `scaled_omega_arr` -/
  omegaS : Vec
  f : Vec
  /-- `Leg_coeffs_all` -/
  legAll : Mat
  /-- `weighted_Leg_coeffs_all` -/
  wLegAll : Mat
  /-- `weighted_scaled_Leg_coeffs` -/
  wLeg : Mat
  /-- `mu_arr_pos` -/
  mu : Vec
  /-- `mu_arr` -/
  muArr : Vec
  M_inv : Vec
  mu0 : ℝ
  phi0 : ℝ
  I0div4pi : ℝ

/-- `numpy.polynomial.legendre.Legendre(c)(x)` with `n` coefficients. -/
noncomputable def legSeries (n : ℕ) (c : Vec) (x : ℝ) : ℝ := ∑ k ∈ range n, c k * (Spec.legendreP k).eval x

namespace NTIn
variable (I : NTIn)

/-- Lines 419-421 (no test for the absence of scaling here). -/
def st (l : ℕ) (t : ℝ) : ℝ := I.tau0 (l + 1) - (I.tauArr l - t) * I.scale l

/-- Lines 445-449: `mathscr_B[i, l, p]` at scattering-angle cosine `nu`. -/
noncomputable def tmsB (i l : ℕ) (nu : ℝ) : ℝ :=
  (I.omegaS l * I.I0div4pi) * (I.mu0 / (I.mu0 + I.muArr i))
    * (legSeries I.NLegAll (I.wLegAll l) nu / (1 - I.f l) - legSeries I.NLeg (I.wLeg l) nu)

/-- Lines 459-479: `TMS_correction_pos` (`i < N`) and `TMS_correction_neg` concatenated. -/
noncomputable def tmsOwn (anti : Bool) (l : ℕ) (st : ℝ) (i : ℕ) : ℝ :=
  if i < I.N then
    if anti = true then
      Real.exp (-st / I.mu0) / (-I.scale l / I.mu0)
        - Real.exp ((st - I.tau0 (l + 1)) / I.mu i - I.tau0 (l + 1) / I.mu0) / (I.scale l / I.mu i)
    else Real.exp (-st / I.mu0) - Real.exp ((st - I.tau0 (l + 1)) / I.mu i - I.tau0 (l + 1) / I.mu0)
  else
    if anti = true then
      Real.exp (-st / I.mu0) / (-I.scale l / I.mu0)
        + Real.exp ((I.tau0 l - st) / I.mu (i - I.N) - I.tau0 l / I.mu0) / (I.scale l / I.mu (i - I.N))
    else Real.exp (-st / I.mu0) - Real.exp ((I.tau0 l - st) / I.mu (i - I.N) - I.tau0 l / I.mu0)

/-- Lines 498-500: `exp_taufront_mu0_inv`. -/
noncomputable def expFront (r : ℕ) : ℝ := if r = 0 then 1 else Real.exp (-I.tau0 r * (1 / I.mu0))

/-- Line 507: `log_decay[n, r]`. -/
def logDecay (n r : ℕ) : ℝ := -I.thick r * I.M_inv n

/-- Lines 510-511: `decay_prod[n, k]`. -/
noncomputable def decayProd (n k : ℕ) : ℝ := if k = 0 then 1 else Real.exp (cumsum (I.logDecay n) (k - 1))

/-- Line 515: `integration_factor[n, r]`. -/
noncomputable def intFactor (n r : ℕ) : ℝ := I.mu n / I.scale r

/-- Lines 521-525: `em1_pos[n, r]`. -/
noncomputable def em1Pos (anti : Bool) (n r : ℕ) : ℝ :=
  let e := -(Real.exp (-(I.thick r * (I.M_inv n + 1 / I.mu0))) - 1)
  if anti = true then I.intFactor n r * e else e

/-- Lines 527-531: `weighted_layer_term_pos[n, r]`. -/
noncomputable def wTermPos (anti : Bool) (n r : ℕ) : ℝ := I.em1Pos anti n r * I.expFront r * I.decayProd n r

/-- Line 532: `np.cumsum(x[:, ::-1], axis=1)[:, ::-1]`. -/
noncomputable def cumsumPos (anti : Bool) (n r : ℕ) : ℝ :=
  cumsum (fun k => I.wTermPos anti n (I.NLayers - 1 - k)) (I.NLayers - 1 - r)

/-- Lines 534-535: `Rpos[n, l]`. -/
noncomputable def Rpos (anti : Bool) (n l : ℕ) : ℝ :=
  if l < I.NLayers - 1 then I.cumsumPos anti n (l + 1) / I.decayProd n (l + 1) else 0

open Classical in
/-- Lines 552-571: `layer_term_neg[n, r]`. -/
noncomputable def termNeg (anti : Bool) (n r : ℕ) : ℝ :=
  let th := I.thick r * (I.M_inv n - 1 / I.mu0)
  let x1 := Real.exp (-I.tau0 (r + 1) * (1 / I.mu0))
  let x0 := Real.exp (I.logDecay n r) * I.expFront r
  let em1 := Real.exp (-|th|) - 1
  let t := -em1 * x1 * (if th ≥ 0 then 1 else 0) + em1 * x0 * (if th ≥ 0 then 0 else 1)
  if anti = true then -I.intFactor n r * t else t

/-- Lines 575-579: `Rneg[n, l]`. -/
noncomputable def Rneg (anti : Bool) (n l : ℕ) : ℝ :=
  if l = 0 then 0
  else I.decayProd n l * cumsum (fun r => I.termNeg anti n r / I.decayProd n (r + 1)) (l - 1)

/-- Lines 482-589: the correction at stream `i`, layer `l`, scaled depth `st`, for scattering-angle
cosine `nu`. The tests `any_pos`, `any_neg` (490-491) only skip the addition of zeros. -/
noncomputable def tmsVal (anti : Bool) (i l : ℕ) (st nu : ℝ) : ℝ :=
  I.tmsB i l nu * I.tmsOwn anti l st i
    + if I.NLayers > 1 then
        if i < I.N then I.Rpos anti i l * Real.exp (I.M_inv i * (st - I.tau0 (l + 1))) * I.tmsB i l nu
        else I.Rneg anti (i - I.N) l * Real.exp (I.M_inv (i - I.N) * (I.tau0 l - st)) * I.tmsB i l nu
      else 0

/-- Lines 425-427: `nu` of the TMS correction. -/
noncomputable def nuTMS (phi : A1 ℝ) : Py (A2 ℝ) :=
  (atleast2dAppend (calculateNu ⟨2 * I.N, I.muArr⟩ phi ⟨1, fun _ => -I.mu0⟩ ⟨1, fun _ => I.phi0⟩)).toA2

/-- Lines 614-616: `nu` of the IMS correction. -/
noncomputable def nuIMS (phi : A1 ℝ) : Py (A2 ℝ) :=
  (atleast2dAppend (calculateNu ⟨I.N, fun i => -I.mu i⟩ phi ⟨1, fun _ => -I.mu0⟩ ⟨1, fun _ => I.phi0⟩)).toA2

/-- Lines 409-596: `TMS_correction`, given the layer indices. Without any depth there is nothing to concatenate on line 428, which raises.
The array `nu` has shape `(NQuad, Nphi)` because `NQuad ≥ 2`. -/
noncomputable def tms (tau phi : A1 ℝ) (anti : Bool) (l : ℕ → ℕ) : Py (A3 ℝ) := do
  let nu ← I.nuTMS phi
  if tau.n = 0 then .error (.valueError "need at least one array to concatenate")
  else return ⟨2 * I.N, tau.n, nu.c, fun i t p => I.tmsVal anti i (l t) (I.st (l t) (tau.get t)) (nu.get i p)⟩

/-- Line 601. -/
noncomputable def sum1 : ℝ := ∑ k ∈ range I.NLayers, I.omega k * I.tauArr k
/-- Line 602. -/
noncomputable def omegaAvg : ℝ := I.sum1 / ∑ k ∈ range I.NLayers, I.tauArr k
/-- Line 603. -/
noncomputable def sum2 : ℝ := ∑ k ∈ range I.NLayers, I.f k * I.omega k * I.tauArr k
/-- Line 604. -/
noncomputable def fAvg : ℝ := I.sum2 / I.sum1
/-- Lines 605-610: `Leg_coeffs_residue_avg`. -/
noncomputable def residueAvg (j : ℕ) : ℝ :=
  (∑ k ∈ range I.NLayers, (if j < I.NLeg then I.f k else I.legAll k j) * I.omega k * I.tauArr k) / I.sum2
/-- Line 611. -/
noncomputable def scaledMu0 : ℝ := I.mu0 / (1 - I.omegaAvg * I.fAvg)

/-- Lines 617-628: `chi` for one `mu` and depth, with `s = scaled_mu0`. -/
noncomputable def _root_.Pydisort.imsChi (anti : Bool) (mu s tau : ℝ) : ℝ :=
  let x := 1 / mu - 1 / s
  if anti = true then
    ((s - x * s * (s + tau)) * Real.exp (-tau / s) - mu * Real.exp (-tau / mu)) / (mu * s * x ^ 2)
  else ((tau - 1 / x) * Real.exp (-tau / s) + Real.exp (-tau / mu) / x) / (mu * s * x)

/-- Lines 630-638: the factor multiplying `chi`. -/
noncomputable def imsFac (nu : ℝ) : ℝ :=
  I.I0div4pi * (I.omegaAvg * I.fAvg) ^ 2 / (1 - I.omegaAvg * I.fAvg)
    * legSeries I.NLegAll (fun k => (2 * (k : ℝ) + 1) * (2 * I.residueAvg k - I.residueAvg k ^ 2)) nu

/-- Lines 613-638: `IMS_correction`, `(nu.r, 1, nu.c)` times `(N, Ntau, 1)`. -/
noncomputable def ims (tau phi : A1 ℝ) (anti : Bool) : Py (A3 ℝ) := do
  let nu ← I.nuIMS phi
  let r ← bdim nu.r I.N
  return ⟨r, tau.n, nu.c, fun i t p =>
    I.imsFac (nu.get (bix nu.r i) p) * imsChi anti (I.mu (bix I.N i)) I.scaledMu0 (tau.get t)⟩

/-- Lines 661-687: `NT_corrections` after the in-place addition of the IMS correction to the downward
half, which must not change the shape `(N, Ntau, Nphi)` of that half. -/
noncomputable def corr (tau phi : A1 ℝ) (anti : Bool) (l : ℕ → ℕ) : Py (A3 ℝ) := do
  let a ← I.tms tau phi anti l
  let b ← I.ims tau phi anti
  let r ← bdim b.d0 I.N
  let c ← bdim b.d2 a.d2
  if r = I.N ∧ c = a.d2 then
    return ⟨a.d0, a.d1, a.d2, fun i t p =>
      if i < I.N then a.get i t p else a.get i t p + b.get (bix b.d0 (i - I.N)) t (bix b.d2 p)⟩
  else .error .shapeError

end NTIn
end Pydisort

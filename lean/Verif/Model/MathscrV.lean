import Verif.NumPy
import Mathlib.Data.Nat.Factorial.Basic

/-!
# Model of `_mathscr_v` (`subroutines.py` 746-862)
-/

namespace Pydisort
open Finset

/-- Line 841: `np.cumprod(np.arange(1, Nscoeffs))` multiplies 64-bit integers, which wrap around silently (the default integer of NumPy has 64 bits
except on Windows before NumPy 2, where it has 32). The products of the wrapped integers are the wrapped products; `Int.bmod` takes the representative in
`[-2^63, 2^63)`. -/
noncomputable def fac64 (i : ℕ) : ℝ := ((Int.bmod (i.factorial : ℤ) (2 ^ 64) : ℤ) : ℝ)

/-- Lines 825-851, Nscoeffs > 2: entry `[k, i]` of `mathscr_b_sigma` for one layer.
`fac` is `fac64` (838-841); `lower_tri[i, p]` is `weighted_mathscr_a[i - p]` for `i ≥ p` and `0`
otherwise (848; `np.take` wraps negative indices but those entries are masked);
`K_invP[k, p] = K_inv[k]^(p+1)` (828-831). -/
noncomputable def bSigma (Nc : ℕ) (s : Vec) (K : Vec) (k i : ℕ) : ℝ :=
  (∑ p ∈ range Nc, (1 / K k) ^ (p + 1) *
    (if p ≤ i then s (Nc - 1 - (i - p)) * fac64 (Nc - 1 - (i - p)) else 0))
  * (1 / fac64 (Nc - 1 - i))

/-- Lines 783-862 with `is_antiderivative_wrt_tau = False`: row `q` of the particular solution at one
depth `tau` in one layer with source coefficients `s` (lowest degree first), eigenvector matrix `G`
(rows possibly restricted by the caller), eigenvalues `K` and `g = G_inv_mu_inv`. `n` is the number of
columns of `G` (`NQuad`). All einsums and fancy indexings of the code act independently on each input
depth, so the array version is this function applied to every depth. -/
noncomputable def mathscrV (n Nc : ℕ) (s : Vec) (G : Mat) (K g : Vec) (tau : ℝ) (q : ℕ) : ℝ :=
  if Nc = 1 then
    (∑ k ∈ range n, G q k * (s 0 * (1 / K k) * g k)) * 1
  else if Nc = 2 then
    (∑ k ∈ range n, G q k * (s 1 * (1 / K k) * g k)) * tau
      + (∑ k ∈ range n, G q k * ((s 0 * (1 / K k) + s 1 * ((1 / K k) * (1 / K k))) * g k)) * 1
  else
    ∑ i ∈ range Nc, (∑ k ∈ range n, G q k * (bSigma Nc s K k i * g k)) * tau ^ (Nc - 1 - i)

/-- Lines 783-862 with `is_antiderivative_wrt_tau = True`, array version: `rows` rows, input depths
`tau` with layer indices `l` (into the arrays `s`, `G`, `K`, `g`), and the array `scale_tau` of *all*
layers. The shapes are broadcast as NumPy does:
* `Nscoeffs = 1` (792-797): `tau / scale_tau`, then `d0[:, l] * p0[None, :]`;
* `Nscoeffs = 2` (812-815): the `(rows, Ntau)` result is divided by `scale_tau`;
* otherwise (855-862): `(tau[:, None] ** p) / (p * scale_tau)` with `p` of shape `(1, Nscoeffs)`, whose
  second dimension is then contracted against `Nscoeffs`. -/
noncomputable def mathscrVAnti (n Nc rows : ℕ) (tau scale_tau : A1 ℝ) (l : A1 ℕ) (s : Mat) (G : ℕ → Mat)
    (K g : ℕ → Vec) : Py (A2 ℝ) :=
  if Nc = 1 then do
    let p0 ← A1.bin (fun a b => a / b) tau scale_tau
    A2.bin (fun a b => a * b)
      ⟨rows, l.n, fun q t => ∑ k ∈ range n, G (l.get t) q k * (s (l.get t) 0 * (1 / K (l.get t) k) * g (l.get t) k)⟩
      p0.row
  else if Nc = 2 then do
    A2.bin (fun a b => a / b)
      ⟨rows, l.n, fun q t =>
        (∑ k ∈ range n, G (l.get t) q k * (s (l.get t) 1 * (1 / K (l.get t) k) * g (l.get t) k))
            * (tau.get t * tau.get t / 2)
          + (∑ k ∈ range n, G (l.get t) q k * ((s (l.get t) 0 * (1 / K (l.get t) k)
              + s (l.get t) 1 * ((1 / K (l.get t) k) * (1 / K (l.get t) k))) * g (l.get t) k)) * tau.get t⟩
      scale_tau.row
  else do
    -- `p * scale_tau`
    let den ← A1.bin (fun a b => a * b) ⟨Nc, fun i => (((Nc - 1 - i) + 1 : ℕ) : ℝ)⟩ scale_tau
    -- the contracted dimension must have size `Nscoeffs` or one
    let _ ← bdim Nc den.n
    return ⟨rows, l.n, fun q t => ∑ i ∈ range Nc,
      (∑ k ∈ range n, G (l.get t) q k * (bSigma Nc (s (l.get t)) (K (l.get t)) k i * g (l.get t) k))
        * (tau.get t ^ ((Nc - 1 - i) + 1) / den.get (bix den.n i))⟩

end Pydisort

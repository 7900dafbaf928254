# Formal model of PythonicDISORT — design

Target: LDEO-CREW/Pythonic-DISORT, `/repo/src/PythonicDISORT/*.py` (read as text only). Prover: Lean 4.33.0 with Mathlib. The
properties are listed in `properties.jsonl`, their status and theorems in `MANIFEST.json`, the seeded faults in `seeded/LOG.jsonl`.

## How to read `seeded/LOG.jsonl`

Each line is one wrong program: one edit of a definition (some edit a specification or a contract instead), after which the scratch
copy was rebuilt. `failed` names the declarations that stopped compiling. `property_theorems_depending_on_failed` is computed from the
record of which declarations use which: it names the property theorems that rest on a failed declaration, not theorems that were each tried on their own.
So when only helper lemmas are listed in `failed`, `killed` says that the proofs no longer go through, which is weaker than a
demonstration that each listed property theorem has become false. `survived` means that everything still compiled; such lines carry a
note or the theorems tightened afterwards. The last batches were stopped when time ran out: two of the seven edits planned for
C139–C142 and 28 edits of definitions not edited before were not run, and C143 was not tested by edits of its own.

## Trusted base

1. **The Lean 4 kernel** and the axioms `propext`, `Classical.choice`, `Quot.sound`. No own axioms, no `sorry`/`admit`, no
   `native_decide`/`bv_decide`. The section *Axioms* at the end lists the axioms of every theorem named in the manifest, as printed by
   `#print axioms`.
2. **The reading of the Python source.** Every definition of the model cites the file and the lines it models and states its
   simplifications in the comment.
3. **Numbers.** Floats are exact real numbers. Rounding is modelled only for delta-M scaling, the location of a depth, the quadrature nodes and the rescaling (`Model/Rounded.lean`,
   C107). NaN and infinities are modelled for the checks of the arguments, the rescale factor and the evaluation of intensities and fluxes (`Model/NonFinite.lean`, C124, C125), and, if the last entry of `tau_arr` is infinite, for the whole call (`Model/Endless.lean`, C127). Underflow of exponentials is modelled for the intensity corrections (`Model/Underflow.lean`, C131), arbitrary errors of exponentials for the boundary systems (`Model/Exponents.lean`, C132), underflow of the factorial quotients of the Legendre functions for the whole call (`Model/Poch.lean`, C136), and their overflow (`Model/Overflow.lean`, C137).
   Floating-point overflow and dtypes are not modelled, except for the truncation of fractions assigned to an integer array (`Model/IntLeg.lean`, C130). Four integer overflows are: differences of layer boundaries passed as unsigned integers (`Model/Unsigned.lean`, C134), negated depths passed as unsigned integers (`Model/UnsignedDepth.lean`, C135), powers of depths passed as integers (`Model/IntDepth.lean`, C128) and the
   factorials of `_mathscr_v`, which are products of 64-bit integers (`fac64`; NumPy before version 2 used 32 bits on Windows, where `13!` already overflows). Where the exact computation would
   divide by zero, Lean's `x / 0 = 0` would hide the problem; the theorems therefore carry the non-zero condition as a hypothesis (next section).
4. **NumPy / SciPy.**
   * modelled concretely: slicing, broadcasting, fancy indexing with negative indices, `cumsum`, `diff`, `squeeze`, `argmax` of a
     Boolean array, `linspace`, `einsum`, `concatenate`, the strided view of the banded buffer (addresses are computed), `np.empty`
     (arbitrary content, universally quantified `Junk`), `np.linalg.solve`, `inv` and `solve_banded` (the exact solution, `LinAlgError` when the
     determinant vanishes), `lpmv` (associated Legendre function by Rodrigues' formula), `poch` (quotient of Gamma values), `pascal`, `idct`
     type 1 (the documented sum), `BarycentricInterpolator` (the barycentric formula);
   * oracles, i.e. arbitrary functions constrained by a contract in the hypotheses: `np.linalg.eig` (`EigContract`: for a real
     diagonalisable matrix it returns eigenvalues and an invertible matrix of eigenvectors), `leggauss` (`GaussContract`: nodes inside (-1, 1), positive weights,
     exact up to degree 2N - 1), `quad_vec` (returns the integral of a continuous function). All contracts are proved satisfiable
     (`refExt`, `refQuad`; the Gauss rule is constructed in `GaussExists`), so no hypothesis of this kind is vacuous.

## Hypotheses the theorems carry, and why

* `pydisort E J a = .ok R`: the call returned. That well-posed calls do return is C65.
* `Sound E a`: the two oracle contracts; all peaks `f < 1` (the code accepts `f = 1` and then divides by `1 - f = 0`, C28); the reduced matrix of every
  scattering layer and mode is diagonalisable with positive eigenvalues (otherwise the code takes square roots of negative or complex numbers) and
  `1/μ₀²` is not an eigenvalue (otherwise it divides by zero); the source has at most 21 coefficients (C07). `Numerics E a` is the same without the last clause. `WellPosed` implies `Sound` (`WellPosed.sound`).
* `Rescalable a` / `Lit a`: the sources are not divided by a rescale factor equal to zero (C30 shows that this can happen).
* `WellPosed E a`: a physical well-posed problem (scattering dissipates, no resonance of the beam with an eigenvalue, surface does not amplify, ...).
  `C65_scattering_dissipates` proves dissipation from the caller's coefficients when `NLeg <= NQuad/2`.
* `Azimuthless b`: the boundary condition is a number or a vector; matrices never work (C31).
* NT corrections: some `f ω ≠ 0` and no node equal to the scaled `μ₀` (otherwise 0/0).
* Scattering shortcut: the code ignores scattering in a layer and mode in which no weighted coefficient exceeds 1e-8. The specification says the same
  (`Spec.Significant`), because otherwise C01 would be false by that amount; C70 needs `NoNeglect` for the same reason. C100 bounds the effect; C120 shows that it does not go away with more streams, coefficients and modes.

## What is modelled

| file | modelled | not modelled |
|---|---|---|
| `pydisort.py` | all of `pydisort`: conversions, every check in order, delta-M scaling, rescaling, gate and formulas of the TMS and IMS corrections, `u_corrected`, returned functions, warnings (`Model/Warnings.lean`) | docstrings; arguments that are not numbers / arrays of the documented rank |
| `_solve_for_gen_and_part_sols.py` | all: parity trick, loop over modes and layers with its lists and shortcut, eigen-decomposition, beam solution in its two forms, `_mathscr_v` with its three branches and its antiderivative | - |
| `_solve_for_coeffs.py` | all: right-hand side, dense matrix, banded matrix through the strided view, buffer reuse between modes, BDRF evaluation incl. `isscalar` cases, slicing of the solution | - |
| `_assemble_intensity_and_fluxes.py` | all returned functions (`u`, `u0`, `flux_up`, `flux_down`), antiderivatives, Fourier error (of intensity and antiderivative), layer lookup, range check, squeezes, the variant `autograd_compatible=True` (`Model/Returned.lean`) | that `autograd.numpy` computes what `numpy` computes is assumed |
| `subroutines.py` | `prepend`, `transform_interval`, `transform_weights`, `calculate_nu`, `Gauss_Legendre_quad`, `Clenshaw_Curtis_quad`, `generate_FD_mat`, `atleast_2d_append`, `generate_diff_act_flux_funcs`, `Planck`, `blackbody_contrib_to_BCs`, `linear_spline_coefficients`, `generate_s_poly_coeffs`, `generate_emissivity_from_BDRF`, `cache_BDRF_Fourier_modes`, `affine_transform_poly_coeffs`, `interpolate`, `to_diag_ordered_form`, `_compare` | numerical tolerance arguments of `quad_vec` |

Result shapes: the evaluation functions of the model give arrays before the final `np.squeeze`; `Model/Returned.lean` adds the squeezes of `u`, `u0` and the
fluxes (C85), `calculate_nu` → `atleast_2d_append` has its own (C45). `Subroutines/Handed.lean` has the squeezes at the end of `interpolate`, the actinic fluxes and `Planck` (C94, C95). Scalars passed for `tau`, `phi`, `mu` are arrays of length one.

Two levels: the main chain of proofs uses models that compute one entry of each result (`Model/Assemble.lean`, `Model/MathscrV.lean`). `Model/EvalArr.lean`,
`Model/NTArr.lean` and `Subroutines/MathscrArr.lean` keep every array operation of `u` (with the NT corrections), `u0`, `flux_up`, `flux_down`, the Fourier error and `_mathscr_v` as a program on arrays (broadcasting, fancy
indices, einsum, concatenation, exceptions for unequal lengths), and C97, C98, C99 prove that these programs give the same arrays and the same exceptions.

Memory: the main model passes arrays by value. `Model/Memory.lean` models `pydisort` with array objects in memory, aliases and writes, and C103 proves that it agrees with
the model by value, what it writes to, and which arrays the returned functions share with the caller. Array objects overlap only if they are identical
(no partially overlapping views); dtype conversions that would make a copy are not modelled.

## Layout of the Lean project

* `NumPy*` arrays (size + access function) and broadcasting in the error monad `Py = Except PyErr`; `Model/*`, `Subroutines/*` the model.
* `Spec/*` (about a thousand lines) the vocabulary of the statements: the physical problem in the caller's arguments, no model helpers.
* `Props/*` the property theorems, with examples that meet their hypotheses (`Witness*` builds full calls with n streams, several layers,
  beam, source, surface). Everything else is lemmas.
* Main chain: `GenLemmas`/`EigenLemmas` (the code's A, G, K satisfy A G = G K), `MathscrLemmas` (polynomial source), `Coef*` (the linear system
  is the boundary and continuity conditions, banded = dense), `AsmLemmas`/`EvalLemmas` (evaluation), `FieldLemmas` (C01-C05), `Energy`, `Dissipation`,
  `SuccessLemmas`, `Uniqueness` (C65, C66: the code returns *the* solution). Later properties (C18, C20, C64, C70-C74) follow from the boundary
  value problem alone and so hold whatever route the code takes.

## Disagreements between code and documentation found on the way

Each is proved as a negation with a concrete witness, next to a `_partial` theorem that says what does hold.

1. C28 — `f = 1` passes the check `f <= 1` and is then divided by (`1 - f`).
2. C29 — line 248 of `pydisort.py` overwrites the caller's `Leg_coeffs_all[:, 0]`.
3. C30 — the rescale factor can be zero (or negative) with an internal source: division by zero on lines 361-364.
4. C31 — boundary conditions of shape `(NQuad/2, NFourier)` are taken for vectors and always raise for `NQuad >= 4`.
5. C34, C36, C37 — with an internal source in several layers the antiderivative divides by the scale factors of *all* layers along the axis of
   depths: it raises, or returns wrong numbers if the lengths happen to match (`C34_single_depth_wrong_shape`: one number per layer for a single depth;
   `C34_wrong_value`: two values for the same depth).
6. C35 — `flux_down(tau, True)` with a beam and several layers: same mix-up; `C35_wrong_value` proves a wrong number for two layers and two depths.
7. C36, C95 — `u0(tau, True)` ignores the flag without a beam, and so do the actinic fluxes computed from it.
8. C38, C86 — the Fourier error estimate indexes `B_collect.T[-1, :, l]` with the axes mixed up (raises with a beam in several layers) and leaves out the internal
   source when there is a single mode. `C38_wrong_value`: with one layer a positive estimate is returned although the last Fourier term is zero.
9. C39 — `flux_act_down_diffuse` adds the reclassified beam in internal units (rescale factor missing).
10. C40 — TMS: contributions of other layers get the source strength of the observation layer; u jumps at interfaces of heterogeneous atmospheres.
11. C67 — the antiderivative of these contributions is divided by the scale factor of the source layer instead of the observation layer.
12. C44 — IMS averages weight layers with cumulative depths instead of thicknesses.
13. C45 — NT corrections with two streams raise unless there is exactly one azimuth.
14. C46 — without a beam the second entry of `flux_down` is the number 0, not an array.
15. C58 — cached BDRF modes: a number as a mode with a beam raises `TypeError`; with two streams and cached `mu0` the wrong column is used.
16. C60 — `np.any(a_arr) == 0` only rejects arrays that are entirely zero.
17. C62 — `interpolate(u0)`: line 682 passes the flags in the wrong positions.
18. C68, C131 — the divisors `decay_prod` of the TMS scans underflow in thick atmospheres: with several layers, corrected intensities along a stream of cosine `mu` are infinite or NaN below the
    depth (after delta-M scaling) of about `745 * mu`. With 16 streams the smallest cosine is about 0.02, so that this happens from a depth of 15 on.
19. C91 — a beam resonant with the zeroth mode raises `LinAlgError` without an internal source; with one, lines 213-222 of `_solve_for_gen_and_part_sols.py` divide by
    zero instead.
20. C92 — the IMS average divides by `sum2 = sum(f * omega * tau)`, which is zero if only layers without scattering have a forward peak (the gate tests
    `any(f > 0)` and `any(omega > 0)` separately): nan.
21. C92 — the check that `mu0` differs from the quadrature angles does not cover the scaled angle `scaled_mu0` by which IMS divides
    (`x = 1 / mu - 1 / scaled_mu0`): nan if they coincide.
22. C93 — `_compare` sets the ratio to zero where the reference is zero and divides by the signed reference, so the assertions of the test suite
    (`max(ratio[diff > 1e-3]) < 1e-3`) do not test values whose reference is zero or negative.
23. C07 — the factorials of `_mathscr_v` (`subroutines.py` 838-841, `np.cumprod(np.arange(1, Nscoeffs))`) are 64-bit integers; `21!` wraps around. With
    22 or more source coefficients the returned intensity silently violates the transfer equation (there is a warning about instability from 11 coefficients on);
    from 67 on, `66!` is a multiple of `2^64` and the code divides by zero.
24. C103 — the returned functions keep references to the caller's `tau_arr` and, with intensity corrections, `f_arr`, and to the returned `mu_arr`: writing to one
    of them after the call changes results silently (`tau_arr += d` makes `u0` and `flux_up` answer for the depth less `d` when delta-M scaling is in effect).
25. C124 — NaN and infinities pass the checks in `I0`, `b_pos`, `b_neg`, `s_poly_coeffs`, the last entry of `tau_arr` (infinity only), and in `mu0`, `phi0` without a beam;
    a depth NaN passes the range check. In `I0` and the boundary conditions they turn all results into NaN or infinities; `phi0 = nan`, accepted without a beam,
    turns all intensities of `u` into NaN although no beam has a direction (C125).
26. C127 — infinity is accepted as the last entry of `tau_arr` and gives the right result for a bottomless atmosphere, except with delta-M scaling: then all
    intensities and diffuse fluxes in the lowest layer are NaN (`inf - (inf - tau) * scale`, lines 190-195 and elsewhere of `_assemble_intensity_and_fluxes.py`).
27. C128 — without delta-M scaling, `_mathscr_v` raises the depths as passed to powers (`subroutines.py` 813, 858, 860). Depths passed as integers are powers of 64-bit integers, which wrap
    around silently: with three source coefficients from the depth 3037000500 on, with ten from 128 on.
28. C130 — `Leg_coeffs_residue` is a copy of the array the caller passed (`pydisort.py` 605), and the fractions `f_arr` are assigned to it (606). If the coefficients were passed as integers, such as `[1, 0, 0, 0]`,
    the fractions are truncated to zero and the IMS correction silently vanishes.
29. C134 — `np.diff(tau_arr)` (`pydisort.py` 212) of unsigned integers wraps around, so that the check for positive thicknesses (225-226) accepts layer boundaries in any order as long as neighbours differ.
    With delta-M scaling the boundaries 2, 1 as `uint8` are solved as 2, 257.
30. C135 — the returned functions exponentiate `-tau / mu0` (`_assemble_intensity_and_fluxes.py` 581, 592, and `-scaled_tau / mu0` without delta-M scaling). If the depths are unsigned integers `-tau` wraps around, so that
    the direct flux exceeds that at the top of the atmosphere (in floating point it is infinite for 16 bits or more).
31. C136 — `sc.special.poch(ells + m + 1, -2 * m)` (`_solve_for_gen_and_part_sols.py` 96) underflows: for orders `m >= 89` all quotients are below `1/178!` and hence zero, the arrays `D` and `X` are zero, and the mode
    is missing in the intensity. Nothing is reported, because the test on line 119 does not look at the quotients. Normalised associated Legendre functions would avoid it.
    This supposes that `lpmv` itself does not overflow; if it does (a routine that multiplies with `(l+m)!/(l-m)!` does from order 86 on), the call raises `LinAlgError` instead (C137). Which of the
    two happens depends on the version of SciPy, whose source is not available here.

Smaller remarks: an empty `tau_arr` raises `IndexError` before any check; an all-zero `s_poly_coeffs` with a wrong number of rows raises a broadcast error; a
BDRF function returning a number raises with a beam; the unit in the docstring of `Planck` does not match its formula.


## Per property: what is modelled and how it is proved

- **C01 Zeroth mode solves the discretised transfer equation** — Model gen/part solution + coefficient solve + u0; Spec: discretised RTE written directly with associated Legendre functions over the 2N signed nodes. HasDerivAt proof from A G = G K, (A+1/mu0)B = X and the isotropic particular-solution lemma. *proved*: `C01_u0_solves_transfer_equation`, `mu_arr_returned`.
- **C02 Every Fourier mode solves its transfer equation** — Same, for each m; u = sum of modes times cosines. *proved*: `C02_modes_solve_transfer_equation`, `C02_modes_unique`, `C02_returned_u`.
- **C03 Top boundary condition** — From LHS*C = RHS (first N rows) and evaluation at tau=0. *proved*: `C03_top_boundary_condition`, `C03_top_intensity`.
- **C04 Bottom boundary condition with surface reflection** — From the last N rows of LHS*C = RHS. *proved*: `C04_bottom_boundary_condition`.
- **C05 Continuity across layer interfaces** — From the interior row blocks of LHS*C = RHS. *proved*: `C05_continuous_across_layers`.
- **C06 Beam particular solution does not depend on the presence of an isotropic source** — Matrix algebra: G (K+1/mu0)^-1 G^-1 X solves (A+1/mu0) x = X; uniqueness by invertibility. *proved*: `C06_beam_particular_solution`, `C06_no_scattering`, `C06_independent_of_isotropic_source`.
- **C07 Isotropic polynomial sources are solved exactly for every degree** — _mathscr_v pointwise model with three branches; the factorials are reduced to 64 bits as in NumPy; derivative identity with an explicit residual by finite-sum manipulation for arbitrary Nscoeffs; the residual vanishes up to 21 coefficients; with 22 it is computed and shown not to vanish, in the function and in a call; branch equality. *partial*: `C07_polynomial_sources_solved_partial`, `C07_branches_agree`, `C07_particular_solution_in_call_partial`, `C07_false_for_22_coefficients`, `C07_false_in_call`. Proved for up to 21 coefficients. False beyond: the factorials are a cumulative product of 64-bit integers and 21! overflows, so with 22 coefficients the particular solution and the returned intensity violate the equation (both negations proved). The branch equality holds up to 66 coefficients, where the code begins to divide by zero.
- **C08 Eigenvector matrix really diagonalises the coefficient matrix** — Block matrix algebra with contract `eig` (A V = V diag(lambda)); positivity via a quadratic-form argument. *proved*: `C08_eigenvectors_diagonalise`, `C08_positive_eigenvalues`.
- **C09 Fluxes are the hemispheric quadratures of the zeroth mode** — Unfold both evaluation models; same index bookkeeping. *proved*: `C09_flux_up`, `C09_flux_down`. Upward flux and the sum of the two downward fluxes are the hemispheric quadratures of the zeroth moment plus the direct beam, for all accepted inputs meeting Sound.
- **C10 Direct flux obeys Beer's law and the reclassification conserves the downward total** — Unfold; real algebra with exp. *proved*: `C10_direct_flux`, `C10_reclassification_conserves`, `C10_top_diffuse`, `C09_flux_down`. Direct flux follows Beer's law in the user's optical depth; reclassification moves flux between the two outputs without changing their sum.
- **C11 Energy balance** — Gauss exactness contract + Legendre polynomial orthogonality to 1 on [0,1] after even/odd pairing; sum of the ODE over streams. *proved*: `C11_scattering_conserves`, `C11_energy_balance`, `C11_absorbed_fraction`. Discrete energy balance in derivative form for every layer.
- **C12 only_flux does not change the fluxes** — Mode-0 results of the model do not depend on NFourier (loop model, index bookkeeping). *proved*: `C12_only_flux`, `C12_any_number_of_modes`.
- **C13 The banded and dense solvers are interchangeable** — Model both assembly paths with their slice / slanted writes; prove entrywise relation for all sizes. *proved*: `C13_solver_choice`, `C13_same_matrix`.
- **C14 Slanted strided writes stay inside the band buffer** — Address arithmetic of the strided view: 0 <= row < 6N-1, col < dim; injectivity. *proved*: `C14_views_in_bounds`, `C14_no_alias`, `C14_nothing_written_outside`.
- **C15 Reusing the matrix and right-hand-side buffers across Fourier modes is harmless** — Assembly as a function of the previous buffer; prove result independent of it given the zero-region invariant, which every assembly preserves. *proved*: `C15_history_irrelevant`, `C15_uninitialised_memory`.
- **C16 No growing exponentials** — Sign lemmas for every exponent used by the model. *proved*: `C16_evaluation_exponents`, `C16_boundary_system_exponents`, `C41_no_positive_exponents`. C41_no_positive_exponents covers the exponents of the TMS correction.
- **C17 Results scale linearly with the sources** — Linear dependence of B, v, RHS on sources; invert the rescale factor. *proved*: `C17_homogeneous`. For every call whose sources contain something positive at the places the rescale factor looks at (Lit), returning or raising alike; antiderivatives included.
- **C18 Superposition** — Linearity of the modelled pipeline in (I0, b, s). *proved*: `C18_superposition`. u0, both fluxes, the direct flux and u (NT corrections included) are additive in the sources for well-posed problems.
- **C19 Azimuthal structure of the intensity** — Finite Fourier sums; integral of cos(m x) over a period. *proved*: `C19_azimuthal_symmetry`, `C19_azimuthal_mean`. The mean is over the intensity before the NT corrections, which are not azimuthally neutral.
- **C20 Splitting a homogeneous layer changes nothing** — Uniqueness for the non-singular boundary system + explicit coefficients for the split atmosphere. *proved*: `C20_splitting_a_layer`. u is compared without the NT corrections, whose averages depend on the layering (C44).
- **C21 Layer lookup and range check** — Model of argmax(tau <= tau_arr) on ArrayLike; order lemmas. *proved*: `C21_layer_lookup`, `C21_out_of_range`, `C21_in_range`.
- **C22 Vectorised evaluation equals pointwise evaluation** — Array-level models with broadcasting in an error monad; equality with pointwise formula for all arrays. *proved*: `C22_pointwise`, `C22_pointwise_u`.
- **C23 Delta-M scaled optics remain physical** — Field inequalities. *proved*: `C23_scaled_optics_physical`. The zeroth scaled Legendre coefficient is 1 in layers that scatter (in layers with omega = 0 the code leaves the caller's value, which is irrelevant).
- **C24 The delta-M depth map is a continuous increasing bijection** — Piecewise-affine map; induction on layers. *proved*: `C24_depth_map`.
- **C25 Delta-M scaling transports the internal source** — From C59. *proved*: `C25_source_transport`.
- **C26 The no-scaling shortcut agrees with the scaling formulas** — Unfold both branches. *proved*: `C26_no_scaling_shortcut`.
- **C27 Input validation accepts exactly the documented inputs** — Branch-by-branch model of the checks as an error monad; declarative predicate; iff proof. *proved*: `C27_validation`, `C27_rejects`, `C27_no_layers`. An empty tau_arr raises IndexError before any check is reached.
- **C28 Fractional peak scattering of exactly 1 is rejected** — FALSE for the code (f=1 accepted). Prove negation with witness; partial: f outside [0,1] rejected. *partial*: `C28_false_peak_one_accepted`, `C28_false`, `C28_out_of_range_rejected_partial`. f = 1 is accepted by the code (<= 1) and divides by zero; negation proved. Values outside [0,1] are rejected.
- **C29 pydisort does not modify its array arguments** — FALSE for the code (Leg_coeffs_all[:,0] assigned in place). Model heap effect as returned array; negation + partial characterisation. *partial*: `C29_false`, `C29_legendre_unchanged_partial`. Line 248 writes into the caller's Leg_coeffs_all; negation proved. The array is unchanged whenever its first column is already normalised.
- **C30 The source rescaling never divides by zero** — FALSE for the code. Negation by witness + partial (factor is >= 0; > 0 if beam or boundary source positive). *partial*: `C30_false`, `C30_rescale_factor_partial`. The rescale factor can be zero with an isotropic source; negation proved. Non-zero when the sources are non-negative and the source is positive at an end of the atmosphere.
- **C31 Azimuth-dependent (2-D) boundary conditions are usable** — FALSE for the code. Model shape classification and RHS broadcast; prove that every genuine 2-D BC with N>=2, NFourier>=2 fails. *partial*: `C31_two_dimensional_never_returns`, `C31_false`, `C31_single_entry_partial`. False for NQuad >= 4: an array of shape (NQuad/2, NFourier) is taken for a vector and the assignment of its rows fails; negation proved for every such array. Only the degenerate one-entry array works.
- **C32 Scalar and constant-vector boundary conditions are equivalent** — Unfold classification and per-mode BC. *proved*: `C32_scalar_or_vector`.
- **C33 Scalar and constant-function BDRF modes are equivalent** — Unfold BDRF branch. *proved*: `C33_scalar_or_function`.
- **C34 Antiderivative of the upward flux** — Array-level antiderivative model incl. broadcasting; FALSE with isotropic source and NLayers>1 (divides by whole scale_tau). Partial: no isotropic source, or one layer. *partial*: `C34_flux_up_antiderivative_partial`, `C34_source_in_layers_raises`, `C34_single_depth_wrong_shape`, `C34_wrong_value`, `C34_false`. True without internal source or with one layer. With an internal source in several layers flux_up(tau, True) raises for most numbers of depths; at a single depth it returns one number per layer, and with as many depths as layers it can return two different values for the same depth. All proved.
- **C35 Antiderivative of the downward flux** — FALSE for several arrays of depths when multi-layer beam source; partial. *partial*: `C35_flux_down_antiderivative_partial`, `C35_beam_in_layers_raises`, `C35_false`, `C35_wrong_value`. True with one layer, without a beam or for single depths. With a beam and several layers flux_down(tau, True) raises unless the number of depths is 1 or the number of layers; in the latter case it returns wrong numbers. Both proved.
- **C36 Antiderivative of u0** — FALSE without beam source; partial with a beam. *partial*: `C36_u0_antiderivative_partial`, `C36_flag_ignored`, `C36_source_in_layers_raises`, `C36_single_depth_wrong_shape`, `C36_false`. True with a beam and no internal source in several layers. Without a beam the flag is ignored; negation proved.
- **C37 Antiderivative of u** — As C34. *partial*: `C37_u_antiderivative_partial`, `C37_corrected_partial`, `C37_source_in_layers_raises`, `C37_single_depth_raises`, `C37_false`. True without internal source or with one layer; with NT corrections if in addition the delta-M scale factor is the same in all layers (otherwise C67_false). With an internal source in several layers it raises for most numbers of depths; negation proved.
- **C38 Fourier error estimate** — FALSE with a beam source; partial without beam and for mode>0. *partial*: `C38_fourier_error_partial`, `C38_beam_in_layers_raises`, `C38_false`, `C38_wrong_value`. True without a beam (several modes or no internal source). With a beam the estimate mixes up array axes: it raises, or returns a positive number where the last Fourier term is zero. Both proved.
- **C39 Diffuse actinic fluxes** — FALSE with delta-M and rescale factor != 1; partial. *partial*: `C39_actinic_up`, `C39_actinic_down_returned`, `C39_actinic_down_partial`, `C39_false`. The upward function is right. The downward one adds the reclassified beam in internal units; negation proved.
- **C40 TMS correction solves the single-scattering equation** — FALSE for heterogeneous layers; partial for layers with identical scattering difference. *partial*: `C40_tms_partial`, `C40_false`. Equation, top and bottom conditions hold in every layer. Continuity across layer boundaries holds only if the once scattered light has the same strength in all layers: the code gives light from other layers the strength of the layer of observation, so that u jumps; negation proved.
- **C41 Scan form of the TMS layer sums** — Finite sums by induction; exp algebra. *proved*: `C41_layer_sums`, `C41_masked_term`, `C41_no_positive_exponents`. Exponents refer to the arguments of exp/expm1; division by decay_prod is the subject of C68.
- **C42 Without peaks, beam or extra coefficients no intensity correction is made** — Unfold the gate. *proved*: `C42_inactive`, `C42_fluxes_unaltered`.
- **C43 IMS depth function** — HasDerivAt computations. *proved*: `C43_chi`, `C43_chi_antiderivative`, `C43_ims`.
- **C44 IMS average optics are intrinsic to the atmosphere** — FALSE; witness. *partial*: `C44_homogeneous_partial`, `C44_false`. False: the averages are weighted with cumulative depths instead of thicknesses; negation proved. True in homogeneous atmospheres.
- **C45 Intensity corrections work for two streams** — FALSE for Nphi>1; shape model of squeeze/atleast_2d_append. *partial*: `C45_returns_partial`, `C45_two_streams_raise`, `C45_false`. False: with two streams every number of azimuths other than one raises; negation proved.
- **C46 Direct flux entry has the size of tau** — FALSE without beam; partial with beam. *partial*: `C46_direct_flux_size_partial`, `C46_false_without_beam`. True with a beam; false without one (scalar 0 returned). Negation proved with a concrete problem.
- **C47 prepend** — Array model. *proved*: `C47_prepend`, `C47_wrong_length`. The declared length is the allocated length; the error branch and the one-element broadcast are covered.
- **C48 Interval transformation is the affine bijection** — Field algebra. *proved*: `C48_affine`, `C48_bijection`, `C48_inverse`.
- **C49 Transported quadrature is exact** — Polynomial change of variable with integrals; leggauss as contract. *proved*: `C49_exact`, `C49_gauss`, `C49_zero`. C49_gauss instantiates the contract of leggauss; zero nodes raise.
- **C50 Clenshaw-Curtis quadrature** — Explicit DCT-I weights; exactness through the cosine expansion of polynomials. *proved*: `C50_refused`, `C50_exact`, `C50_nodes`. The inverse cosine transform is the sum scipy documents; exact arithmetic.
- **C51 Scattering-angle cosine** — Real algebra. *proved*: `C51_dot`, `C51_unit`, `C51_range`, `C51_symmetric`, `C51_same`, `C51_opposite`, `C51_periodic`, `C51_shape`.
- **C52 Finite-difference matrix is second order** — Matrix model of the sparse assembly; algebra. *proved*: `C52_too_few`, `C52_quadratic`, `C52_second_order`. C52_second_order also gives the error bound for every function with bounded third derivative.
- **C53 atleast_2d_append** — Shape model. *proved*: `C53_scalar`, `C53_vector`, `C53_higher`, `C53_rank`, `C53_arguments`.
- **C54 Planck function** — Real analysis of exp. *proved*: `C54_law`, `C54_increasing`, `C54_exponent`. Positive wavenumber; the wavenumber 0 is 0/0 and is excluded.
- **C55 Linear spline coefficients interpolate** — Field algebra. *proved*: `C55_line`, `C55_refused`.
- **C56 DISORT-equivalent source polynomials** — quad_vec as oracle. *proved*: `C56_source`, `C56_refused`. The band integral is whatever quad_vec returns under its contract.
- **C57 Emissivity from BDRF** — Gauss contract. *proved*: `C57_kirchhoff`, `C57_constant`, `C57_constant_number`.
- **C58 Caching BDRF modes does not change results** — FALSE for N=1 with mu0 cached and for scalar modes with beam; partial otherwise. *partial*: `C58_cache_partial`, `C58_false_number`, `C58_false_two_streams`. False with a number as a mode and a beam (TypeError), and with two streams and a cached cosine (wrong column); both negations proved.
- **C59 Affine change of variable for polynomials** — Binomial theorem. *proved*: `C59_affine`.
- **C60 Zero scale factors are rejected** — FALSE; witness, partial (all zero). *partial*: `C60_all_zero_partial`, `C60_false`. False: the check np.any(a_arr) == 0 fires only if all scale factors are zero; negation proved.
- **C61 Interpolation in mu reproduces the nodes** — BarycentricInterpolator = Lagrange interpolation (Mathlib Lagrange). *proved*: `C61_interpolate_u`, `C61_interpolate_u0`, `C61_nodes`, `C61_polynomial`, `C61_unique`, `C61_refused`, `C61_pydisort_u0`, `C61_pydisort_u`, `C61_pydisort_u0_options`, `C61_pydisort_u_options`. BarycentricInterpolator is modelled by its formula.
- **C62 Interpolating u0 passes options through** — FALSE; plumbing model. *partial*: `C62_values_partial`, `C62_returned`, `C62_false`. False: line 682 passes the flags in the wrong positions; negation proved.
- **C63 Diagonal ordered form** — Index arithmetic with NumPy negative-index wraparound. *proved*: `C63_entries`, `C63_reconstruct`, `C63_too_wide`.
- **C64 Purely absorbing atmosphere has the closed-form solution** — Solve the model's boundary system explicitly by induction over layers; uniqueness. *proved*: `C64_absorbing_closed_form`, `C64_beam_stays_direct`, `C64_over_surface`.
- **C65 Well-posed problems are solved without an exception** — Invertibility of the eigenvector matrix and of the boundary system from dissipation (energy argument in `Energy`, `CoefSuccess`): a homogeneous solution carries no energy, so the determinant is not zero. Every other exception of the pipeline is excluded branch by branch. *proved*: `C65_well_posed_call_returns`, `C65_u0_can_be_evaluated`, `C65_scattering_dissipates`, `C65_nonneg_phase_dissipates`, `C65_fair_surface_is_passive`, `C65_physical_problems_are_well_posed`.
- **C66 The discretised problem has one solution and the code returns it** — The difference of two solutions solves the homogeneous problem; energy argument across layers (`Uniqueness`). *proved*: `C66_solution_unique`, `C66_code_returns_the_solution`.
- **C67 Antiderivative of the intensity corrections** — Derivative computation on the scan form of C41; FALSE for unequal scale factors, witness. *partial*: `C67_antiderivative_partial`, `C67_false`. True if the delta-M scale factor is the same in all layers. Otherwise the contribution of other layers is divided by the wrong scale factor; negation proved.
- **C68 The scans of the TMS correction do not divide by numbers that underflow** — FALSE: explicit family of atmospheres. In exact arithmetic the statement is about the size of the divisors. *partial*: `C68_divisors_partial`, `C68_false`. False: exact divisors become arbitrarily small although the quotient lies in [0, 1]. What holds: the divisors are exp(-tau*/mu), in (0, 1], and above the smallest positive double if the optical depth is at most 744 mu.
- **C69 Blackbody contribution to the boundary conditions** — `quad_vec` oracle with its contract; Planck monotone from C54. *proved*: `C69_blackbody`, `C69_increasing`, `C69_additive`.
- **C70 Isothermal enclosure** — The constant field B solves the boundary value problem (row sums of the kernel by exactness of the quadrature), hence by C66 it is what the code returns. Helpers: C56, C69, C57 feed the arguments. *proved*: `C70_isothermal`, `C70_enclosure`. Assumes NoNeglect: a layer with 0 < omega* <= 2e-8, whose scattering the code drops, breaks the equilibrium by that amount.
- **C71 Positivity and monotonicity** — Minimum principle (`MinPrinciple`): a supersolution with non-negative data cannot have a negative minimum, at interior points, interfaces and boundaries. *proved*: `C71_nonneg`, `C71_monotone`.
- **C72 Nothing is brighter than the hottest body** — C71 applied to B - u. *proved*: `C72_upper_bound`.
- **C73 Reciprocity** — The bilinear form Σ w μ (u v' - ...) is constant in depth by symmetry of the kernel; evaluate at both boundaries. *proved*: `C73_reciprocity`.
- **C74 No more light leaves than enters** — C11 gives the derivative of the net flux, C71 its sign; surface inequality at the bottom. *proved*: `C74_net_flux_monotone`, `C74_no_more_up_than_down`.
- **C75 The intensity solves the transfer equation with all azimuths** — Prove the addition theorem for Legendre polynomials (recurrences of the derivatives of the Rodrigues polynomials), expand the phase function into a cosine series with the azimuthal moments of C02, and use orthogonality of the cosines: the sum of the mode equations of C02 is the full equation. Same for the reflection integral and C03/C04. *proved*: `C75_full_transfer_equation`, `C75_full_boundary_conditions`. Assumes that the 1e-8 shortcut drops no scattering (NothingNeglected).
- **C76 No intensity is negative** — Minimum principle on depth x azimuth x streams (compact): at a negative minimum the full equation of C75 gives a strictly smaller value nearby, or the boundary condition does. *proved*: `C76_intensity_nonneg`. Assumes that the 1e-8 shortcut drops no scattering (NothingNeglected).
- **C77 Delta-M scaling equals scaling the inputs by hand** — Map solutions of the scaled problem to solutions of the original one along t -> tau*(t) (continuous, strictly increasing, affine on each layer) and use uniqueness (C66). *proved*: `C77_delta_M_is_scaling_by_hand`.
- **C78 Rotating the beam rotates the light** — phi and phi0 enter only as cos(m (phi0 - phi)) and through the scattering angle; follow the model through u, the corrections and the error estimate. No well-posedness needed. *proved*: `C78_rotation`.
- **C79 Turning the atmosphere upside down mirrors the light** — Mirror the solution in depth and direction: kernel symmetry D(-mu,-mu') = D(mu,mu') by parity of the associated Legendre functions; then uniqueness (C66). *proved*: `C79_upside_down`.
- **C80 Only the physics matters** — Show that the solution of one problem solves the other (everything that may differ drops out of the equations of C02-C05), then uniqueness (C66). *proved*: `C80_same_physics_same_results`.
- **C81 Cutting the atmosphere at an interface** — Restrict the solution to the upper part, shift it for the lower part (the beam source factor exp(-tau*/mu0) splits), then uniqueness (C66). *proved*: `C81_cutting_at_an_interface`. For the azimuthal average (mode 0), which is what the interface values u0 determine.
- **C82 Brighter sources, brighter light in every direction** — The difference of the two fields solves the problem with the difference of the sources; apply the argument of C76 to it. *proved*: `C82_intensity_monotone`. Assumes that the 1e-8 shortcut drops no scattering (NothingNeglected).
- **C83 Changes of the thermal sources are not amplified** — The difference of the two fields solves the problem with the difference of the sources, which has no beam: bound mode 0 from both sides by C72's argument, the other modes of the difference vanish by uniqueness (C66). *proved*: `C83_stability`.
- **C84 autograd_compatible does not change the results** — Model the last steps literally for both values of the flag (Model/Returned.lean: slices, in-place addition, concatenation, the tests any_pos/any_neg that skip an addition, squeezes, broadcasting of arrays of different rank) and show that both agree with the model before the squeeze. *proved*: `C84_autograd`, `C84_outcome`. autograd.numpy is assumed to compute what numpy computes. u0 and the fluxes contain no branch on autograd_compatible.
- **C85 Axes of the returned arrays** — As C84 with autograd_compatible = False; entries are located through the index maps of np.squeeze. *proved*: `C85_shapes`, `C85_squeeze`, `C85_single`.
- **C86 Fourier error estimate of the antiderivative** — Model the antiderivative branch of the estimate (lines 274-288) literally and compare with the specification of the estimate applied to the modes of u(tau, phi, True); with a beam the axes are mixed up, prove the exception for all such inputs. *partial*: `C86_fourier_error_of_antiderivative_partial`, `C86_modes_unique`, `C86_beam_in_layers_raises`, `C86_false`. True without a beam and (without internal source, or with one layer and several modes). With a beam in several layers it raises unless the number of layers is the number of streams; negation proved.
- **C87 Warnings** — Model the list of warnings a call issues, in order (Model/Warnings.lean), and characterise membership by conditions on the caller's data only. *proved*: `C87_warnings`, `C87_modified_iff_warned`. The two warnings in subroutines.py (cache_BDRF_Fourier_modes, _mathscr_v) are not covered.
- **C88 Less absorption, more light** — Minimum principle for the difference of the two fields: scale * omegaStar increases and scale decreases with omega, the scaled depth decreases, so the difference is a supersolution of the second problem (using that the first field is non-negative, C71). *proved*: `C88_less_absorption_more_light`.
- **C89 Less absorption, more light in every direction** — As C88 with the minimum principle on depth x azimuth x streams of C76, stated for supersolutions. *proved*: `C89_less_absorption_more_light`. Assumes that the 1e-8 shortcut drops no scattering (NothingNeglected).
- **C90 What lies below or above adds light** — The restriction of the whole field to the part solves the part's equations with extra boundary light from the other part, which is non-negative (C71, C76); conclude with the minimum principle. *proved*: `C90_what_lies_below_adds_light`, `C90_what_lies_above_adds_light`, `C90_what_lies_below_adds_light_everywhere`, `C90_what_lies_above_adds_light_everywhere`. The statements at all azimuths assume that the 1e-8 shortcut drops no scattering (NothingNeglected).
- **C91 Resonant beam directions** — State resonance by the source-free transfer equation; show it equivalent to 1/mu0^2 being an eigenvalue of the reduced matrix (roots of characteristic polynomials: finitely many) and to a singular beam system (exception). With an internal source in mode zero the code divides instead of solving; prove the zero denominator. *partial*: `C91_resonances_are_few`, `C91_other_directions`, `C91_resonance_raises_partial`, `C91_returns_iff`, `C91_division_by_zero`. The exception is missing when there is an internal source and the resonance is in the zeroth mode: the code then divides by zero (C91_division_by_zero). Exact arithmetic; in floating point an exact resonance is rarely hit.
- **C92 Every quotient and square root is defined** — List all denominators and radicands that depend on the input (Spec/Defined.lean) and bound each away from zero from the input checks and the conditions of a well-posed call; for the corrections determine exactly when this fails, with witnesses. *partial*: `C92_solver_quotients`, `C92_correction_quotients_partial`, `C92_peaks_false`, `C92_secondary_false`. Proved for the solver and the functions without corrections. With corrections an exact criterion: some layer has both a forward peak and scattering, and no quadrature angle equals the scaled angle of the beam; the code tests neither, and both denominators vanish in well-posed calls (negations proved). f = 1 is C28, resonance C91.
- **C93 Comparison with reference results** — Model _compare with what it prints as part of its result (Subroutines/Compare.lean), including fancy indexing, reshape in C order, Boolean masks, maxima along axes and argmax; combine with C85 (squeezed results). *partial*: `C93_compare`, `C93_ratio_partial`, `C93_ratio_intensity_partial`, `C93_zero_reference`, `C93_negative_reference`, `C93_false`, `C93_refuses`. The last sentence holds for positive reference values only: where the reference is zero the ratio is set to zero whatever was computed, and for negative reference values the ratio is negative; negations proved.
- **C94 Axes of interpolated intensities, actinic fluxes and Planck values** — Model the last steps of interpolate, of the actinic fluxes and of Planck on squeezed arrays of any rank (Subroutines/Handed.lean) and combine with C85, C61, C39, C54. *proved*: `C94_interpolate`, `C94_interpolate_refuses`, `C94_interpolate_u`, `C94_interpolate_u0`, `C94_actinic_up`, `C94_actinic_down`, `C94_planck`. u for autograd_compatible=False (C84 gives the same array for True); with NT corrections the lengths for which C45 shows that u raises are excluded. The reclassified part is the returned one, in internal units (C39).
- **C95 Antiderivatives of the actinic fluxes** — As C36, summed with the quadrature weights and with the derivative of the reclassified part; the negation with an absorbing atmosphere lit from below. *partial*: `C95_up_partial`, `C95_down_partial`, `C95_false`. Proved with a beam and no internal source or a single layer. Without a beam u0 ignores the flag (C36), and so do the actinic fluxes: negation proved. With sources in several layers u0(tau, True) fails (C36).
- **C96 Neighbouring layers and the net flux** — The difference of the two net fluxes changes with depth by absorption of the difference of the mean intensities (C11), which is non-negative (C90); its sign is known at the top (equal illumination) or at the ground (lossy surface). *proved*: `C96_what_lies_below_returns_light`, `C96_what_lies_above_sends_light_down`, `C96_thicker_transmits_less`.
- **C97 The vectorised particular solution treats every depth on its own** — Every NumPy operation of _mathscr_v (`Subroutines/MathscrArr.lean`: slices, broadcasts, cumprod of floats and of 64-bit integers, np.take with negative indices, einsums, np.unique) as a program with exceptions; shapes are computed symbolically and every entry is reduced to the pointwise model; uniqueness by comparing coefficients of polynomials from the top. *proved*: `C97_vectorised_particular_solution`, `C97_in_call`, `C97_solution_unique`, `C97_array_program_is_the_model`. C97_array_program_is_the_model also covers the antiderivative flag and any number of coefficients, with 64-bit factorials (C07).
- **C98 The vectorised evaluation functions treat every depth on their own** — Every NumPy operation of the evaluation functions (`Model/EvalArr.lean`: argmax, np.take, slices, concatenate, einsum, transposes, in-place additions) as a program with exceptions; compute shapes symbolically, reduce every entry to the pointwise model, then transfer `Evaluates`. *proved*: `C98_every_depth_on_its_own`, `C98_array_programs_are_the_model`. u before the NT corrections. The second theorem covers the antiderivatives (whose own properties are C34-C37), the Fourier error and the reclassified part.
- **C99 The whole of u, with the NT corrections, treats every depth and azimuth on its own** — Every NumPy operation of `TMS_correction`, `IMS_correction` and `u_corrected` (`Model/NTArr.lean`: np.unique, cumsum of reversed arrays, min/max tests, concatenations, squeezes) as a program with exceptions; reduce every entry to `Model/NT.lean`, then transfer `C85_shapes` and `C84_autograd`. *proved*: `C99_intensity_program`, `C99_program_is_the_model`, `C99_outside`. C99_program_is_the_model also covers the antiderivative flag and the exceptional shapes of C45.
- **C100 Ignoring weak scattering costs little** — Spec `Spec/Neglect.lean` (equation without the threshold). |P_l| <= 1 from the addition theorem bounds what is left out; the difference of the two solutions stays below a constant supersolution by the minimum principle. Witness: an isothermal atmosphere with a layer of albedo 1e-8. *proved*: `C100_ignoring_weak_scattering`, `C100_from_the_results`, `C100_isothermal`, `C100_not_exact`. Azimuthal mean only; for the higher modes the specification of C02 ignores what the code ignores. C100_from_the_results bounds the error by what the code returns.
- **C101 Absorption screens distant sources** — Spec `Spec/Screen.lean` (absorption depth, sources that differ within some layers). The difference of the two solutions stays below eps exp(-A), a supersolution because each stream attenuates at least as fast as absorption along the vertical; minimum principle. Witness: the surface emission seen from the top of the two-layer atmosphere. *proved*: `C101_absorption_screens`. Thermal sources only: the beam is the same in both calls. Exact arithmetic.
- **C102 What lies beyond an absorbing layer hardly matters** — The restriction of the solution to one side of the interface solves the problem for that side with what came through the interface as boundary value (C81); compare with the dark boundary value by the envelope of C101. Witness: the two-layer atmosphere cut between its layers. *proved*: `C102_what_lies_below_is_screened`, `C102_what_lies_above_is_screened`. Azimuthal average and fluxes. For the lower part the surface must return at most what it receives.
- **C103 A call owns its data** — A memory model (`Model/Memory.lean`): array objects with addresses, `np.atleast_1d/2d` as aliases, line 248 as a write, the returned functions as closures over addresses that read memory when evaluated. Refinement of the model by value, a frame theorem for the caller's arrays, a frame theorem for the closures, and negations: halving `tau_arr` makes the bottom be refused, adding to it shifts depths silently, zeroing `f_arr` or the returned `mu_arr` changes corrected intensities. *partial*: `C103_call_by_value`, `C103_writes`, `C103_written_although_raised`, `C103_results_keep_partial`, `C103_tau_false`, `C103_shift`, `C103_f_false`, `C103_mu_false`. True of everything except tau_arr and, with intensity corrections, f_arr and the returned mu_arr: the returned functions keep references to these. Writing to them later changes results, which the theorems _false and _shift prove.
- **C104 Kirchhoff's law** — Green's identity: the exchange of two fields (C73) changes along the depth by the internal sources times the actinic flux of the other field; integrate over layers (fundamental theorem of calculus) and insert the boundary conditions. Kirchhoff: emission as internal source, absorption from the exchange with the constant field. *proved*: `C104_reciprocity`, `C104_kirchhoff`, `C104_emissivity`. For calls without beam; the two theorems about emission need NoNeglect, because the code ignores weak scattering but not the matching emission (see C100).
- **C105 Two streams give the two-stream approximation** — The closed form solves the boundary value problem of mode zero (derivatives of cosh and sinh, amplitudes of the beam from a 2 by 2 system), and that has one solution (C66). The one-point Gauss rule on (0, 1) follows from the contract: node 1/2, weight 1. *proved*: `C105_two_stream`, `C105_reflection_transmission`. For well-posed calls (WellPosed, Rescalable) without a layer in the gap of the scattering shortcut (NoNeglect).
- **C106 Small changes of the optical properties have small effects** — The second solution satisfies the first equation up to a residual, the change of the scattering matrix applied to intensity minus source. Its row sums are the albedos, so both terms combine and the residual is at most eps B times the absorption; the constant eps B is a supersolution (minimum principle of C71). *proved*: `C106_similar_optics`, `C106_albedo`. For phase functions that are non-negative between the streams, a surface that reflects at most everything, and no layer in the gap of the scattering shortcut (NoNeglect).
- **C107 Delta-M scaling under floating-point rounding** — A format is the set of integers of p bits times powers of two (Spec/Float.lean); a rounding is monotone, into the format and exact on it. Then an exact bound by a number of the format survives rounding: omega f <= min(omega, f) after rounding, 1 - f <= scale after rounding, so the quotient is at most one. Error bounds follow from the spacing of the format. The counterexample is a layer of thickness 2^-60 above one of thickness one. *proved*: `C107_thickness`, `C107_scaled_optics`, `C107_exponents`, `C107_exponent_positive`, `C107_nodes`, `C107_rescaled`, `opticsR_id`, `scaledTauR_id`. About a second model of these lines in which every operation is rounded (Model/Rounded.lean); opticsR_id and scaledTauR_id show that without rounding it is the exact model. Overflow is left out. For the Legendre coefficients the caller gives exactly one as the zeroth. Exponents: not covered are peak fractions so small that every rounded scale factor is one.
- **C108 Discretisation error of the streams** — The exact field at the streams solves the discretised problem up to a residual. Adding a constant epsilon makes the difference a supersolution: the constant yields epsilon times the co-albedo, which pays for the residual, and epsilon times the absorptivity at the surface. The minimum principle of C20 finishes. *proved*: `C108_discretisation_error`, `C108_exact_on_polynomials`. The continuous problem is Spec.ExactSolution (Spec/Continuum.lean), for the azimuthal average, after delta-M scaling and with the Legendre coefficients the code keeps. The defects Spec.ScatterDefect and Spec.ReflectDefect are hypotheses; C109 shows that they tend to zero.
- **C109 Convergence with the number of streams** — Consistency plus the stability of C108. A positive quadrature that is exact on polynomials converges on a compact family of continuous functions (Weierstrass and a finite net), and on bounded families that are jointly continuous on (0, 1] (the part near 0 is dominated by 4 M (1 - z)^m, whose integral is small and exact). The parameters are depth and direction. *proved*: `C109_converges`. The field is only asked to be bounded and continuous away from horizontal directions, where exact solutions have no limit at the boundaries. That an exact solution exists is a hypothesis here, discharged by C110.
- **C110 The equation that is discretised has one and only one solution** — Banach's fixed point theorem on pairs (downward, upward) of bounded continuous functions of depth and cosine in (0, 1]: emit, then solve along every direction with the integrating factor. The step contracts by the larger of the scaled albedo and the reflectivity of the surface. A fixed point is a solution and conversely. *proved*: `C110_exact_solution_exists`. The specification is Spec.ExactSolution, as in C108 and C109. Nothing is said about the direction mu = 0, in which the equation is not differential.
- **C111 Answers do not depend on the number of streams, if there are enough** — C110 provides an exact solution; by C109 both calls are within half the accuracy of it. *proved*: `C111_streams_agree`. No exact solution is mentioned in the statement; it follows from C109 and C110. The two calls may also differ in their quadrature and eigenvalue oracles and in the contents of uninitialised memory.
- **C112 The transfer equation with all directions has one and only one solution** — Existence: the fixed point argument of C110 for every Fourier mode with the absolute values of kernel and BDRF mode, then the Fourier series of the modes is shown to solve the equation by the addition theorem. Uniqueness: along every direction the difference of two solutions is bounded by q times its supremum, q < 1 the larger of the scaled albedo and the reflectivity. *proved*: `C112_sky_exists`. The specification is Spec.SkySolution (Spec/Sky.lean), in which neither streams nor Fourier modes enter. Boundary values do not depend on the azimuth, see C31.
- **C113 With more and more streams the returned intensities converge to the true ones, at all azimuths** — The discrete minimum principle bounds the error of every mode by the quadrature defect of the exact mode, which tends to zero uniformly; the sum over the finitely many modes is the returned u. *proved*: `C113_sky_converges`. Corrected intensities (NT_cor) are not covered. The number of Legendre coefficients is fixed while the number of streams grows; the calls are described by Spec.AsksForSky.
- **C114 Intensities in nearby directions agree, whatever the number of streams** — Both calls are near the exact solution by C113, which is uniformly continuous on compact sets of directions. *proved*: `C114_skies_agree`. Follows from C112, C113 and the uniform continuity of the exact solution away from horizontal directions.
- **C115 Truncation and delta-M scaling become harmless as the number of coefficients grows** — The stability bound behind C109 is stated for any field: the error is the defect with which the exact solution satisfies the discrete equations. Here the defect has three parts, the quadrature error, the tail of the Legendre series and the change of optical depth, albedo and coefficients by the scaling, and each is bounded by a number that tends to zero. *proved*: `C115_full_phase_function`, `C115_usual_peak`. The specification is Spec.FullSolution (Spec/Full.lean). Layers that scatter at all are required to have an albedo above 2e-8, because the code neglects scattering below 1e-8 (C100). The witnesses are calls with the Henyey-Greenstein phase function for every NLeg.
- **C116 The untruncated transfer equation has one and only one solution** — The fixed point argument of C110 with the infinite kernel, whose integral over the directions is two because the Legendre polynomials are orthogonal to the constant. *proved*: `C116_full_solution_exists`. Neither NLeg nor f nor the number of streams enters the specification.
- **C117 In all directions, the untruncated transfer equation has one and only one solution** — A contraction: the formal solution along each ray maps bounded continuous fields to themselves, and scattering and reflection multiply the supremum of a difference of fields by less than one, because the phase function is non-negative with integral 4 pi, the albedos are below one and the surface absorbs. Continuity of the azimuth integrals is proved for bounded fields that are continuous off the horizontal plane. *proved*: `C117_whole_solution_exists`. The specification is Spec.WholeSolution (Spec/FullSky.lean). Neither NLeg nor NFourier nor f nor the number of streams enters it. The witness is a Henyey-Greenstein atmosphere above a surface whose BDRF depends on the azimuth.
- **C118 The equation that is solved when Fourier modes are dropped** — Sum the mode equations of C02 over the modes that are used. A mode without a significant coefficient satisfies the equation without scattering, so the sum is the equation with those modes left out of the phase function. The bound uses that the Legendre moments of one mode are at most one in magnitude. *proved*: `C118_kept_transfer_equation`, `C118_dropped_modes`. The specification is Spec.keptPhase and Spec.keptRHS (Spec/Kept.lean). Unlike C75 it needs neither NFourier = NLeg nor that nothing is neglected. The witness neglects a mode.
- **C119 With more coefficients, modes and streams the intensities at all azimuths approach the untruncated solution** — Write the error as the solution of an attenuation problem along each ray. Its source is bounded by q times the supremum of the error plus a defect, with q below one because layers and surface absorb at least kappa. The defect collects quadrature, truncation, delta-M scaling and dropped modes; the first three can be made small, the last is at most nu. Iterate the estimate to the fixed point. *proved*: `C119_whole_phase_function`, `C119_usual_peak`. The specification is Spec.WholeSolution (Spec/FullSky.lean) with Spec.AsksForWhole, Spec.AbsorbsAtLeast and Spec.NeglectsAtMost (Spec/WholeLimit.lean). Existence and uniqueness of the limit are C117. The term with nu does not go away with more modes, because the threshold 1e-8 is fixed in the code.
- **C120 The threshold 1e-8 keeps the intensities from converging** — In a neglected mode without sources the boundary value problem is dark, so only mode zero is left. If the exact solution did not depend on azimuth, its transfer equation at two azimuths would force the beam source to be the same at both, which anisotropic scattering of an oblique beam forbids. So it differs at two azimuths by some positive amount at some direction; by density of the streams and continuity a stream nearby sees half of it. *proved*: `C120_weak_anisotropy_is_invisible`, `C120_error_that_stays`, `C120_no_convergence`. A limitation of the code rather than a defect: the error is small, but it is not a discretisation error. The exact solution is Spec.WholeSolution, the calls are those of C119 (Spec.AsksForWhole).
- **C121 The intensity corrections are no larger than what was cut off** — The layer sums telescope, so the TMS correction is its strength times a profile that solves a damped equation with a source of at most one; convexity of exp bounds the profile by one, also near mu = mu0. The IMS profile is bounded by one through its differential equation (C43). The strengths are sums of Legendre polynomials, which are at most one, with the coefficients that were cut off. The refusal follows from the density of the quadrature angles. *proved*: `C121_corrections_are_bounded`, `C121_too_fine_calls_are_refused`, `C121_corrected_intensities`. The specification is Spec.cutOff and Spec.AsksForCorrected (Spec/CutOff.lean). The bound holds in spite of C40 (the wrong source strength in heterogeneous atmospheres). C121_corrected_intensities speaks about calls that go through; the witness has such calls with up to 1998 streams for one atmosphere.
- **C122 The returned fluxes approach the energies carried by the untruncated intensity** — Exchange the integrals over azimuth (Fubini, with bounded fields that are continuous off the horizontal plane) and differentiate under the integral sign; then C115. *proved*: `C122_azimuthal_mean`, `C122_fluxes`. upEnergy and downEnergy (Spec/AzMean.lean) are the double integrals. Visible scattering: albedo zero or above 2e-8, see C115.
- **C123 Negative results disappear as the resolution grows** — A lower bound -k on the field improves to -q k with q < 1 along every ray, by the minimum principle of C71 for a single direction. Applied to the field itself, to differences of fields, and to differences from a constant; then C119 and C122. *proved*: `C123_exact_nonneg`, `C123_exact_monotone`, `C123_below_blackbody`, `C123_above_blackbody`, `C123_isothermal`, `C123_fluxes_nearly_nonneg`, `C123_intensities_nearly_nonneg`. Unlike C71 and C76, which say that nothing at all is negative, these need no assumption on the truncated phase function.
- **C124 Only finite numbers pass the checks** — IEEE values as an inductive type (NaN, two infinities, real numbers) with the comparisons and operations of IEEE 754; the checks of pydisort with these values (Model/NonFinite.lean). Agreement with the exact model on finite arguments, what the checks guarantee, and for every accepted call which values can be replaced by NaN or infinity without being refused. *partial*: `C124_finite`, `C124_values_partial`, `C124_false`. False: I0, b_pos, b_neg, s_poly_coeffs, the last entry of tau_arr, and mu0 and phi0 without a beam may be NaN or infinite (the latter for the last optical depth); proved for every accepted call. All other values are finite numbers in their ranges. About a model with IEEE values (Model/NonFinite.lean), which agrees with the exact one on finite arguments (C124_finite). BDRF_Fourier_modes are not looked at by any check.
- **C125 NaN and infinities that pass the checks are visible in the results** — The rescale factor is a maximum, which NaN enters; every result is a product with it. At a depth NaN every exponent is NaN. Agreement with the exact model on finite numbers is proved. *proved*: `C125_finite`, `C125_rescale`, `C125_sources`, `C125_depths`, `C125_azimuths`. u with or without corrections, u0, flux_up and flux_down, not their antiderivatives; the corrections themselves are arbitrary here. Arithmetic on finite numbers is exact in this model: overflow is left out. Nothing is said about NaN in s_poly_coeffs or negative infinity in a boundary condition.
- **C126 In a thick atmosphere the surface does not matter** — Call with the last entry of tau_arr replaced by T and another surface (Spec/Deep.lean). Two solutions on [0, T] with the same illumination differ at t by their difference at T times exp(-absorption) (comparison principle of C101); solutions for all T are bounded by one constant (supersolution), so they form a Cauchy sequence for T to infinity; the limit solves the transfer equation because values and derivatives converge uniformly on bounded depths. *proved*: `C126_deep_solution`, `C126_deep_error`, `C126_deep_limit`. Azimuthal average and fluxes.
- **C127 Infinity as the last entry of tau_arr** — Model/Endless.lean repeats the lines that depend on the last boundary with IEEE values (exponentials, matrix, right-hand side, coefficients, depths); on finite boundaries it is the exact model (C127_finite). The infinite boundary sets the off-diagonal blocks of the last unknowns to zero (mask); the remaining system is regular by an energy argument on the half-line, its solution is the bounded one; uniqueness by the same energy argument. *proved*: `C127_one_solution`, `C127_bottom_at_infinity`, `C127_scaled`, `C127_at_infinity`, `C127_limit`, `C127_finite`. Model/Endless.lean: the numbers that depend on the last boundary are IEEE values with exact arithmetic on finite ones. The NaN in the lowest layer is disagreement 26 in DESIGN.md.
- **C128 Depths passed as integers** — Model/IntDepth.lean repeats the evaluation functions for integer depths with the powers of _mathscr_v wrapped to 64 bits. Partial: no wrap-around if the powers fit. Negation: at the depth 2^32 the square wraps to zero and the leading coefficient of the particular solution, which is nonzero in some stream, is missing. *partial*: `C128_partial`, `C128_false`. Proved without internal source, with delta-M scaling, or if the powers of the depths formed by _mathscr_v fit into 64 bits. False otherwise: for every unscaled call with three source coefficients, C128_false shows that the depth 2^32 gives different intensities as an integer and as a float (disagreement 27).
- **C129 Inexact linear algebra** — A posteriori bound. The difference of the field described by the stored arrays and the solution has small residuals; a step function removes its jumps at interfaces; the comparison principle of Props/Bounds.lean with constants as supersolutions bounds it. Exact arrays are shown to have no residuals. *proved*: `C129_residual_bound`, `C129_inexact_linear_algebra`, `C129_two_runs`, `C129_exact_has_no_residuals`. C129_inexact_linear_algebra allows any stored arrays and any eig; only leggauss is required to be exact. The evaluation of the stored arrays (exp and sums) is in exact arithmetic.
- **C130 Legendre coefficients passed as integers** — Model/IntLeg.lean repeats lines 605-694 of pydisort.py with the fractions f truncated when they are assigned to an integer copy of Leg_coeffs_all. Partial: nothing else depends on that copy. Negation: all integers allowed are 0 (beyond the zeroth), so the IMS factor is 0, whereas with floats it is a nonzero Legendre polynomial of the scattering angle times a positive solution of the secondary-scattering equation. *partial*: `C130_uncorrected_partial`, `C130_upward_partial`, `C130_difference`, `C130_false`, `C130_false_witness`. Proved if the intensity corrections are not active, and always for upward streams. False otherwise: with active corrections and fractions below 1, downward intensities lack the whole IMS correction (C130_difference), and C130_false shows that this matters at every depth below the top for every downward stream if the beam is not vertical (disagreement 28).
- **C131 Corrected intensities of thick atmospheres are finite** — Model/Underflow.lean repeats the TMS correction with an arbitrary function for exp and IEEE division by decay_prod. A sum, product or quotient of IEEE values is finite iff its operands are (and the divisor nonzero), so finiteness reduces to nonzero decay_prod, i.e. to optical depths along streams. Strengthens C68, which is about the size of the divisors only. *partial*: `C131_finite_iff`, `C131_exact_partial`, `C131_false`. C131_finite_iff says exactly which intensities are finite: those of streams along which the optical depth from the top to the layer boundary concerned does not exceed the threshold. C131_exact_partial: in thin atmospheres the intensities are those of exact arithmetic. C131_false: for every threshold a well-posed problem with infinite or NaN intensities in both layers (disagreement 18).
- **C132 Inexact exponentials do not make the linear systems singular** — Model/Exponents.lean repeats _solve_for_coeffs and the evaluation of the modes with an arbitrary function in place of exp. Nonsingularity by an energy argument: scattering is symmetric, hence eigenvectors are orthogonal in the signed flux form, and the difference of the form between the bottom and the top of a layer is minus a dissipation for any damping factors. The conditions follow from the rows of the system. *proved*: `C132_solvable`, `C132_conditions`, `C132_exact`, `C132_u0_exact`. C132_solvable: nonsingular systems for damping factors between 0 and 1. C132_conditions: boundary and continuity conditions hold exactly for the modes evaluated with the same function. C132_exact, C132_u0_exact: with the exact exponential the models are those of Model/Coeffs.lean and Model/Assemble.lean.
- **C133 The quadrature rules converge for every continuous function** — The cosine sum that gives a Clenshaw-Curtis weight is bounded below by a telescoping sum, hence positive. A positive rule exact to degree k errs by at most twice the best approximation; Weierstrass gives convergence. Exactness is C49, C50. *proved*: `C133_positive_weights`, `C133_near_best`, `C133_clenshaw_curtis_converges`, `C133_gauss_converges`. Exact arithmetic.
- **C134 Layer boundaries passed as unsigned integers** — Model/Unsigned.lean repeats the part of pydisort.py that uses thickness_arr with np.diff of unsigned integers of w bits. Partial: without a decrease the wrapped difference is the difference. The checks: a wrapped difference is positive iff the boundaries differ. Otherwise: the preparations are those for the boundaries obtained by summing the wrapped thicknesses (Spec/Unsigned.lean), and the returned functions agree where the two arrays of boundaries do. Negation: a concrete well-posed problem. *partial*: `C134_increasing_partial`, `C134_order_is_not_checked`, `C134_wrapped`, `C134_false`. Proved for boundaries that do not decrease. False otherwise: the checks pass iff the boundaries are positive and neighbours differ, whatever their order (C134_order_is_not_checked). With delta-M scaling and sources constant within each layer the call has then solved the atmosphere whose thicknesses are taken modulo 2^w (C134_wrapped); C134_false exhibits the boundaries 2, 1, refused as floats and solved as 2, 2^w + 1 (disagreement 29).
- **C135 Depths passed as unsigned integers** — Model/UnsignedDepth.lean repeats the returned functions with -tau formed modulo 2^w (tau = scaled_tau without delta-M scaling). Partial: where -tau is not formed the functions are those of Model/IntDepth.lean, so that C128 applies; the wrapped direct flux is subtracted from the diffuse and added to the direct part. Negation: the exponential of a positive number exceeds 1. *partial*: `C135_partial`, `C135_direct`, `C135_false`. Proved (if the powers in _mathscr_v do not wrap around) for u0, flux_up and uncorrected u without a beam or with delta-M scaling, for flux_down without a beam, and for the sum of diffuse and direct flux with delta-M scaling. False otherwise: with any beam the direct flux at every depth below the top is I0 mu0 exp((2^w - tau)/mu0), more than at the top (C135_direct, C135_false; disagreement 30). The antiderivatives and the intensity corrections are not modelled for unsigned depths.
- **C136 Fourier modes of high order** — Model/Poch.lean repeats the solver with the entries of poch (line 96) as a parameter. Partial: the smallest quotient with L coefficients is at least 1/(2L-2)!, a normal number for L <= 86. Dark modes: with zero quotients D and X vanish, so the beam vector, the right-hand side and the coefficients are zero. Negation: the associated Legendre function of equal order and degree has no zero inside (-1,1), so the beam feeds mode 89 of a call with 90 coefficients, and a mode that is zero cannot solve its transfer equation. That the call returns: the eigenproblem of a dark mode is diagonal. Low modes and fluxes: two runs with equal quotients of one mode get the same eigenvectors, beam vector, boundary system and coefficients of that mode (PochAgree.lean); the quotients of mode zero are one. *partial*: `C136_exact`, `C136_few_modes_partial`, `C136_few_coefficients_partial`, `C136_high_modes_are_dark`, `C136_fed_modes_are_lit`, `C136_low_modes_are_exact`, `C136_fluxes_unaffected`, `C136_false`. Proved for at most 86 Legendre coefficients and for at most 172 modes and coefficients altogether: the call returns the same as with exact quotients. For any number L of coefficients the modes of order at most 171-L, the mean intensity and the fluxes are as with exact quotients (C136_low_modes_are_exact, C136_fluxes_unaffected). False otherwise: from order 89 on every mode without reflection is computed as zero (C136_high_modes_are_dark), although a mode fed by the beam is not zero (C136_fed_modes_are_lit); C136_false gives a well-posed call with 90 modes (disagreement 31). That lpmv does not overflow is assumed here; see C137.
- **C137 Legendre functions that overflow** — Model/Overflow.lean: the solver with values of lpmv that may be infinite or NaN; sums and products with such a value are never finite again, whatever cancels or is multiplied by zero, so the diagonal of alpha, and with it a row of the matrix given to eig, is not finite. Without overflow the model is that of C136 (C137_without_overflow). *proved*: `C137_without_overflow`, `C137_overflow_raises`, `C137_many_modes_raise`. Rests on the check for finite numbers in np.linalg.eig. Modes without significant scattering do not use the functions. What happens when only the value at the direction of the beam overflows is left open in the model.
- **C138 Nothing depends on NumPy and LAPACK beyond their contracts** — EigSame.lean: the solution is unique (solution_unique), so the sums over eigenvectors agree as functions of depth; projecting on eigenspaces carries this over to sums weighted with any function of the eigenvalues, in particular 1/K of the antiderivatives. SameEval.lean carries it through the evaluation functions, EigSame.lean through the Fourier error. GaussUnique.lean: the nodal polynomial of one rule vanishes at the nodes of the other. *proved*: `C138_any_eigenvectors`, `C138_gauss_rule_unique`, `C138_any_libraries`. Real arithmetic. Tidy also says that beyond the end of its arrays, where NumPy has nothing, leggauss of the model is zero.
- **C139 Asking for fewer Fourier modes cuts the series off** — Props/FewerModes.lean: call_transfer (SameEval.lean, also used for C12) carries the solution over to fewer modes, where eigenvectors, coefficients and particular solutions of the modes kept are the same; then the evaluation of the series. *proved*: `C139_fewer_modes`, `C139_any_cut`. C139_any_cut covers the antiderivatives and all exceptions of u, from two modes on: with one mode the code adds an internal source by another statement and does not raise where it otherwise does (C37_single_depth_raises).
- **C140 The streams are symmetric about 60 degrees** — Props/Midpoint.lean: the reflected rule meets the contract as well, and there is only one rule with increasing nodes (GaussUnique.lean); the middle node of an odd number is its own mirror image; then the check of lines 308-310. *proved*: `C140_rule_symmetric`, `C140_streams_symmetric`, `C140_middle_stream`, `C140_sixty_degrees_refused`. Exact real arithmetic.
- **C141 How finely the light depends on azimuth** — Props/Smooth.lean: zero solves the boundary value problem of the modes from M on (Spec/Smooth.lean); uniqueness (C66); then C139 for calls with fewer modes. *proved*: `C141_modes_vanish`, `C141_no_azimuth`, `C141_enough_modes`. C141_no_azimuth without active NT corrections, which depend on azimuth; C141_enough_modes also with them.
- **C142 Layers that do not scatter only attenuate** — Props/Clear.lean: the right-hand side of C02 reduces to the intensity itself; the intensity divided by its attenuation has derivative zero in the layer and is continuous up to its boundaries (C05). *proved*: `C142_clear_layers_attenuate`, `C142_clear_layers_emit`. Intensities without active NT corrections.
- **C143 Balance of radiation pressure** — Props/Pressure.lean: multiply the equation of C01 by the stream's cosine and weight and sum; exactness of the rule up to degree NQuad - 1 leaves only the first Legendre moment of the kernel and of the beam source, and nothing of the emission. *proved*: `C143_pressure_balance`, `C143_unscaled_factor`. For NLeg < NQuad: with NLeg = NQuad the double Gauss rule does not integrate mu * P_(NQuad-1) exactly.

## Axioms

* `Classical.choice, Quot.sound, propext` (395 theorems): `C01_u0_solves_transfer_equation`, `mu_arr_returned`, `C02_modes_solve_transfer_equation`, `C02_modes_unique`, `C02_returned_u`, `C03_top_boundary_condition`, `C03_top_intensity`, `C04_bottom_boundary_condition`, `C05_continuous_across_layers`, `C06_beam_particular_solution`, `C06_no_scattering`, `C06_independent_of_isotropic_source`, `C07_polynomial_sources_solved_partial`, `C07_branches_agree`, `C07_particular_solution_in_call_partial`, `C07_false_for_22_coefficients`, `C07_false_in_call`, `C08_eigenvectors_diagonalise`, `C08_positive_eigenvalues`, `C09_flux_up`, `C09_flux_down`, `C10_direct_flux`, `C10_reclassification_conserves`, `C10_top_diffuse`, `C100_ignoring_weak_scattering`, `C100_from_the_results`, `C100_isothermal`, `C100_not_exact`, `C101_absorption_screens`, `C102_what_lies_below_is_screened`, `C102_what_lies_above_is_screened`, `C103_call_by_value`, `C103_writes`, `C103_written_although_raised`, `C103_results_keep_partial`, `C103_tau_false`, `C103_shift`, `C103_f_false`, `C103_mu_false`, `C104_reciprocity`, `C104_kirchhoff`, `C104_emissivity`, `C105_two_stream`, `C105_reflection_transmission`, `C106_similar_optics`, `C106_albedo`, `C107_thickness`, `C107_scaled_optics`, `C107_exponents`, `C107_exponent_positive`, `C107_nodes`, `C107_rescaled`, `opticsR_id`, `scaledTauR_id`, `C108_discretisation_error`, `C108_exact_on_polynomials`, `C109_converges`, `C11_scattering_conserves`, `C11_energy_balance`, `C11_absorbed_fraction`, `C110_exact_solution_exists`, `C111_streams_agree`, `C112_sky_exists`, `C113_sky_converges`, `C114_skies_agree`, `C115_full_phase_function`, `C115_usual_peak`, `C116_full_solution_exists`, `C117_whole_solution_exists`, `C118_kept_transfer_equation`, `C118_dropped_modes`, `C119_whole_phase_function`, `C119_usual_peak`, `C12_only_flux`, `C12_any_number_of_modes`, `C120_weak_anisotropy_is_invisible`, `C120_error_that_stays`, `C120_no_convergence`, `C121_corrections_are_bounded`, `C121_too_fine_calls_are_refused`, `C121_corrected_intensities`, `C122_azimuthal_mean`, `C122_fluxes`, `C123_exact_nonneg`, `C123_exact_monotone`, `C123_below_blackbody`, `C123_above_blackbody`, `C123_isothermal`, `C123_fluxes_nearly_nonneg`, `C123_intensities_nearly_nonneg`, `C124_finite`, `C124_values_partial`, `C124_false`, `C125_finite`, `C125_rescale`, `C125_sources`, `C125_depths`, `C125_azimuths`, `C126_deep_solution`, `C126_deep_error`, `C126_deep_limit`, `C127_one_solution`, `C127_bottom_at_infinity`, `C127_scaled`, `C127_at_infinity`, `C127_limit`, `C127_finite`, `C128_partial`, `C128_false`, `C129_residual_bound`, `C129_inexact_linear_algebra`, `C129_two_runs`, `C129_exact_has_no_residuals`, `C13_solver_choice`, `C13_same_matrix`, `C130_uncorrected_partial`, `C130_upward_partial`, `C130_difference`, `C130_false`, `C130_false_witness`, `C131_finite_iff`, `C131_exact_partial`, `C131_false`, `C132_solvable`, `C132_conditions`, `C132_exact`, `C132_u0_exact`, `C133_positive_weights`, `C133_near_best`, `C133_clenshaw_curtis_converges`, `C133_gauss_converges`, `C134_increasing_partial`, `C134_order_is_not_checked`, `C134_wrapped`, `C134_false`, `C135_partial`, `C135_direct`, `C135_false`, `C136_exact`, `C136_few_modes_partial`, `C136_few_coefficients_partial`, `C136_high_modes_are_dark`, `C136_fed_modes_are_lit`, `C136_low_modes_are_exact`, `C136_fluxes_unaffected`, `C136_false`, `C137_without_overflow`, `C137_overflow_raises`, `C137_many_modes_raise`, `C138_any_eigenvectors`, `C138_gauss_rule_unique`, `C138_any_libraries`, `C139_fewer_modes`, `C139_any_cut`, `C14_views_in_bounds`, `C14_no_alias`, `C14_nothing_written_outside`, `C140_rule_symmetric`, `C140_streams_symmetric`, `C140_middle_stream`, `C140_sixty_degrees_refused`, `C141_modes_vanish`, `C141_no_azimuth`, `C141_enough_modes`, `C142_clear_layers_attenuate`, `C142_clear_layers_emit`, `C143_pressure_balance`, `C143_unscaled_factor`, `C15_history_irrelevant`, `C15_uninitialised_memory`, `C16_evaluation_exponents`, `C16_boundary_system_exponents`, `C41_no_positive_exponents`, `C17_homogeneous`, `C18_superposition`, `C19_azimuthal_symmetry`, `C19_azimuthal_mean`, `C20_splitting_a_layer`, `C21_layer_lookup`, `C21_out_of_range`, `C21_in_range`, `C22_pointwise`, `C22_pointwise_u`, `C23_scaled_optics_physical`, `C24_depth_map`, `C25_source_transport`, `C26_no_scaling_shortcut`, `C27_validation`, `C27_rejects`, `C27_no_layers`, `C28_false_peak_one_accepted`, `C28_false`, `C28_out_of_range_rejected_partial`, `C29_false`, `C29_legendre_unchanged_partial`, `C30_false`, `C30_rescale_factor_partial`, `C31_two_dimensional_never_returns`, `C31_false`, `C31_single_entry_partial`, `C32_scalar_or_vector`, `C33_scalar_or_function`, `C34_flux_up_antiderivative_partial`, `C34_source_in_layers_raises`, `C34_single_depth_wrong_shape`, `C34_wrong_value`, `C34_false`, `C35_flux_down_antiderivative_partial`, `C35_beam_in_layers_raises`, `C35_false`, `C35_wrong_value`, `C36_u0_antiderivative_partial`, `C36_flag_ignored`, `C36_source_in_layers_raises`, `C36_single_depth_wrong_shape`, `C36_false`, `C37_u_antiderivative_partial`, `C37_corrected_partial`, `C37_source_in_layers_raises`, `C37_single_depth_raises`, `C37_false`, `C38_fourier_error_partial`, `C38_beam_in_layers_raises`, `C38_false`, `C38_wrong_value`, `C39_actinic_up`, `C39_actinic_down_returned`, `C39_actinic_down_partial`, `C39_false`, `C40_tms_partial`, `C40_false`, `C41_layer_sums`, `C41_masked_term`, `C42_inactive`, `C42_fluxes_unaltered`, `C43_chi`, `C43_chi_antiderivative`, `C43_ims`, `C44_homogeneous_partial`, `C44_false`, `C45_returns_partial`, `C45_two_streams_raise`, `C45_false`, `C46_direct_flux_size_partial`, `C46_false_without_beam`, `C47_prepend`, `C47_wrong_length`, `C48_affine`, `C48_bijection`, `C48_inverse`, `C49_exact`, `C49_gauss`, `C49_zero`, `C50_refused`, `C50_exact`, `C50_nodes`, `C51_dot`, `C51_unit`, `C51_range`, `C51_symmetric`, `C51_same`, `C51_opposite`, `C51_periodic`, `C51_shape`, `C52_too_few`, `C52_quadratic`, `C52_second_order`, `C53_scalar`, `C53_vector`, `C53_higher`, `C53_rank`, `C53_arguments`, `C54_law`, `C54_increasing`, `C54_exponent`, `C55_line`, `C55_refused`, `C56_source`, `C56_refused`, `C57_kirchhoff`, `C57_constant`, `C57_constant_number`, `C58_cache_partial`, `C58_false_number`, `C58_false_two_streams`, `C59_affine`, `C60_all_zero_partial`, `C60_false`, `C61_interpolate_u`, `C61_interpolate_u0`, `C61_nodes`, `C61_polynomial`, `C61_unique`, `C61_refused`, `C61_pydisort_u0`, `C61_pydisort_u`, `C61_pydisort_u0_options`, `C61_pydisort_u_options`, `C62_values_partial`, `C62_returned`, `C62_false`, `C63_entries`, `C63_reconstruct`, `C63_too_wide`, `C64_absorbing_closed_form`, `C64_beam_stays_direct`, `C64_over_surface`, `C65_well_posed_call_returns`, `C65_u0_can_be_evaluated`, `C65_scattering_dissipates`, `C65_nonneg_phase_dissipates`, `C65_fair_surface_is_passive`, `C65_physical_problems_are_well_posed`, `C66_solution_unique`, `C66_code_returns_the_solution`, `C67_antiderivative_partial`, `C67_false`, `C68_divisors_partial`, `C68_false`, `C69_blackbody`, `C69_increasing`, `C69_additive`, `C70_isothermal`, `C70_enclosure`, `C71_nonneg`, `C71_monotone`, `C72_upper_bound`, `C73_reciprocity`, `C74_net_flux_monotone`, `C74_no_more_up_than_down`, `C75_full_transfer_equation`, `C75_full_boundary_conditions`, `C76_intensity_nonneg`, `C77_delta_M_is_scaling_by_hand`, `C78_rotation`, `C79_upside_down`, `C80_same_physics_same_results`, `C81_cutting_at_an_interface`, `C82_intensity_monotone`, `C83_stability`, `C84_autograd`, `C84_outcome`, `C85_shapes`, `C85_squeeze`, `C85_single`, `C86_fourier_error_of_antiderivative_partial`, `C86_modes_unique`, `C86_beam_in_layers_raises`, `C86_false`, `C87_warnings`, `C87_modified_iff_warned`, `C88_less_absorption_more_light`, `C89_less_absorption_more_light`, `C90_what_lies_below_adds_light`, `C90_what_lies_above_adds_light`, `C90_what_lies_below_adds_light_everywhere`, `C90_what_lies_above_adds_light_everywhere`, `C91_resonances_are_few`, `C91_other_directions`, `C91_resonance_raises_partial`, `C91_returns_iff`, `C91_division_by_zero`, `C92_solver_quotients`, `C92_correction_quotients_partial`, `C92_peaks_false`, `C92_secondary_false`, `C93_compare`, `C93_ratio_partial`, `C93_ratio_intensity_partial`, `C93_zero_reference`, `C93_negative_reference`, `C93_false`, `C93_refuses`, `C94_interpolate`, `C94_interpolate_refuses`, `C94_interpolate_u`, `C94_interpolate_u0`, `C94_actinic_up`, `C94_actinic_down`, `C94_planck`, `C95_up_partial`, `C95_down_partial`, `C95_false`, `C96_what_lies_below_returns_light`, `C96_what_lies_above_sends_light_down`, `C96_thicker_transmits_less`, `C97_vectorised_particular_solution`, `C97_in_call`, `C97_solution_unique`, `C97_array_program_is_the_model`, `C98_every_depth_on_its_own`, `C98_array_programs_are_the_model`, `C99_intensity_program`, `C99_program_is_the_model`, `C99_outside`

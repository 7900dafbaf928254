{
 "claims": [
  {
   "property": "C01",
   "status": "proved",
   "theorems": [
    "Pydisort.C01_u0_solves_transfer_equation",
    "Pydisort.mu_arr_returned"
   ],
   "note": ""
  },
  {
   "property": "C02",
   "status": "proved",
   "theorems": [
    "Pydisort.C02_modes_solve_transfer_equation",
    "Pydisort.C02_modes_unique",
    "Pydisort.C02_returned_u"
   ],
   "note": ""
  },
  {
   "property": "C03",
   "status": "proved",
   "theorems": [
    "Pydisort.C03_top_boundary_condition",
    "Pydisort.C03_top_intensity"
   ],
   "note": ""
  },
  {
   "property": "C04",
   "status": "proved",
   "theorems": [
    "Pydisort.C04_bottom_boundary_condition"
   ],
   "note": ""
  },
  {
   "property": "C05",
   "status": "proved",
   "theorems": [
    "Pydisort.C05_continuous_across_layers"
   ],
   "note": ""
  },
  {
   "property": "C06",
   "status": "proved",
   "theorems": [
    "Pydisort.C06_beam_particular_solution",
    "Pydisort.C06_no_scattering",
    "Pydisort.C06_independent_of_isotropic_source"
   ],
   "note": ""
  },
  {
   "property": "C07",
   "status": "partial",
   "theorems": [
    "Pydisort.C07_polynomial_sources_solved_partial",
    "Pydisort.C07_branches_agree",
    "Pydisort.C07_particular_solution_in_call_partial",
    "Pydisort.C07_false_for_22_coefficients",
    "Pydisort.C07_false_in_call"
   ],
   "note": "Proved for up to 21 coefficients. False beyond: the factorials are a cumulative product of 64-bit integers and 21! overflows, so with 22 coefficients the particular solution and the returned intensity violate the equation (both negations proved). The branch equality holds up to 66 coefficients, where the code begins to divide by zero."
  },
  {
   "property": "C08",
   "status": "proved",
   "theorems": [
    "Pydisort.C08_eigenvectors_diagonalise",
    "Pydisort.C08_positive_eigenvalues"
   ],
   "note": ""
  },
  {
   "property": "C09",
   "status": "proved",
   "theorems": [
    "Pydisort.C09_flux_up",
    "Pydisort.C09_flux_down"
   ],
   "note": "Upward flux and the sum of the two downward fluxes are the hemispheric quadratures of the zeroth moment plus the direct beam, for all accepted inputs meeting Sound."
  },
  {
   "property": "C10",
   "status": "proved",
   "theorems": [
    "Pydisort.C10_direct_flux",
    "Pydisort.C10_reclassification_conserves",
    "Pydisort.C10_top_diffuse",
    "Pydisort.C09_flux_down"
   ],
   "note": "Direct flux follows Beer's law in the user's optical depth; reclassification moves flux between the two outputs without changing their sum."
  },
  {
   "property": "C100",
   "status": "proved",
   "theorems": [
    "Pydisort.C100_ignoring_weak_scattering",
    "Pydisort.C100_from_the_results",
    "Pydisort.C100_isothermal",
    "Pydisort.C100_not_exact"
   ],
   "note": "Azimuthal mean only; for the higher modes the specification of C02 ignores what the code ignores. C100_from_the_results bounds the error by what the code returns."
  },
  {
   "property": "C101",
   "status": "proved",
   "theorems": [
    "Pydisort.C101_absorption_screens"
   ],
   "note": "Thermal sources only: the beam is the same in both calls. Exact arithmetic."
  },
  {
   "property": "C102",
   "status": "proved",
   "theorems": [
    "Pydisort.C102_what_lies_below_is_screened",
    "Pydisort.C102_what_lies_above_is_screened"
   ],
   "note": "Azimuthal average and fluxes. For the lower part the surface must return at most what it receives."
  },
  {
   "property": "C103",
   "status": "partial",
   "theorems": [
    "Pydisort.C103_call_by_value",
    "Pydisort.C103_writes",
    "Pydisort.C103_written_although_raised",
    "Pydisort.C103_results_keep_partial",
    "Pydisort.C103_tau_false",
    "Pydisort.C103_shift",
    "Pydisort.C103_f_false",
    "Pydisort.C103_mu_false"
   ],
   "note": "True of everything except tau_arr and, with intensity corrections, f_arr and the returned mu_arr: the returned functions keep references to these. Writing to them later changes results, which the theorems _false and _shift prove."
  },
  {
   "property": "C104",
   "status": "proved",
   "theorems": [
    "Pydisort.C104_reciprocity",
    "Pydisort.C104_kirchhoff",
    "Pydisort.C104_emissivity"
   ],
   "note": "For calls without beam; the two theorems about emission need NoNeglect, because the code ignores weak scattering but not the matching emission (see C100)."
  },
  {
   "property": "C105",
   "status": "proved",
   "theorems": [
    "Pydisort.C105_two_stream",
    "Pydisort.C105_reflection_transmission"
   ],
   "note": "For well-posed calls (WellPosed, Rescalable) without a layer in the gap of the scattering shortcut (NoNeglect)."
  },
  {
   "property": "C106",
   "status": "proved",
   "theorems": [
    "Pydisort.C106_similar_optics",
    "Pydisort.C106_albedo"
   ],
   "note": "For phase functions that are non-negative between the streams, a surface that reflects at most everything, and no layer in the gap of the scattering shortcut (NoNeglect)."
  },
  {
   "property": "C107",
   "status": "proved",
   "theorems": [
    "Pydisort.C107_thickness",
    "Pydisort.C107_scaled_optics",
    "Pydisort.C107_exponents",
    "Pydisort.C107_exponent_positive",
    "Pydisort.C107_nodes",
    "Pydisort.C107_rescaled",
    "Pydisort.opticsR_id",
    "Pydisort.scaledTauR_id"
   ],
   "note": "About a second model of these lines in which every operation is rounded (Model/Rounded.lean); opticsR_id and scaledTauR_id show that without rounding it is the exact model. Overflow is left out. For the Legendre coefficients the caller gives exactly one as the zeroth. Exponents: not covered are peak fractions so small that every rounded scale factor is one."
  },
  {
   "property": "C108",
   "status": "proved",
   "theorems": [
    "Pydisort.C108_discretisation_error",
    "Pydisort.C108_exact_on_polynomials"
   ],
   "note": "The continuous problem is Spec.ExactSolution (Spec/Continuum.lean), for the azimuthal average, after delta-M scaling and with the Legendre coefficients the code keeps. The defects Spec.ScatterDefect and Spec.ReflectDefect are hypotheses; C109 shows that they tend to zero."
  },
  {
   "property": "C109",
   "status": "proved",
   "theorems": [
    "Pydisort.C109_converges"
   ],
   "note": "The field is only asked to be bounded and continuous away from horizontal directions, where exact solutions have no limit at the boundaries. That an exact solution exists is a hypothesis here, discharged by C110."
  },
  {
   "property": "C11",
   "status": "proved",
   "theorems": [
    "Pydisort.C11_scattering_conserves",
    "Pydisort.C11_energy_balance",
    "Pydisort.C11_absorbed_fraction"
   ],
   "note": "Discrete energy balance in derivative form for every layer."
  },
  {
   "property": "C110",
   "status": "proved",
   "theorems": [
    "Pydisort.C110_exact_solution_exists"
   ],
   "note": "The specification is Spec.ExactSolution, as in C108 and C109. Nothing is said about the direction mu = 0, in which the equation is not differential."
  },
  {
   "property": "C111",
   "status": "proved",
   "theorems": [
    "Pydisort.C111_streams_agree"
   ],
   "note": "No exact solution is mentioned in the statement; it follows from C109 and C110. The two calls may also differ in their quadrature and eigenvalue oracles and in the contents of uninitialised memory."
  },
  {
   "property": "C112",
   "status": "proved",
   "theorems": [
    "Pydisort.C112_sky_exists"
   ],
   "note": "The specification is Spec.SkySolution (Spec/Sky.lean), in which neither streams nor Fourier modes enter. Boundary values do not depend on the azimuth, see C31."
  },
  {
   "property": "C113",
   "status": "proved",
   "theorems": [
    "Pydisort.C113_sky_converges"
   ],
   "note": "Corrected intensities (NT_cor) are not covered. The number of Legendre coefficients is fixed while the number of streams grows; the calls are described by Spec.AsksForSky."
  },
  {
   "property": "C114",
   "status": "proved",
   "theorems": [
    "Pydisort.C114_skies_agree"
   ],
   "note": "Follows from C112, C113 and the uniform continuity of the exact solution away from horizontal directions."
  },
  {
   "property": "C115",
   "status": "proved",
   "theorems": [
    "Pydisort.C115_full_phase_function",
    "Pydisort.C115_usual_peak"
   ],
   "note": "The specification is Spec.FullSolution (Spec/Full.lean). Layers that scatter at all are required to have an albedo above 2e-8, because the code neglects scattering below 1e-8 (C100). The witnesses are calls with the Henyey-Greenstein phase function for every NLeg."
  },
  {
   "property": "C116",
   "status": "proved",
   "theorems": [
    "Pydisort.C116_full_solution_exists"
   ],
   "note": "Neither NLeg nor f nor the number of streams enters the specification."
  },
  {
   "property": "C117",
   "status": "proved",
   "theorems": [
    "Pydisort.C117_whole_solution_exists"
   ],
   "note": "The specification is Spec.WholeSolution (Spec/FullSky.lean). Neither NLeg nor NFourier nor f nor the number of streams enters it. The witness is a Henyey-Greenstein atmosphere above a surface whose BDRF depends on the azimuth."
  },
  {
   "property": "C118",
   "status": "proved",
   "theorems": [
    "Pydisort.C118_kept_transfer_equation",
    "Pydisort.C118_dropped_modes"
   ],
   "note": "The specification is Spec.keptPhase and Spec.keptRHS (Spec/Kept.lean). Unlike C75 it needs neither NFourier = NLeg nor that nothing is neglected. The witness neglects a mode."
  },
  {
   "property": "C119",
   "status": "proved",
   "theorems": [
    "Pydisort.C119_whole_phase_function",
    "Pydisort.C119_usual_peak"
   ],
   "note": "The specification is Spec.WholeSolution (Spec/FullSky.lean) with Spec.AsksForWhole, Spec.AbsorbsAtLeast and Spec.NeglectsAtMost (Spec/WholeLimit.lean). Existence and uniqueness of the limit are C117. The term with nu does not go away with more modes, because the threshold 1e-8 is fixed in the code."
  },
  {
   "property": "C12",
   "status": "proved",
   "theorems": [
    "Pydisort.C12_only_flux",
    "Pydisort.C12_any_number_of_modes"
   ],
   "note": ""
  },
  {
   "property": "C120",
   "status": "proved",
   "theorems": [
    "Pydisort.C120_weak_anisotropy_is_invisible",
    "Pydisort.C120_error_that_stays",
    "Pydisort.C120_no_convergence"
   ],
   "note": "A limitation of the code rather than a defect: the error is small, but it is not a discretisation error. The exact solution is Spec.WholeSolution, the calls are those of C119 (Spec.AsksForWhole)."
  },
  {
   "property": "C121",
   "status": "proved",
   "theorems": [
    "Pydisort.C121_corrections_are_bounded",
    "Pydisort.C121_too_fine_calls_are_refused",
    "Pydisort.C121_corrected_intensities"
   ],
   "note": "The specification is Spec.cutOff and Spec.AsksForCorrected (Spec/CutOff.lean). The bound holds in spite of C40 (the wrong source strength in heterogeneous atmospheres). C121_corrected_intensities speaks about calls that go through; the witness has such calls with up to 1998 streams for one atmosphere."
  },
  {
   "property": "C122",
   "status": "proved",
   "theorems": [
    "Pydisort.C122_azimuthal_mean",
    "Pydisort.C122_fluxes"
   ],
   "note": "upEnergy and downEnergy (Spec/AzMean.lean) are the double integrals. Visible scattering: albedo zero or above 2e-8, see C115."
  },
  {
   "property": "C123",
   "status": "proved",
   "theorems": [
    "Pydisort.C123_exact_nonneg",
    "Pydisort.C123_exact_monotone",
    "Pydisort.C123_below_blackbody",
    "Pydisort.C123_above_blackbody",
    "Pydisort.C123_isothermal",
    "Pydisort.C123_fluxes_nearly_nonneg",
    "Pydisort.C123_intensities_nearly_nonneg"
   ],
   "note": "Unlike C71 and C76, which say that nothing at all is negative, these need no assumption on the truncated phase function."
  },
  {
   "property": "C124",
   "status": "partial",
   "theorems": [
    "Pydisort.C124_finite",
    "Pydisort.C124_values_partial",
    "Pydisort.C124_false"
   ],
   "note": "False: I0, b_pos, b_neg, s_poly_coeffs, the last entry of tau_arr, and mu0 and phi0 without a beam may be NaN or infinite (the latter for the last optical depth); proved for every accepted call. All other values are finite numbers in their ranges. About a model with IEEE values (Model/NonFinite.lean), which agrees with the exact one on finite arguments (C124_finite). BDRF_Fourier_modes are not looked at by any check."
  },
  {
   "property": "C125",
   "status": "proved",
   "theorems": [
    "Pydisort.C125_finite",
    "Pydisort.C125_rescale",
    "Pydisort.C125_sources",
    "Pydisort.C125_depths",
    "Pydisort.C125_azimuths"
   ],
   "note": "u with or without corrections, u0, flux_up and flux_down, not their antiderivatives; the corrections themselves are arbitrary here. Arithmetic on finite numbers is exact in this model: overflow is left out. Nothing is said about NaN in s_poly_coeffs or negative infinity in a boundary condition."
  },
  {
   "property": "C126",
   "status": "proved",
   "theorems": [
    "Pydisort.C126_deep_solution",
    "Pydisort.C126_deep_error",
    "Pydisort.C126_deep_limit"
   ],
   "note": "Azimuthal average and fluxes."
  },
  {
   "property": "C127",
   "status": "proved",
   "theorems": [
    "Pydisort.C127_one_solution",
    "Pydisort.C127_bottom_at_infinity",
    "Pydisort.C127_scaled",
    "Pydisort.C127_at_infinity",
    "Pydisort.C127_limit",
    "Pydisort.C127_finite"
   ],
   "note": "Model/Endless.lean: the numbers that depend on the last boundary are IEEE values with exact arithmetic on finite ones. The NaN in the lowest layer is disagreement 26 in DESIGN.md."
  },
  {
   "property": "C128",
   "status": "partial",
   "theorems": [
    "Pydisort.C128_partial",
    "Pydisort.C128_false"
   ],
   "note": "Proved without internal source, with delta-M scaling, or if the powers of the depths formed by _mathscr_v fit into 64 bits. False otherwise: for every unscaled call with three source coefficients, C128_false shows that the depth 2^32 gives different intensities as an integer and as a float (disagreement 27)."
  },
  {
   "property": "C129",
   "status": "proved",
   "theorems": [
    "Pydisort.C129_residual_bound",
    "Pydisort.C129_inexact_linear_algebra",
    "Pydisort.C129_two_runs",
    "Pydisort.C129_exact_has_no_residuals"
   ],
   "note": "C129_inexact_linear_algebra allows any stored arrays and any eig; only leggauss is required to be exact. The evaluation of the stored arrays (exp and sums) is in exact arithmetic."
  },
  {
   "property": "C13",
   "status": "proved",
   "theorems": [
    "Pydisort.C13_solver_choice",
    "Pydisort.C13_same_matrix"
   ],
   "note": ""
  },
  {
   "property": "C130",
   "status": "partial",
   "theorems": [
    "Pydisort.C130_uncorrected_partial",
    "Pydisort.C130_upward_partial",
    "Pydisort.C130_difference",
    "Pydisort.C130_false",
    "Pydisort.C130_false_witness"
   ],
   "note": "Proved if the intensity corrections are not active, and always for upward streams. False otherwise: with active corrections and fractions below 1, downward intensities lack the whole IMS correction (C130_difference), and C130_false shows that this matters at every depth below the top for every downward stream if the beam is not vertical (disagreement 28)."
  },
  {
   "property": "C131",
   "status": "partial",
   "theorems": [
    "Pydisort.C131_finite_iff",
    "Pydisort.C131_exact_partial",
    "Pydisort.C131_false"
   ],
   "note": "C131_finite_iff says exactly which intensities are finite: those of streams along which the optical depth from the top to the layer boundary concerned does not exceed the threshold. C131_exact_partial: in thin atmospheres the intensities are those of exact arithmetic. C131_false: for every threshold a well-posed problem with infinite or NaN intensities in both layers (disagreement 18)."
  },
  {
   "property": "C132",
   "status": "proved",
   "theorems": [
    "Pydisort.C132_solvable",
    "Pydisort.C132_conditions",
    "Pydisort.C132_exact",
    "Pydisort.C132_u0_exact"
   ],
   "note": "C132_solvable: nonsingular systems for damping factors between 0 and 1. C132_conditions: boundary and continuity conditions hold exactly for the modes evaluated with the same function. C132_exact, C132_u0_exact: with the exact exponential the models are those of Model/Coeffs.lean and Model/Assemble.lean."
  },
  {
   "property": "C133",
   "status": "proved",
   "theorems": [
    "Pydisort.C133_positive_weights",
    "Pydisort.C133_near_best",
    "Pydisort.C133_clenshaw_curtis_converges",
    "Pydisort.C133_gauss_converges"
   ],
   "note": "Exact arithmetic."
  },
  {
   "property": "C134",
   "status": "partial",
   "theorems": [
    "Pydisort.C134_increasing_partial",
    "Pydisort.C134_order_is_not_checked",
    "Pydisort.C134_wrapped",
    "Pydisort.C134_false"
   ],
   "note": "Proved for boundaries that do not decrease. False otherwise: the checks pass iff the boundaries are positive and neighbours differ, whatever their order (C134_order_is_not_checked). With delta-M scaling and sources constant within each layer the call has then solved the atmosphere whose thicknesses are taken modulo 2^w (C134_wrapped); C134_false exhibits the boundaries 2, 1, refused as floats and solved as 2, 2^w + 1 (disagreement 29)."
  },
  {
   "property": "C135",
   "status": "partial",
   "theorems": [
    "Pydisort.C135_partial",
    "Pydisort.C135_direct",
    "Pydisort.C135_false"
   ],
   "note": "Proved (if the powers in _mathscr_v do not wrap around) for u0, flux_up and uncorrected u without a beam or with delta-M scaling, for flux_down without a beam, and for the sum of diffuse and direct flux with delta-M scaling. False otherwise: with any beam the direct flux at every depth below the top is I0 mu0 exp((2^w - tau)/mu0), more than at the top (C135_direct, C135_false; disagreement 30). The antiderivatives and the intensity corrections are not modelled for unsigned depths."
  },
  {
   "property": "C136",
   "status": "partial",
   "theorems": [
    "Pydisort.C136_exact",
    "Pydisort.C136_few_modes_partial",
    "Pydisort.C136_few_coefficients_partial",
    "Pydisort.C136_high_modes_are_dark",
    "Pydisort.C136_fed_modes_are_lit",
    "Pydisort.C136_low_modes_are_exact",
    "Pydisort.C136_fluxes_unaffected",
    "Pydisort.C136_false"
   ],
   "note": "Proved for at most 86 Legendre coefficients and for at most 172 modes and coefficients altogether: the call returns the same as with exact quotients. For any number L of coefficients the modes of order at most 171-L, the mean intensity and the fluxes are as with exact quotients (C136_low_modes_are_exact, C136_fluxes_unaffected). False otherwise: from order 89 on every mode without reflection is computed as zero (C136_high_modes_are_dark), although a mode fed by the beam is not zero (C136_fed_modes_are_lit); C136_false gives a well-posed call with 90 modes (disagreement 31). That lpmv does not overflow is assumed here; see C137."
  },
  {
   "property": "C137",
   "status": "proved",
   "theorems": [
    "Pydisort.C137_without_overflow",
    "Pydisort.C137_overflow_raises",
    "Pydisort.C137_many_modes_raise"
   ],
   "note": "Rests on the check for finite numbers in np.linalg.eig. Modes without significant scattering do not use the functions. What happens when only the value at the direction of the beam overflows is left open in the model."
  },
  {
   "property": "C138",
   "status": "proved",
   "theorems": [
    "Pydisort.C138_any_eigenvectors",
    "Pydisort.C138_gauss_rule_unique",
    "Pydisort.C138_any_libraries"
   ],
   "note": "Real arithmetic. Tidy also says that beyond the end of its arrays, where NumPy has nothing, leggauss of the model is zero."
  },
  {
   "property": "C139",
   "status": "proved",
   "theorems": [
    "Pydisort.C139_fewer_modes",
    "Pydisort.C139_any_cut"
   ],
   "note": "C139_any_cut covers the antiderivatives and all exceptions of u, from two modes on: with one mode the code adds an internal source by another statement and does not raise where it otherwise does (C37_single_depth_raises)."
  },
  {
   "property": "C14",
   "status": "proved",
   "theorems": [
    "Pydisort.C14_views_in_bounds",
    "Pydisort.C14_no_alias",
    "Pydisort.C14_nothing_written_outside"
   ],
   "note": ""
  },
  {
   "property": "C140",
   "status": "proved",
   "theorems": [
    "Pydisort.C140_rule_symmetric",
    "Pydisort.C140_streams_symmetric",
    "Pydisort.C140_middle_stream",
    "Pydisort.C140_sixty_degrees_refused"
   ],
   "note": "Exact real arithmetic."
  },
  {
   "property": "C141",
   "status": "proved",
   "theorems": [
    "Pydisort.C141_modes_vanish",
    "Pydisort.C141_no_azimuth",
    "Pydisort.C141_enough_modes"
   ],
   "note": "C141_no_azimuth without active NT corrections, which depend on azimuth; C141_enough_modes also with them."
  },
  {
   "property": "C142",
   "status": "proved",
   "theorems": [
    "Pydisort.C142_clear_layers_attenuate",
    "Pydisort.C142_clear_layers_emit"
   ],
   "note": "Intensities without active NT corrections."
  },
  {
   "property": "C143",
   "status": "proved",
   "theorems": [
    "Pydisort.C143_pressure_balance",
    "Pydisort.C143_unscaled_factor"
   ],
   "note": "For NLeg < NQuad: with NLeg = NQuad the double Gauss rule does not integrate mu * P_(NQuad-1) exactly."
  },
  {
   "property": "C15",
   "status": "proved",
   "theorems": [
    "Pydisort.C15_history_irrelevant",
    "Pydisort.C15_uninitialised_memory"
   ],
   "note": ""
  },
  {
   "property": "C16",
   "status": "proved",
   "theorems": [
    "Pydisort.C16_evaluation_exponents",
    "Pydisort.C16_boundary_system_exponents",
    "Pydisort.C41_no_positive_exponents"
   ],
   "note": "C41_no_positive_exponents covers the exponents of the TMS correction."
  },
  {
   "property": "C17",
   "status": "proved",
   "theorems": [
    "Pydisort.C17_homogeneous"
   ],
   "note": "For every call whose sources contain something positive at the places the rescale factor looks at (Lit), returning or raising alike; antiderivatives included."
  },
  {
   "property": "C18",
   "status": "proved",
   "theorems": [
    "Pydisort.C18_superposition"
   ],
   "note": "u0, both fluxes, the direct flux and u (NT corrections included) are additive in the sources for well-posed problems."
  },
  {
   "property": "C19",
   "status": "proved",
   "theorems": [
    "Pydisort.C19_azimuthal_symmetry",
    "Pydisort.C19_azimuthal_mean"
   ],
   "note": "The mean is over the intensity before the NT corrections, which are not azimuthally neutral."
  },
  {
   "property": "C20",
   "status": "proved",
   "theorems": [
    "Pydisort.C20_splitting_a_layer"
   ],
   "note": "u is compared without the NT corrections, whose averages depend on the layering (C44)."
  },
  {
   "property": "C21",
   "status": "proved",
   "theorems": [
    "Pydisort.C21_layer_lookup",
    "Pydisort.C21_out_of_range",
    "Pydisort.C21_in_range"
   ],
   "note": ""
  },
  {
   "property": "C22",
   "status": "proved",
   "theorems": [
    "Pydisort.C22_pointwise",
    "Pydisort.C22_pointwise_u"
   ],
   "note": ""
  },
  {
   "property": "C23",
   "status": "proved",
   "theorems": [
    "Pydisort.C23_scaled_optics_physical"
   ],
   "note": "The zeroth scaled Legendre coefficient is 1 in layers that scatter (in layers with omega = 0 the code leaves the caller's value, which is irrelevant)."
  },
  {
   "property": "C24",
   "status": "proved",
   "theorems": [
    "Pydisort.C24_depth_map"
   ],
   "note": ""
  },
  {
   "property": "C25",
   "status": "proved",
   "theorems": [
    "Pydisort.C25_source_transport"
   ],
   "note": ""
  },
  {
   "property": "C26",
   "status": "proved",
   "theorems": [
    "Pydisort.C26_no_scaling_shortcut"
   ],
   "note": ""
  },
  {
   "property": "C27",
   "status": "proved",
   "theorems": [
    "Pydisort.C27_validation",
    "Pydisort.C27_rejects",
    "Pydisort.C27_no_layers"
   ],
   "note": "An empty tau_arr raises IndexError before any check is reached."
  },
  {
   "property": "C28",
   "status": "partial",
   "theorems": [
    "Pydisort.C28_false_peak_one_accepted",
    "Pydisort.C28_false",
    "Pydisort.C28_out_of_range_rejected_partial"
   ],
   "note": "f = 1 is accepted by the code (<= 1) and divides by zero; negation proved. Values outside [0,1] are rejected."
  },
  {
   "property": "C29",
   "status": "partial",
   "theorems": [
    "Pydisort.C29_false",
    "Pydisort.C29_legendre_unchanged_partial"
   ],
   "note": "Line 248 writes into the caller's Leg_coeffs_all; negation proved. The array is unchanged whenever its first column is already normalised."
  },
  {
   "property": "C30",
   "status": "partial",
   "theorems": [
    "Pydisort.C30_false",
    "Pydisort.C30_rescale_factor_partial"
   ],
   "note": "The rescale factor can be zero with an isotropic source; negation proved. Non-zero when the sources are non-negative and the source is positive at an end of the atmosphere."
  },
  {
   "property": "C31",
   "status": "partial",
   "theorems": [
    "Pydisort.C31_two_dimensional_never_returns",
    "Pydisort.C31_false",
    "Pydisort.C31_single_entry_partial"
   ],
   "note": "False for NQuad >= 4: an array of shape (NQuad/2, NFourier) is taken for a vector and the assignment of its rows fails; negation proved for every such array. Only the degenerate one-entry array works."
  },
  {
   "property": "C32",
   "status": "proved",
   "theorems": [
    "Pydisort.C32_scalar_or_vector"
   ],
   "note": ""
  },
  {
   "property": "C33",
   "status": "proved",
   "theorems": [
    "Pydisort.C33_scalar_or_function"
   ],
   "note": ""
  },
  {
   "property": "C34",
   "status": "partial",
   "theorems": [
    "Pydisort.C34_flux_up_antiderivative_partial",
    "Pydisort.C34_source_in_layers_raises",
    "Pydisort.C34_single_depth_wrong_shape",
    "Pydisort.C34_wrong_value",
    "Pydisort.C34_false"
   ],
   "note": "True without internal source or with one layer. With an internal source in several layers flux_up(tau, True) raises for most numbers of depths; at a single depth it returns one number per layer, and with as many depths as layers it can return two different values for the same depth. All proved."
  },
  {
   "property": "C35",
   "status": "partial",
   "theorems": [
    "Pydisort.C35_flux_down_antiderivative_partial",
    "Pydisort.C35_beam_in_layers_raises",
    "Pydisort.C35_false",
    "Pydisort.C35_wrong_value"
   ],
   "note": "True with one layer, without a beam or for single depths. With a beam and several layers flux_down(tau, True) raises unless the number of depths is 1 or the number of layers; in the latter case it returns wrong numbers. Both proved."
  },
  {
   "property": "C36",
   "status": "partial",
   "theorems": [
    "Pydisort.C36_u0_antiderivative_partial",
    "Pydisort.C36_flag_ignored",
    "Pydisort.C36_source_in_layers_raises",
    "Pydisort.C36_single_depth_wrong_shape",
    "Pydisort.C36_false"
   ],
   "note": "True with a beam and no internal source in several layers. Without a beam the flag is ignored; negation proved."
  },
  {
   "property": "C37",
   "status": "partial",
   "theorems": [
    "Pydisort.C37_u_antiderivative_partial",
    "Pydisort.C37_corrected_partial",
    "Pydisort.C37_source_in_layers_raises",
    "Pydisort.C37_single_depth_raises",
    "Pydisort.C37_false"
   ],
   "note": "True without internal source or with one layer; with NT corrections if in addition the delta-M scale factor is the same in all layers (otherwise C67_false). With an internal source in several layers it raises for most numbers of depths; negation proved."
  },
  {
   "property": "C38",
   "status": "partial",
   "theorems": [
    "Pydisort.C38_fourier_error_partial",
    "Pydisort.C38_beam_in_layers_raises",
    "Pydisort.C38_false",
    "Pydisort.C38_wrong_value"
   ],
   "note": "True without a beam (several modes or no internal source). With a beam the estimate mixes up array axes: it raises, or returns a positive number where the last Fourier term is zero. Both proved."
  },
  {
   "property": "C39",
   "status": "partial",
   "theorems": [
    "Pydisort.C39_actinic_up",
    "Pydisort.C39_actinic_down_returned",
    "Pydisort.C39_actinic_down_partial",
    "Pydisort.C39_false"
   ],
   "note": "The upward function is right. The downward one adds the reclassified beam in internal units; negation proved."
  },
  {
   "property": "C40",
   "status": "partial",
   "theorems": [
    "Pydisort.C40_tms_partial",
    "Pydisort.C40_false"
   ],
   "note": "Equation, top and bottom conditions hold in every layer. Continuity across layer boundaries holds only if the once scattered light has the same strength in all layers: the code gives light from other layers the strength of the layer of observation, so that u jumps; negation proved."
  },
  {
   "property": "C41",
   "status": "proved",
   "theorems": [
    "Pydisort.C41_layer_sums",
    "Pydisort.C41_masked_term",
    "Pydisort.C41_no_positive_exponents"
   ],
   "note": "Exponents refer to the arguments of exp/expm1; division by decay_prod is the subject of C68."
  },
  {
   "property": "C42",
   "status": "proved",
   "theorems": [
    "Pydisort.C42_inactive",
    "Pydisort.C42_fluxes_unaltered"
   ],
   "note": ""
  },
  {
   "property": "C43",
   "status": "proved",
   "theorems": [
    "Pydisort.C43_chi",
    "Pydisort.C43_chi_antiderivative",
    "Pydisort.C43_ims"
   ],
   "note": ""
  },
  {
   "property": "C44",
   "status": "partial",
   "theorems": [
    "Pydisort.C44_homogeneous_partial",
    "Pydisort.C44_false"
   ],
   "note": "False: the averages are weighted with cumulative depths instead of thicknesses; negation proved. True in homogeneous atmospheres."
  },
  {
   "property": "C45",
   "status": "partial",
   "theorems": [
    "Pydisort.C45_returns_partial",
    "Pydisort.C45_two_streams_raise",
    "Pydisort.C45_false"
   ],
   "note": "False: with two streams every number of azimuths other than one raises; negation proved."
  },
  {
   "property": "C46",
   "status": "partial",
   "theorems": [
    "Pydisort.C46_direct_flux_size_partial",
    "Pydisort.C46_false_without_beam"
   ],
   "note": "True with a beam; false without one (scalar 0 returned). Negation proved with a concrete problem."
  },
  {
   "property": "C47",
   "status": "proved",
   "theorems": [
    "Pydisort.C47_prepend",
    "Pydisort.C47_wrong_length"
   ],
   "note": "The declared length is the allocated length; the error branch and the one-element broadcast are covered."
  },
  {
   "property": "C48",
   "status": "proved",
   "theorems": [
    "Pydisort.C48_affine",
    "Pydisort.C48_bijection",
    "Pydisort.C48_inverse"
   ],
   "note": ""
  },
  {
   "property": "C49",
   "status": "proved",
   "theorems": [
    "Pydisort.C49_exact",
    "Pydisort.C49_gauss",
    "Pydisort.C49_zero"
   ],
   "note": "C49_gauss instantiates the contract of leggauss; zero nodes raise."
  },
  {
   "property": "C50",
   "status": "proved",
   "theorems": [
    "Pydisort.C50_refused",
    "Pydisort.C50_exact",
    "Pydisort.C50_nodes"
   ],
   "note": "The inverse cosine transform is the sum scipy documents; exact arithmetic."
  },
  {
   "property": "C51",
   "status": "proved",
   "theorems": [
    "Pydisort.C51_dot",
    "Pydisort.C51_unit",
    "Pydisort.C51_range",
    "Pydisort.C51_symmetric",
    "Pydisort.C51_same",
    "Pydisort.C51_opposite",
    "Pydisort.C51_periodic",
    "Pydisort.C51_shape"
   ],
   "note": ""
  },
  {
   "property": "C52",
   "status": "proved",
   "theorems": [
    "Pydisort.C52_too_few",
    "Pydisort.C52_quadratic",
    "Pydisort.C52_second_order"
   ],
   "note": "C52_second_order also gives the error bound for every function with bounded third derivative."
  },
  {
   "property": "C53",
   "status": "proved",
   "theorems": [
    "Pydisort.C53_scalar",
    "Pydisort.C53_vector",
    "Pydisort.C53_higher",
    "Pydisort.C53_rank",
    "Pydisort.C53_arguments"
   ],
   "note": ""
  },
  {
   "property": "C54",
   "status": "proved",
   "theorems": [
    "Pydisort.C54_law",
    "Pydisort.C54_increasing",
    "Pydisort.C54_exponent"
   ],
   "note": "Positive wavenumber; the wavenumber 0 is 0/0 and is excluded."
  },
  {
   "property": "C55",
   "status": "proved",
   "theorems": [
    "Pydisort.C55_line",
    "Pydisort.C55_refused"
   ],
   "note": ""
  },
  {
   "property": "C56",
   "status": "proved",
   "theorems": [
    "Pydisort.C56_source",
    "Pydisort.C56_refused"
   ],
   "note": "The band integral is whatever quad_vec returns under its contract."
  },
  {
   "property": "C57",
   "status": "proved",
   "theorems": [
    "Pydisort.C57_kirchhoff",
    "Pydisort.C57_constant",
    "Pydisort.C57_constant_number"
   ],
   "note": ""
  },
  {
   "property": "C58",
   "status": "partial",
   "theorems": [
    "Pydisort.C58_cache_partial",
    "Pydisort.C58_false_number",
    "Pydisort.C58_false_two_streams"
   ],
   "note": "False with a number as a mode and a beam (TypeError), and with two streams and a cached cosine (wrong column); both negations proved."
  },
  {
   "property": "C59",
   "status": "proved",
   "theorems": [
    "Pydisort.C59_affine"
   ],
   "note": ""
  },
  {
   "property": "C60",
   "status": "partial",
   "theorems": [
    "Pydisort.C60_all_zero_partial",
    "Pydisort.C60_false"
   ],
   "note": "False: the check np.any(a_arr) == 0 fires only if all scale factors are zero; negation proved."
  },
  {
   "property": "C61",
   "status": "proved",
   "theorems": [
    "Pydisort.C61_interpolate_u",
    "Pydisort.C61_interpolate_u0",
    "Pydisort.C61_nodes",
    "Pydisort.C61_polynomial",
    "Pydisort.C61_unique",
    "Pydisort.C61_refused",
    "Pydisort.C61_pydisort_u0",
    "Pydisort.C61_pydisort_u",
    "Pydisort.C61_pydisort_u0_options",
    "Pydisort.C61_pydisort_u_options"
   ],
   "note": "BarycentricInterpolator is modelled by its formula."
  },
  {
   "property": "C62",
   "status": "partial",
   "theorems": [
    "Pydisort.C62_values_partial",
    "Pydisort.C62_returned",
    "Pydisort.C62_false"
   ],
   "note": "False: line 682 passes the flags in the wrong positions; negation proved."
  },
  {
   "property": "C63",
   "status": "proved",
   "theorems": [
    "Pydisort.C63_entries",
    "Pydisort.C63_reconstruct",
    "Pydisort.C63_too_wide"
   ],
   "note": ""
  },
  {
   "property": "C64",
   "status": "proved",
   "theorems": [
    "Pydisort.C64_absorbing_closed_form",
    "Pydisort.C64_beam_stays_direct",
    "Pydisort.C64_over_surface"
   ],
   "note": ""
  },
  {
   "property": "C65",
   "status": "proved",
   "theorems": [
    "Pydisort.C65_well_posed_call_returns",
    "Pydisort.C65_u0_can_be_evaluated",
    "Pydisort.C65_scattering_dissipates",
    "Pydisort.C65_nonneg_phase_dissipates",
    "Pydisort.C65_fair_surface_is_passive",
    "Pydisort.C65_physical_problems_are_well_posed"
   ],
   "note": ""
  },
  {
   "property": "C66",
   "status": "proved",
   "theorems": [
    "Pydisort.C66_solution_unique",
    "Pydisort.C66_code_returns_the_solution"
   ],
   "note": ""
  },
  {
   "property": "C67",
   "status": "partial",
   "theorems": [
    "Pydisort.C67_antiderivative_partial",
    "Pydisort.C67_false"
   ],
   "note": "True if the delta-M scale factor is the same in all layers. Otherwise the contribution of other layers is divided by the wrong scale factor; negation proved."
  },
  {
   "property": "C68",
   "status": "partial",
   "theorems": [
    "Pydisort.C68_divisors_partial",
    "Pydisort.C68_false"
   ],
   "note": "False: exact divisors become arbitrarily small although the quotient lies in [0, 1]. What holds: the divisors are exp(-tau*/mu), in (0, 1], and above the smallest positive double if the optical depth is at most 744 mu."
  },
  {
   "property": "C69",
   "status": "proved",
   "theorems": [
    "Pydisort.C69_blackbody",
    "Pydisort.C69_increasing",
    "Pydisort.C69_additive"
   ],
   "note": ""
  },
  {
   "property": "C70",
   "status": "proved",
   "theorems": [
    "Pydisort.C70_isothermal",
    "Pydisort.C70_enclosure"
   ],
   "note": "Assumes NoNeglect: a layer with 0 < omega* <= 2e-8, whose scattering the code drops, breaks the equilibrium by that amount."
  },
  {
   "property": "C71",
   "status": "proved",
   "theorems": [
    "Pydisort.C71_nonneg",
    "Pydisort.C71_monotone"
   ],
   "note": ""
  },
  {
   "property": "C72",
   "status": "proved",
   "theorems": [
    "Pydisort.C72_upper_bound"
   ],
   "note": ""
  },
  {
   "property": "C73",
   "status": "proved",
   "theorems": [
    "Pydisort.C73_reciprocity"
   ],
   "note": ""
  },
  {
   "property": "C74",
   "status": "proved",
   "theorems": [
    "Pydisort.C74_net_flux_monotone",
    "Pydisort.C74_no_more_up_than_down"
   ],
   "note": ""
  },
  {
   "property": "C75",
   "status": "proved",
   "theorems": [
    "Pydisort.C75_full_transfer_equation",
    "Pydisort.C75_full_boundary_conditions"
   ],
   "note": "Assumes that the 1e-8 shortcut drops no scattering (NothingNeglected)."
  },
  {
   "property": "C76",
   "status": "proved",
   "theorems": [
    "Pydisort.C76_intensity_nonneg"
   ],
   "note": "Assumes that the 1e-8 shortcut drops no scattering (NothingNeglected)."
  },
  {
   "property": "C77",
   "status": "proved",
   "theorems": [
    "Pydisort.C77_delta_M_is_scaling_by_hand"
   ],
   "note": ""
  },
  {
   "property": "C78",
   "status": "proved",
   "theorems": [
    "Pydisort.C78_rotation"
   ],
   "note": ""
  },
  {
   "property": "C79",
   "status": "proved",
   "theorems": [
    "Pydisort.C79_upside_down"
   ],
   "note": ""
  },
  {
   "property": "C80",
   "status": "proved",
   "theorems": [
    "Pydisort.C80_same_physics_same_results"
   ],
   "note": ""
  },
  {
   "property": "C81",
   "status": "proved",
   "theorems": [
    "Pydisort.C81_cutting_at_an_interface"
   ],
   "note": "For the azimuthal average (mode 0), which is what the interface values u0 determine."
  },
  {
   "property": "C82",
   "status": "proved",
   "theorems": [
    "Pydisort.C82_intensity_monotone"
   ],
   "note": "Assumes that the 1e-8 shortcut drops no scattering (NothingNeglected)."
  },
  {
   "property": "C83",
   "status": "proved",
   "theorems": [
    "Pydisort.C83_stability"
   ],
   "note": ""
  },
  {
   "property": "C84",
   "status": "proved",
   "theorems": [
    "Pydisort.C84_autograd",
    "Pydisort.C84_outcome"
   ],
   "note": "autograd.numpy is assumed to compute what numpy computes. u0 and the fluxes contain no branch on autograd_compatible."
  },
  {
   "property": "C85",
   "status": "proved",
   "theorems": [
    "Pydisort.C85_shapes",
    "Pydisort.C85_squeeze",
    "Pydisort.C85_single"
   ],
   "note": ""
  },
  {
   "property": "C86",
   "status": "partial",
   "theorems": [
    "Pydisort.C86_fourier_error_of_antiderivative_partial",
    "Pydisort.C86_modes_unique",
    "Pydisort.C86_beam_in_layers_raises",
    "Pydisort.C86_false"
   ],
   "note": "True without a beam and (without internal source, or with one layer and several modes). With a beam in several layers it raises unless the number of layers is the number of streams; negation proved."
  },
  {
   "property": "C87",
   "status": "proved",
   "theorems": [
    "Pydisort.C87_warnings",
    "Pydisort.C87_modified_iff_warned"
   ],
   "note": "The two warnings in subroutines.py (cache_BDRF_Fourier_modes, _mathscr_v) are not covered."
  },
  {
   "property": "C88",
   "status": "proved",
   "theorems": [
    "Pydisort.C88_less_absorption_more_light"
   ],
   "note": ""
  },
  {
   "property": "C89",
   "status": "proved",
   "theorems": [
    "Pydisort.C89_less_absorption_more_light"
   ],
   "note": "Assumes that the 1e-8 shortcut drops no scattering (NothingNeglected)."
  },
  {
   "property": "C90",
   "status": "proved",
   "theorems": [
    "Pydisort.C90_what_lies_below_adds_light",
    "Pydisort.C90_what_lies_above_adds_light",
    "Pydisort.C90_what_lies_below_adds_light_everywhere",
    "Pydisort.C90_what_lies_above_adds_light_everywhere"
   ],
   "note": "The statements at all azimuths assume that the 1e-8 shortcut drops no scattering (NothingNeglected)."
  },
  {
   "property": "C91",
   "status": "partial",
   "theorems": [
    "Pydisort.C91_resonances_are_few",
    "Pydisort.C91_other_directions",
    "Pydisort.C91_resonance_raises_partial",
    "Pydisort.C91_returns_iff",
    "Pydisort.C91_division_by_zero"
   ],
   "note": "The exception is missing when there is an internal source and the resonance is in the zeroth mode: the code then divides by zero (C91_division_by_zero). Exact arithmetic; in floating point an exact resonance is rarely hit."
  },
  {
   "property": "C92",
   "status": "partial",
   "theorems": [
    "Pydisort.C92_solver_quotients",
    "Pydisort.C92_correction_quotients_partial",
    "Pydisort.C92_peaks_false",
    "Pydisort.C92_secondary_false"
   ],
   "note": "Proved for the solver and the functions without corrections. With corrections an exact criterion: some layer has both a forward peak and scattering, and no quadrature angle equals the scaled angle of the beam; the code tests neither, and both denominators vanish in well-posed calls (negations proved). f = 1 is C28, resonance C91."
  },
  {
   "property": "C93",
   "status": "partial",
   "theorems": [
    "Pydisort.C93_compare",
    "Pydisort.C93_ratio_partial",
    "Pydisort.C93_ratio_intensity_partial",
    "Pydisort.C93_zero_reference",
    "Pydisort.C93_negative_reference",
    "Pydisort.C93_false",
    "Pydisort.C93_refuses"
   ],
   "note": "The last sentence holds for positive reference values only: where the reference is zero the ratio is set to zero whatever was computed, and for negative reference values the ratio is negative; negations proved."
  },
  {
   "property": "C94",
   "status": "proved",
   "theorems": [
    "Pydisort.C94_interpolate",
    "Pydisort.C94_interpolate_refuses",
    "Pydisort.C94_interpolate_u",
    "Pydisort.C94_interpolate_u0",
    "Pydisort.C94_actinic_up",
    "Pydisort.C94_actinic_down",
    "Pydisort.C94_planck"
   ],
   "note": "u for autograd_compatible=False (C84 gives the same array for True); with NT corrections the lengths for which C45 shows that u raises are excluded. The reclassified part is the returned one, in internal units (C39)."
  },
  {
   "property": "C95",
   "status": "partial",
   "theorems": [
    "Pydisort.C95_up_partial",
    "Pydisort.C95_down_partial",
    "Pydisort.C95_false"
   ],
   "note": "Proved with a beam and no internal source or a single layer. Without a beam u0 ignores the flag (C36), and so do the actinic fluxes: negation proved. With sources in several layers u0(tau, True) fails (C36)."
  },
  {
   "property": "C96",
   "status": "proved",
   "theorems": [
    "Pydisort.C96_what_lies_below_returns_light",
    "Pydisort.C96_what_lies_above_sends_light_down",
    "Pydisort.C96_thicker_transmits_less"
   ],
   "note": ""
  },
  {
   "property": "C97",
   "status": "proved",
   "theorems": [
    "Pydisort.C97_vectorised_particular_solution",
    "Pydisort.C97_in_call",
    "Pydisort.C97_solution_unique",
    "Pydisort.C97_array_program_is_the_model"
   ],
   "note": "C97_array_program_is_the_model also covers the antiderivative flag and any number of coefficients, with 64-bit factorials (C07)."
  },
  {
   "property": "C98",
   "status": "proved",
   "theorems": [
    "Pydisort.C98_every_depth_on_its_own",
    "Pydisort.C98_array_programs_are_the_model"
   ],
   "note": "u before the NT corrections. The second theorem covers the antiderivatives (whose own properties are C34-C37), the Fourier error and the reclassified part."
  },
  {
   "property": "C99",
   "status": "proved",
   "theorems": [
    "Pydisort.C99_intensity_program",
    "Pydisort.C99_program_is_the_model",
    "Pydisort.C99_outside"
   ],
   "note": "C99_program_is_the_model also covers the antiderivative flag and the exceptional shapes of C45."
  }
 ]
}
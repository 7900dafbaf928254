{"id": "C01", "title": "Zeroth mode solves the discretised transfer equation", "statement": "Inside every layer, the function u0 returned by pydisort is differentiable in tau and satisfies, at every stream mu_i (up and down), mu_i * du0_i/dtau = scale*(u0_i - sum_j w_j D(mu_i,mu_j) u0_j - beam source at mu_i - isotropic source), where D is the zeroth azimuthal moment of the delta-M scaled phase function, written with associated Legendre functions, and the source terms are those of the documentation (a layer in which no coefficient omega/2 (2l+1) g_l, l >= m, exceeds 1e-8 counts as non-scattering in mode m).", "quantifier": "For every accepted input with at most 21 source coefficients (see C07) for which the eigen-decomposition and linear solves succeed, every layer, every tau in the interior of the layer and every stream.", "why_tests_cant": "The inputs (layer count, stream count, real-valued optics and depths) form an infinite family; a test compares finitely many points against stored numbers.", "anchors": ["src/PythonicDISORT/_assemble_intensity_and_fluxes.py:u0", "src/PythonicDISORT/_solve_for_gen_and_part_sols.py:_solve_for_gen_and_part_sols", "src/PythonicDISORT/subroutines.py:_mathscr_v"]}
{"id": "C02", "title": "Every Fourier mode solves its transfer equation", "statement": "The intensity u(tau, phi) returned by pydisort is sum_m u_m(tau) cos(m(phi0-phi)), and each u_m satisfies the discretised transfer equation of its own azimuthal order m inside every layer (m = 0 also carries the isotropic source).", "quantifier": "For every accepted input with at most 21 source coefficients (see C07) and successful decompositions, every mode m < NFourier, layer, interior tau and stream.", "why_tests_cant": "The inputs (layer count, stream count, real-valued optics and depths) form an infinite family; a test compares finitely many points against stored numbers.", "anchors": ["src/PythonicDISORT/_assemble_intensity_and_fluxes.py:u", "src/PythonicDISORT/_solve_for_gen_and_part_sols.py:_solve_for_gen_and_part_sols"]}
{"id": "C03", "title": "Top boundary condition", "statement": "With a scalar or one-dimensional b_neg, at tau = 0 the downward diffuse intensity modes equal the prescribed b_neg in mode 0 and zero in the higher modes; so u0(0) at the downward streams is b_neg and u(0, phi) there is b_neg for every phi.", "quantifier": "For every accepted input with successful solves, every downward stream, every mode, every phi.", "why_tests_cant": "The inputs (layer count, stream count, real-valued optics and depths) form an infinite family; a test compares finitely many points against stored numbers.", "anchors": ["src/PythonicDISORT/_solve_for_coeffs.py:_solve_for_coeffs", "src/PythonicDISORT/_assemble_intensity_and_fluxes.py:u0", "src/PythonicDISORT/_assemble_intensity_and_fluxes.py:u"]}
{"id": "C04", "title": "Bottom boundary condition with surface reflection", "statement": "At the bottom the upward intensity of each mode equals prescribed b_pos (mode 0 only) plus the surface-reflected downward diffuse intensity, (1+delta_m0) sum_j rho_m(mu_i,mu_j) mu_j w_j u_m(-mu_j), plus the reflected direct beam mu0*I0/pi * rho_m(mu_i,mu0) exp(-tau*/mu0), using the m-th BDRF mode when supplied and no reflection otherwise.", "quantifier": "For every accepted input with successful solves, every list of BDRF modes (scalars or functions), every upward stream and every mode.", "why_tests_cant": "The inputs (layer count, stream count, real-valued optics and depths) form an infinite family; a test compares finitely many points against stored numbers.", "anchors": ["src/PythonicDISORT/_solve_for_coeffs.py:_solve_for_coeffs"]}
{"id": "C05", "title": "Continuity across layer interfaces", "statement": "The intensity modes are continuous at every interior layer boundary: evaluating just above (layer l) and just below (layer l+1) gives the same limit, including beam and isotropic particular solutions.", "quantifier": "For every accepted multi-layer input with successful solves, every interface, stream and mode.", "why_tests_cant": "The inputs (layer count, stream count, real-valued optics and depths) form an infinite family; a test compares finitely many points against stored numbers.", "anchors": ["src/PythonicDISORT/_solve_for_coeffs.py:_solve_for_coeffs"]}
{"id": "C06", "title": "Beam particular solution does not depend on the presence of an isotropic source", "statement": "With a beam source, the beam particular vector used for a layer is the solution of the same linear system whether the code takes the eigenvector-inverse route (isotropic source present, mode 0) or the direct solve route.", "quantifier": "For every layer and mode, for every optics such that the relevant matrices are invertible.", "why_tests_cant": "The two code paths are never exercised on the same generic input; equality is an algebraic identity over all matrices.", "anchors": ["src/PythonicDISORT/_solve_for_gen_and_part_sols.py:_solve_for_gen_and_part_sols"]}
{"id": "C07", "title": "Isotropic polynomial sources are solved exactly for every degree", "statement": "For an isotropic source polynomial of any number of coefficients, the particular solution is an exact solution of the mode-0 equation, and the hand-specialised one- and two-coefficient code paths return what the general path would.", "quantifier": "For every number of coefficients >= 1, every coefficient vector, layer and tau.", "why_tests_cant": "Tests use at most a few degrees; the claim is by induction on the degree.", "anchors": ["src/PythonicDISORT/subroutines.py:_mathscr_v"]}
{"id": "C08", "title": "Eigenvector matrix really diagonalises the coefficient matrix", "statement": "Whatever eigenpairs the eigen-solver returns for the reduced N x N problem with positive eigenvalues, the assembled 2N x 2N eigenvectors and +-sqrt eigenvalues diagonalise the full coefficient matrix; for a layer with no scattering the trivial shortcut does too; positive eigenvalues are guaranteed when the symmetrised scattering operators are strictly sub-critical.", "quantifier": "For every N, every reduced eigen-decomposition, every layer and mode.", "why_tests_cant": "The inputs (layer count, stream count, real-valued optics and depths) form an infinite family; a test compares finitely many points against stored numbers.", "anchors": ["src/PythonicDISORT/_solve_for_gen_and_part_sols.py:_solve_for_gen_and_part_sols"]}
{"id": "C09", "title": "Fluxes are the hemispheric quadratures of the zeroth mode", "statement": "Fp(tau) equals 2*pi*sum_i mu_i w_i u0(tau)[i] over upward streams, and the diffuse part of Fm(tau) equals the same sum over downward streams plus the delta-M reclassification term, at the same tau.", "quantifier": "For every accepted input, every tau array in range.", "why_tests_cant": "The inputs (layer count, stream count, real-valued optics and depths) form an infinite family; a test compares finitely many points against stored numbers.", "anchors": ["src/PythonicDISORT/_assemble_intensity_and_fluxes.py:flux_up", "src/PythonicDISORT/_assemble_intensity_and_fluxes.py:flux_down", "src/PythonicDISORT/_assemble_intensity_and_fluxes.py:u0"]}
{"id": "C10", "title": "Direct flux obeys Beer's law and the reclassification conserves the downward total", "statement": "The direct part of Fm(tau) is I0*mu0*exp(-tau/mu0) with the user's unscaled tau and I0, regardless of delta-M scaling; diffuse + direct equals the delta-M scaled diffuse flux plus the scaled direct beam, and at tau=0 the diffuse part is the boundary illumination alone.", "quantifier": "For every accepted input with a beam and every tau in range.", "why_tests_cant": "The inputs (layer count, stream count, real-valued optics and depths) form an infinite family; a test compares finitely many points against stored numbers.", "anchors": ["src/PythonicDISORT/_assemble_intensity_and_fluxes.py:flux_down"]}
{"id": "C11", "title": "Energy balance", "statement": "The net flux satisfies d/dtau*(Fp - Fm_diffuse_scaled) = 4*pi*[(1-omega*) * mean intensity] - omega* I0 exp(-tau*/mu0) - 4*pi*s, i.e. scattering neither creates nor destroys energy in the discretised system; as omega -> conservative with no emission, total net flux is constant with depth.", "quantifier": "For every Gauss quadrature satisfying its exactness contract, every accepted phase function with NLeg <= NQuad, every layer and tau.", "why_tests_cant": "The inputs (layer count, stream count, real-valued optics and depths) form an infinite family; a test compares finitely many points against stored numbers.", "anchors": ["src/PythonicDISORT/_solve_for_gen_and_part_sols.py:_solve_for_gen_and_part_sols", "src/PythonicDISORT/_assemble_intensity_and_fluxes.py:flux_up"]}
{"id": "C12", "title": "only_flux does not change the fluxes", "statement": "Running with only_flux=True gives the same Fp, Fm and u0 as running with any number of Fourier modes.", "quantifier": "For every accepted input and every NFourier.", "why_tests_cant": "The inputs (layer count, stream count, real-valued optics and depths) form an infinite family; a test compares finitely many points against stored numbers.", "anchors": ["src/PythonicDISORT/pydisort.py:pydisort", "src/PythonicDISORT/_assemble_intensity_and_fluxes.py:_assemble_intensity_and_fluxes"]}
{"id": "C13", "title": "The banded and dense solvers are interchangeable", "statement": "use_banded_solver_NLayers does not change any result: the banded storage handed to scipy represents exactly the dense matrix handed to numpy (same entries inside the band, dense matrix zero outside the band).", "quantifier": "For every number of layers >= 1, N >= 1, eigenvectors, eigenvalues, BDRF and mode.", "why_tests_cant": "The inputs (layer count, stream count, real-valued optics and depths) form an infinite family; a test compares finitely many points against stored numbers.", "anchors": ["src/PythonicDISORT/_solve_for_coeffs.py:_solve_for_coeffs"]}
{"id": "C14", "title": "Slanted strided writes stay inside the band buffer", "statement": "Every element written through the as_strided view used to fill the band storage lies inside the allocated (6N-1) x dim buffer, so no out-of-bounds memory is written, and distinct matrix entries never alias.", "quantifier": "For every N >= 1 and NLayers >= 1 for which the banded path is used.", "why_tests_cant": "An out-of-bounds strided write may silently succeed in a test; the claim concerns all sizes.", "anchors": ["src/PythonicDISORT/_solve_for_coeffs.py:_view_slanted"]}
{"id": "C15", "title": "Reusing the matrix and right-hand-side buffers across Fourier modes is harmless", "statement": "The system solved for mode m does not depend on what earlier modes left in the reused buffers.", "quantifier": "For every number of modes and every prior buffer content outside the untouched zero region.", "why_tests_cant": "Order/history property: must hold after every previous sequence of modes.", "anchors": ["src/PythonicDISORT/_solve_for_coeffs.py:_solve_for_coeffs"]}
{"id": "C16", "title": "No growing exponentials", "statement": "Every argument passed to exp while assembling the boundary system and evaluating u, u0 and the fluxes is <= 0 when eigenvalue magnitudes are positive and tau is in range (so no overflow for thick layers).", "quantifier": "For every accepted input, layer, tau in range.", "why_tests_cant": "Overflow only shows for extreme thicknesses.", "anchors": ["src/PythonicDISORT/_solve_for_coeffs.py:_solve_for_coeffs", "src/PythonicDISORT/_assemble_intensity_and_fluxes.py:u"]}
{"id": "C17", "title": "Results scale linearly with the sources", "statement": "Multiplying I0, b_pos, b_neg and s_poly_coeffs by the same c > 0 multiplies Fp, Fm (both parts), u0 and u by c, including through the internal rescaling of sources.", "quantifier": "For every c > 0 and every accepted input with a non-zero rescale factor.", "why_tests_cant": "The inputs (layer count, stream count, real-valued optics and depths) form an infinite family; a test compares finitely many points against stored numbers.", "anchors": ["src/PythonicDISORT/pydisort.py:pydisort", "src/PythonicDISORT/_assemble_intensity_and_fluxes.py:_assemble_intensity_and_fluxes"]}
{"id": "C18", "title": "Superposition", "statement": "For fixed optics the solution for a sum of sources (beam, boundary, isotropic) is the sum of the solutions for each.", "quantifier": "For every pair of source sets with the same optics for which the boundary system is non-singular.", "why_tests_cant": "The inputs (layer count, stream count, real-valued optics and depths) form an infinite family; a test compares finitely many points against stored numbers.", "anchors": ["src/PythonicDISORT/_solve_for_coeffs.py:_solve_for_coeffs", "src/PythonicDISORT/subroutines.py:_mathscr_v"]}
{"id": "C19", "title": "Azimuthal structure of the intensity", "statement": "u(tau, phi) is 2*pi-periodic in phi and symmetric about phi0, and its azimuthal mean over [0, 2*pi] is u0(tau) (the mean for u without the NT corrections).", "quantifier": "For every accepted input, every tau in range, every phi.", "why_tests_cant": "The inputs (layer count, stream count, real-valued optics and depths) form an infinite family; a test compares finitely many points against stored numbers.", "anchors": ["src/PythonicDISORT/_assemble_intensity_and_fluxes.py:u", "src/PythonicDISORT/_assemble_intensity_and_fluxes.py:u0"]}
{"id": "C20", "title": "Splitting a homogeneous layer changes nothing", "statement": "If a layer is replaced by two layers with identical optics whose thicknesses sum to the original, u0, the fluxes and (with NT_cor = False) u at every tau are unchanged.", "quantifier": "For every atmosphere, every split point strictly inside a layer, when both boundary systems are non-singular.", "why_tests_cant": "Relates two different runs with different matrix sizes, for all inputs.", "anchors": ["src/PythonicDISORT/pydisort.py:pydisort", "src/PythonicDISORT/_solve_for_coeffs.py:_solve_for_coeffs"]}
{"id": "C21", "title": "Layer lookup and range check", "statement": "For a depth in [0, tau_arr[-1]] the layer used is the unique l with tau_arr[l-1] < tau <= tau_arr[l] (layer 0 for tau = 0), and a depth outside the range raises ValueError for all four output functions.", "quantifier": "For every strictly increasing positive tau_arr and every real tau.", "why_tests_cant": "The inputs (layer count, stream count, real-valued optics and depths) form an infinite family; a test compares finitely many points against stored numbers.", "anchors": ["src/PythonicDISORT/_assemble_intensity_and_fluxes.py:u", "src/PythonicDISORT/_assemble_intensity_and_fluxes.py:u0", "src/PythonicDISORT/_assemble_intensity_and_fluxes.py:flux_up", "src/PythonicDISORT/_assemble_intensity_and_fluxes.py:flux_down"]}
{"id": "C22", "title": "Vectorised evaluation equals pointwise evaluation", "statement": "Evaluating an output function on an array of depths (in any order, with repeats) gives entry t equal to evaluating at tau[t] alone.", "quantifier": "For every array length and content in range, every accepted input (non-antiderivative mode).", "why_tests_cant": "Depends on fancy indexing and unique/inverse bookkeeping for all array contents.", "anchors": ["src/PythonicDISORT/_assemble_intensity_and_fluxes.py:u0", "src/PythonicDISORT/_assemble_intensity_and_fluxes.py:flux_up", "src/PythonicDISORT/_assemble_intensity_and_fluxes.py:flux_down", "src/PythonicDISORT/_assemble_intensity_and_fluxes.py:u", "src/PythonicDISORT/subroutines.py:_mathscr_v"]}
{"id": "C23", "title": "Delta-M scaled optics remain physical", "statement": "For accepted inputs with f < 1: every scaled thickness is positive and at most the original, scaled albedo is in [0,1) and at most the original, the scaled zeroth Legendre coefficient is 1 in every layer with omega > 0, and scaled optical depths are strictly increasing.", "quantifier": "For every accepted input with every f < 1.", "why_tests_cant": "The inputs (layer count, stream count, real-valued optics and depths) form an infinite family; a test compares finitely many points against stored numbers.", "anchors": ["src/PythonicDISORT/pydisort.py:pydisort"]}
{"id": "C24", "title": "The delta-M depth map is a continuous increasing bijection", "statement": "The depth used internally for a user tau is continuous and strictly increasing in tau, 0 at 0, equal to the cumulative scaled depth at each layer boundary, with slope 1 - omega*f within each layer.", "quantifier": "For every accepted input and every tau in range.", "why_tests_cant": "The inputs (layer count, stream count, real-valued optics and depths) form an infinite family; a test compares finitely many points against stored numbers.", "anchors": ["src/PythonicDISORT/_assemble_intensity_and_fluxes.py:u", "src/PythonicDISORT/pydisort.py:pydisort"]}
{"id": "C25", "title": "Delta-M scaling transports the internal source", "statement": "The source polynomial used internally, evaluated at the scaled depth and multiplied by the layer's d(tau*)/d(tau), equals (1-omega) times the user's source polynomial at the user's depth.", "quantifier": "For every accepted input, layer and depth in the layer.", "why_tests_cant": "The inputs (layer count, stream count, real-valued optics and depths) form an infinite family; a test compares finitely many points against stored numbers.", "anchors": ["src/PythonicDISORT/pydisort.py:pydisort", "src/PythonicDISORT/subroutines.py:affine_transform_poly_coeffs"]}
{"id": "C26", "title": "The no-scaling shortcut agrees with the scaling formulas", "statement": "When all f are 0, the scaled quantities of the shortcut branch equal those the delta-M formulas would give at f=0.", "quantifier": "For every accepted input.", "why_tests_cant": "The inputs (layer count, stream count, real-valued optics and depths) form an infinite family; a test compares finitely many points against stored numbers.", "anchors": ["src/PythonicDISORT/pydisort.py:pydisort"]}
{"id": "C27", "title": "Input validation accepts exactly the documented inputs", "statement": "The validation block of pydisort raises ValueError on an input with at least one layer iff one of the documented conditions is violated, and the error raised is the first violated condition in the documented order; an empty tau_arr raises IndexError.", "quantifier": "For every argument tuple.", "why_tests_cant": "Validation has ~20 interacting conditions over unbounded arrays.", "anchors": ["src/PythonicDISORT/pydisort.py:pydisort"]}
{"id": "C28", "title": "Fractional peak scattering of exactly 1 is rejected", "statement": "An input with some f = 1 (outside the documented range [0,1)) is rejected before the division by 1-f.", "quantifier": "For every input.", "why_tests_cant": "Boundary value.", "anchors": ["src/PythonicDISORT/pydisort.py:pydisort"]}
{"id": "C29", "title": "pydisort does not modify its array arguments", "statement": "After a call, every array the caller passed has its original content.", "quantifier": "For every accepted input.", "why_tests_cant": "Aliasing effect that depends on input values.", "anchors": ["src/PythonicDISORT/pydisort.py:pydisort"]}
{"id": "C30", "title": "The source rescaling never divides by zero", "statement": "For an accepted input with non-negative sources that are not all zero, the internal rescale factor is positive.", "quantifier": "For every accepted input with non-negative b_pos, b_neg and source.", "why_tests_cant": "The inputs (layer count, stream count, real-valued optics and depths) form an infinite family; a test compares finitely many points against stored numbers.", "anchors": ["src/PythonicDISORT/pydisort.py:pydisort"]}
{"id": "C31", "title": "Azimuth-dependent (2-D) boundary conditions are usable", "statement": "Passing b_pos or b_neg of shape (NQuad/2, NFourier) imposes column m on Fourier mode m.", "quantifier": "For every NQuad and NFourier with such an array.", "why_tests_cant": "No test passes a 2-D boundary condition.", "anchors": ["src/PythonicDISORT/pydisort.py:pydisort", "src/PythonicDISORT/_solve_for_coeffs.py:_solve_for_coeffs"]}
{"id": "C32", "title": "Scalar and constant-vector boundary conditions are equivalent", "statement": "Passing b as a scalar gives the same solution as passing a length-N vector filled with it.", "quantifier": "For every scalar and N >= 1.", "why_tests_cant": "The inputs (layer count, stream count, real-valued optics and depths) form an infinite family; a test compares finitely many points against stored numbers.", "anchors": ["src/PythonicDISORT/pydisort.py:pydisort", "src/PythonicDISORT/_solve_for_coeffs.py:_solve_for_coeffs"]}
{"id": "C33", "title": "Scalar and constant-function BDRF modes are equivalent", "statement": "Passing a BDRF mode as a scalar gives the same boundary system as passing the constant function returning a full array of that scalar.", "quantifier": "For every scalar, mode, N, with or without beam.", "why_tests_cant": "The inputs (layer count, stream count, real-valued optics and depths) form an infinite family; a test compares finitely many points against stored numbers.", "anchors": ["src/PythonicDISORT/_solve_for_coeffs.py:_solve_for_coeffs"]}
{"id": "C34", "title": "Antiderivative of the upward flux", "statement": "Within a layer, Fp(tau, True) is an antiderivative of Fp(tau): its tau-derivative is Fp(tau); so differences at two depths of the same layer are the integral.", "quantifier": "For every accepted input, every layer, every pair of depths in it, every array of depths.", "why_tests_cant": "The inputs (layer count, stream count, real-valued optics and depths) form an infinite family; a test compares finitely many points against stored numbers.", "anchors": ["src/PythonicDISORT/_assemble_intensity_and_fluxes.py:flux_up", "src/PythonicDISORT/subroutines.py:_mathscr_v"]}
{"id": "C35", "title": "Antiderivative of the downward flux", "statement": "Within a layer, both entries of Fm(tau, True) are antiderivatives of those of Fm(tau).", "quantifier": "For every accepted input, every layer, every array of depths.", "why_tests_cant": "The inputs (layer count, stream count, real-valued optics and depths) form an infinite family; a test compares finitely many points against stored numbers.", "anchors": ["src/PythonicDISORT/_assemble_intensity_and_fluxes.py:flux_down"]}
{"id": "C36", "title": "Antiderivative of u0", "statement": "Within a layer, u0(tau, True) is an antiderivative of u0(tau), for every combination of sources.", "quantifier": "For every accepted input, every layer, every array of depths.", "why_tests_cant": "The inputs (layer count, stream count, real-valued optics and depths) form an infinite family; a test compares finitely many points against stored numbers.", "anchors": ["src/PythonicDISORT/_assemble_intensity_and_fluxes.py:u0"]}
{"id": "C37", "title": "Antiderivative of u", "statement": "Within a layer, u(tau, phi, True) is an antiderivative in tau of u(tau, phi).", "quantifier": "For every accepted input, every layer, phi, every array of depths.", "why_tests_cant": "The inputs (layer count, stream count, real-valued optics and depths) form an infinite family; a test compares finitely many points against stored numbers.", "anchors": ["src/PythonicDISORT/_assemble_intensity_and_fluxes.py:u"]}
{"id": "C38", "title": "Fourier error estimate", "statement": "u(tau, phi, return_Fourier_error=True) returns the maximum over points of |last Fourier term| / |u| (0 where |u| is negligible).", "quantifier": "For every accepted input, with or without beam source, every tau and phi array.", "why_tests_cant": "No test requests the estimate.", "anchors": ["src/PythonicDISORT/_assemble_intensity_and_fluxes.py:u"]}
{"id": "C39", "title": "Diffuse actinic fluxes", "statement": "The functions returned by generate_diff_act_flux_funcs give 2*pi*sum w_i u0_i over each hemisphere, the downward one plus the reclassification I0*(exp(-tau*/mu0) - exp(-tau/mu0)) in the user's source units, hence scale linearly with the sources.", "quantifier": "For every accepted input and tau.", "why_tests_cant": "The inputs (layer count, stream count, real-valued optics and depths) form an infinite family; a test compares finitely many points against stored numbers.", "anchors": ["src/PythonicDISORT/subroutines.py:generate_diff_act_flux_funcs", "src/PythonicDISORT/_assemble_intensity_and_fluxes.py:u0"]}
{"id": "C40", "title": "TMS correction solves the single-scattering equation", "statement": "The TMS correction added to u satisfies, in every layer, the single-scattering transfer equation for the difference of exact and truncated phase functions of that layer, is continuous across interfaces, and vanishes for downward streams at the top and upward streams at the bottom.", "quantifier": "For every multi-layer atmosphere with a beam, every stream, phi and tau.", "why_tests_cant": "Tests with NT corrections are single-layer or homogeneous.", "anchors": ["src/PythonicDISORT/pydisort.py:TMS_correction"]}
{"id": "C41", "title": "Scan form of the TMS layer sums", "statement": "The cumulative-sum (scan) evaluation of contributions from other layers equals the explicit sums over layers above/below of attenuated layer terms, and both sign branches of the masked layer term equal exp(-tau_l/mu0) - exp(-thickness/mu)*exp(-tau_{l-1}/mu0), using only non-positive exponents.", "quantifier": "For every number of layers, thicknesses, mu, mu0.", "why_tests_cant": "The inputs (layer count, stream count, real-valued optics and depths) form an infinite family; a test compares finitely many points against stored numbers.", "anchors": ["src/PythonicDISORT/pydisort.py:TMS_correction"]}
{"id": "C42", "title": "Without peaks, beam or extra coefficients no intensity correction is made", "statement": "NT_cor=True returns the uncorrected intensity function unless there is a beam, some f > 0, some omega > 0 and unused Legendre coefficients; fluxes and u0 are never altered by NT_cor.", "quantifier": "For every accepted input.", "why_tests_cant": "The inputs (layer count, stream count, real-valued optics and depths) form an infinite family; a test compares finitely many points against stored numbers.", "anchors": ["src/PythonicDISORT/pydisort.py:pydisort"]}
{"id": "C43", "title": "IMS depth function", "statement": "The IMS chi(tau) vanishes at tau=0, satisfies mu*chi' + chi = (tau/scaled_mu0) e^{-tau/scaled_mu0} (a secondary-scattering source), and the antiderivative variant has it as derivative.", "quantifier": "For every mu, scaled_mu0 > 0 with mu != scaled_mu0 and every tau.", "why_tests_cant": "The inputs (layer count, stream count, real-valued optics and depths) form an infinite family; a test compares finitely many points against stored numbers.", "anchors": ["src/PythonicDISORT/pydisort.py:IMS_correction"]}
{"id": "C44", "title": "IMS average optics are intrinsic to the atmosphere", "statement": "The averaged albedo and peak fraction used by the IMS correction do not change when a layer is split into two identical layers.", "quantifier": "For every atmosphere and split.", "why_tests_cant": "The inputs (layer count, stream count, real-valued optics and depths) form an infinite family; a test compares finitely many points against stored numbers.", "anchors": ["src/PythonicDISORT/pydisort.py:pydisort"]}
{"id": "C45", "title": "Intensity corrections work for two streams", "statement": "With NQuad = 2 and NT corrections active, u(tau, phi) returns a value for every array of phi.", "quantifier": "For every Nphi >= 1.", "why_tests_cant": "Edge stream count is untested.", "anchors": ["src/PythonicDISORT/pydisort.py:IMS_correction", "src/PythonicDISORT/subroutines.py:calculate_nu", "src/PythonicDISORT/subroutines.py:atleast_2d_append"]}
{"id": "C46", "title": "Direct flux entry has the size of tau", "statement": "Both entries of Fm(tau) have the same size as tau.", "quantifier": "For every accepted input and tau array.", "why_tests_cant": "Depends on presence of beam.", "anchors": ["src/PythonicDISORT/_assemble_intensity_and_fluxes.py:flux_down"]}
{"id": "C47", "title": "prepend", "statement": "prepend(arr, len(arr), v) is v followed by arr; a wrong declared length raises unless arr has one element, which is then repeated.", "quantifier": "For every array, declared length and value.", "why_tests_cant": "The inputs (layer count, stream count, real-valued optics and depths) form an infinite family; a test compares finitely many points against stored numbers.", "anchors": ["src/PythonicDISORT/subroutines.py:prepend"]}
{"id": "C48", "title": "Interval transformation is the affine bijection", "statement": "transform_interval maps a to c, b to d, preserves order for c<d, a<b, maps [a,b] onto [c,d], and swapping the interval pairs inverts it.", "quantifier": "For all reals with a != b (and c != d for the inverse).", "why_tests_cant": "The inputs (layer count, stream count, real-valued optics and depths) form an infinite family; a test compares finitely many points against stored numbers.", "anchors": ["src/PythonicDISORT/subroutines.py:transform_interval"]}
{"id": "C49", "title": "Transported quadrature is exact", "statement": "If nodes and weights integrate every polynomial of degree <= k exactly on [-1,1] then Gauss_Legendre_quad(N,c,d) integrates every polynomial of degree <= k exactly on [c,d]; nodes lie strictly inside, weights are positive and sum to d-c.", "quantifier": "For every N, c < d and every polynomial of degree <= 2N-1.", "why_tests_cant": "The inputs (layer count, stream count, real-valued optics and depths) form an infinite family; a test compares finitely many points against stored numbers.", "anchors": ["src/PythonicDISORT/subroutines.py:Gauss_Legendre_quad", "src/PythonicDISORT/subroutines.py:transform_weights"]}
{"id": "C50", "title": "Clenshaw-Curtis quadrature", "statement": "Clenshaw_Curtis_quad rejects even counts and counts below 3; otherwise it returns Nphi nodes in [c,d], ascending, symmetric about the midpoint, including both ends, and weights that integrate every polynomial of degree < Nphi exactly.", "quantifier": "For every odd Nphi >= 3, all c, d and every polynomial.", "why_tests_cant": "The inputs (layer count, stream count, real-valued optics and depths) form an infinite family; a test compares finitely many points against stored numbers.", "anchors": ["src/PythonicDISORT/subroutines.py:Clenshaw_Curtis_quad"]}
{"id": "C51", "title": "Scattering-angle cosine", "statement": "calculate_nu is the dot product of the two unit direction vectors, lies in [-1,1], is symmetric under exchanging the directions, is 1 for identical directions and -1 for opposite ones, and is 2*pi-periodic in each azimuth.", "quantifier": "For all cosines in [-1,1] and all azimuths.", "why_tests_cant": "The inputs (layer count, stream count, real-valued optics and depths) form an infinite family; a test compares finitely many points against stored numbers.", "anchors": ["src/PythonicDISORT/subroutines.py:calculate_nu"]}
{"id": "C52", "title": "Finite-difference matrix is second order", "statement": "Applied to samples of any quadratic polynomial on the returned grid, the matrix returns the exact derivative at every grid node including the ends; fewer than three nodes raise an error.", "quantifier": "For every Ntau >= 3, every interval with a != b, every quadratic.", "why_tests_cant": "The inputs (layer count, stream count, real-valued optics and depths) form an infinite family; a test compares finitely many points against stored numbers.", "anchors": ["src/PythonicDISORT/subroutines.py:generate_FD_mat"]}
{"id": "C53", "title": "atleast_2d_append", "statement": "0-d, 1-d and higher arrays get shapes (1,1), (n,1) and unchanged, with entries preserved.", "quantifier": "For every array.", "why_tests_cant": "The inputs (layer count, stream count, real-valued optics and depths) form an infinite family; a test compares finitely many points against stored numbers.", "anchors": ["src/PythonicDISORT/subroutines.py:atleast_2d_append"]}
{"id": "C54", "title": "Planck function", "statement": "Planck(T, nu) is 0 at T=0, positive for T>0 and nu>0, strictly increasing in T, equals c1 nu^3/(exp(c2 nu/T)-1), and never evaluates a growing exponential.", "quantifier": "For every array of temperatures >= 0 and wavenumber > 0.", "why_tests_cant": "The inputs (layer count, stream count, real-valued optics and depths) form an infinite family; a test compares finitely many points against stored numbers.", "anchors": ["src/PythonicDISORT/subroutines.py:Planck"]}
{"id": "C55", "title": "Linear spline coefficients interpolate", "statement": "Each row of linear_spline_coefficients is the unique line through the two data points of its segment; inputs that are too short, of unequal length or not increasing raise ValueError.", "quantifier": "For every pair of arrays.", "why_tests_cant": "The inputs (layer count, stream count, real-valued optics and depths) form an infinite family; a test compares finitely many points against stored numbers.", "anchors": ["src/PythonicDISORT/subroutines.py:linear_spline_coefficients"]}
{"id": "C56", "title": "DISORT-equivalent source polynomials", "statement": "generate_s_poly_coeffs returns one line per layer whose values at the layer boundaries are the band-integrated Planck emissions at the boundary temperatures, hence the source is continuous; a temperature array of the wrong length raises ValueError.", "quantifier": "For every increasing positive tau_arr and temperature array.", "why_tests_cant": "The inputs (layer count, stream count, real-valued optics and depths) form an infinite family; a test compares finitely many points against stored numbers.", "anchors": ["src/PythonicDISORT/subroutines.py:generate_s_poly_coeffs"]}
{"id": "C57", "title": "Emissivity from BDRF", "statement": "For a constant zeroth BDRF mode given as a function the emissivity is 1 minus the constant at every node, the same as for the scalar shortcut.", "quantifier": "For every constant and every N, given the Gauss quadrature contract.", "why_tests_cant": "The inputs (layer count, stream count, real-valued optics and depths) form an infinite family; a test compares finitely many points against stored numbers.", "anchors": ["src/PythonicDISORT/subroutines.py:generate_emissivity_from_BDRF"]}
{"id": "C58", "title": "Caching BDRF modes does not change results", "statement": "Replacing BDRF_Fourier_modes by cache_BDRF_Fourier_modes(N, modes, mu0) leaves the boundary system of pydisort unchanged.", "quantifier": "For every N, every list of modes (scalars or functions) and mu0.", "why_tests_cant": "Depends on len(neg_mup)==1 disambiguation, which fails for specific N.", "anchors": ["src/PythonicDISORT/subroutines.py:cache_BDRF_Fourier_modes", "src/PythonicDISORT/_solve_for_coeffs.py:_solve_for_coeffs"]}
{"id": "C59", "title": "Affine change of variable for polynomials", "statement": "affine_transform_poly_coeffs returns coefficients D with sum D_i (a x + b)^i = sum C_j x^j for every x, row by row.", "quantifier": "For every number of coefficients, every row, a != 0, b, x.", "why_tests_cant": "The inputs (layer count, stream count, real-valued optics and depths) form an infinite family; a test compares finitely many points against stored numbers.", "anchors": ["src/PythonicDISORT/subroutines.py:affine_transform_poly_coeffs"]}
{"id": "C60", "title": "Zero scale factors are rejected", "statement": "affine_transform_poly_coeffs raises ValueError whenever some scale factor is zero.", "quantifier": "For every array of scale factors.", "why_tests_cant": "Only one operator-precedence pattern distinguishes all-zero from any-zero.", "anchors": ["src/PythonicDISORT/subroutines.py:affine_transform_poly_coeffs"]}
{"id": "C61", "title": "Interpolation in mu reproduces the nodes", "statement": "interpolate(u) evaluated at the quadrature nodes returns u at those nodes, uses the upward polynomial exactly for mu > 0 and the downward one for mu <= 0, reproduces any intensity that is polynomial of degree < N in each hemisphere, and rejects |mu| > 1.", "quantifier": "For every N, every u, every mu array.", "why_tests_cant": "The inputs (layer count, stream count, real-valued optics and depths) form an infinite family; a test compares finitely many points against stored numbers.", "anchors": ["src/PythonicDISORT/subroutines.py:interpolate"]}
{"id": "C62", "title": "Interpolating u0 passes options through", "statement": "interpolate(u0)(mu, tau, return_tau_arr=True) returns the interpolated values and tau_arr, as documented.", "quantifier": "For every u0 from pydisort and every flag combination.", "why_tests_cant": "Flag plumbing is untested.", "anchors": ["src/PythonicDISORT/subroutines.py:interpolate", "src/PythonicDISORT/_assemble_intensity_and_fluxes.py:u0"]}
{"id": "C63", "title": "Diagonal ordered form", "statement": "to_diag_ordered_form(A, nu, nl)[nu + i - j, j] = A[i, j] for every in-band (i, j), so the matrix reconstructed by solve_banded equals A whenever A vanishes outside the band.", "quantifier": "For every square matrix and all band widths below its size.", "why_tests_cant": "The inputs (layer count, stream count, real-valued optics and depths) form an infinite family; a test compares finitely many points against stored numbers.", "anchors": ["src/PythonicDISORT/subroutines.py:to_diag_ordered_form"]}
{"id": "C64", "title": "Purely absorbing atmosphere has the closed-form solution", "statement": "With omega = 0 in every layer, no isotropic source and no reflection, u0(tau) at downward stream mu is b_neg*exp(-tau/mu) and at upward stream is b_pos*exp(-(tau_total-tau)/mu); the diffuse field from a beam is zero.", "quantifier": "For every number of layers, thicknesses, streams and tau.", "why_tests_cant": "The inputs (layer count, stream count, real-valued optics and depths) form an infinite family; a test compares finitely many points against stored numbers.", "anchors": ["src/PythonicDISORT/_assemble_intensity_and_fluxes.py:u0", "src/PythonicDISORT/_solve_for_coeffs.py:_solve_for_coeffs", "src/PythonicDISORT/_solve_for_gen_and_part_sols.py:_solve_for_gen_and_part_sols"]}
{"id": "C65", "title": "Well-posed problems are solved without an exception", "statement": "If the arguments are accepted by the validation, scattering dissipates energy, the beam is not resonant with an eigenvalue and the surface does not amplify, then pydisort returns (no LinAlgError, shape error or other exception), whatever uninitialised memory holds, and the returned functions can be evaluated everywhere in the atmosphere; scattering dissipates whenever NLeg <= NQuad/2 and the coefficients are physical, or (for any NLeg) the delta-M scaled truncated phase function is nowhere negative; a reciprocal non-negative BDRF that reflects at most all of a uniform illumination does not amplify.", "quantifier": "For every well-posed argument list, every number of streams, layers and modes.", "why_tests_cant": "The inputs (layer count, stream count, real-valued optics and depths) form an infinite family; a test compares finitely many points against stored numbers.", "anchors": ["src/PythonicDISORT/pydisort.py:pydisort", "src/PythonicDISORT/_solve_for_gen_and_part_sols.py:_solve_for_gen_and_part_sols", "src/PythonicDISORT/_solve_for_coeffs.py:_solve_for_coeffs"]}
{"id": "C66", "title": "The discretised problem has one solution and the code returns it", "statement": "For a well-posed problem the boundary value problem of every Fourier mode has at most one solution, so whatever field solves it (for example a closed form) is exactly what u0 and u return.", "quantifier": "For every well-posed argument list and every candidate field.", "why_tests_cant": "The inputs (layer count, stream count, real-valued optics and depths) form an infinite family; a test compares finitely many points against stored numbers.", "anchors": ["src/PythonicDISORT/_assemble_intensity_and_fluxes.py:u0", "src/PythonicDISORT/_assemble_intensity_and_fluxes.py:u", "src/PythonicDISORT/_solve_for_coeffs.py:_solve_for_coeffs"]}
{"id": "C67", "title": "Antiderivative of the intensity corrections", "statement": "With is_antiderivative_wrt_tau=True the NT corrections (TMS and IMS) have the corrections themselves as their derivative with respect to tau in every layer.", "quantifier": "For every atmosphere in which the corrections are active, every stream, azimuth and depth.", "why_tests_cant": "The inputs (layer count, stream count, real-valued optics and depths) form an infinite family; a test compares finitely many points against stored numbers.", "anchors": ["src/PythonicDISORT/pydisort.py:TMS_correction", "src/PythonicDISORT/pydisort.py:IMS_correction"]}
{"id": "C68", "title": "The scans of the TMS correction do not divide by numbers that underflow", "statement": "The numbers decay_prod by which TMS_correction divides stay above the smallest positive double for every accepted atmosphere, so that no 0/0 arises where the exact quotient is a moderate number.", "quantifier": "For every accepted atmosphere.", "why_tests_cant": "Stored reference cases are optically thin enough.", "anchors": ["src/PythonicDISORT/pydisort.py:TMS_correction"]}
{"id": "C69", "title": "Blackbody contribution to the boundary conditions", "statement": "blackbody_contrib_to_BCs(T, band) is the integral of the Planck function over the band; it is strictly increasing in T for a band of positive width and additive when the band is split.", "quantifier": "For every temperature, every band of positive wavenumbers, every quad_vec that returns the integral of a continuous function.", "why_tests_cant": "Tests use one or two temperatures and bands.", "anchors": ["src/PythonicDISORT/subroutines.py:blackbody_contrib_to_BCs"]}
{"id": "C70", "title": "Isothermal enclosure", "statement": "If the atmosphere, the surface and the surroundings all have the same temperature (isotropic source equal to B everywhere, illumination from above B, surface emission Kirchhoff's emissivity times B, no beam), every intensity is B and the net flux vanishes at every depth; with the package's own helpers (generate_s_poly_coeffs, blackbody_contrib_to_BCs, generate_emissivity_from_BDRF) used for the inputs the same holds.", "quantifier": "For every atmosphere, number of layers and streams, every fair surface, temperature and band.", "why_tests_cant": "The inputs (layer count, stream count, real-valued optics and depths) form an infinite family; a test compares finitely many points against stored numbers.", "anchors": ["src/PythonicDISORT/pydisort.py:pydisort", "src/PythonicDISORT/subroutines.py:generate_s_poly_coeffs", "src/PythonicDISORT/subroutines.py:blackbody_contrib_to_BCs", "src/PythonicDISORT/subroutines.py:generate_emissivity_from_BDRF"]}
{"id": "C71", "title": "Positivity and monotonicity", "statement": "With non-negative scattering (truncated, delta-M scaled phase function between streams), non-negative surface and sources, u0 and the fluxes are non-negative; and if no source of one run exceeds that of another, no intensity does either.", "quantifier": "For every atmosphere, every pair of source sets, every depth and stream.", "why_tests_cant": "The inputs (layer count, stream count, real-valued optics and depths) form an infinite family; a test compares finitely many points against stored numbers.", "anchors": ["src/PythonicDISORT/_assemble_intensity_and_fluxes.py:u0", "src/PythonicDISORT/_assemble_intensity_and_fluxes.py:flux_up", "src/PythonicDISORT/_assemble_intensity_and_fluxes.py:flux_down"]}
{"id": "C72", "title": "Nothing is brighter than the hottest body", "statement": "Without beam, if no source exceeds what a black body of intensity B at the same place would provide, then no azimuthally averaged intensity exceeds B and no flux exceeds pi*B.", "quantifier": "For every atmosphere, every surface that does not amplify, every B.", "why_tests_cant": "The inputs (layer count, stream count, real-valued optics and depths) form an infinite family; a test compares finitely many points against stored numbers.", "anchors": ["src/PythonicDISORT/_assemble_intensity_and_fluxes.py:u0", "src/PythonicDISORT/_assemble_intensity_and_fluxes.py:flux_up", "src/PythonicDISORT/_assemble_intensity_and_fluxes.py:flux_down"]}
{"id": "C73", "title": "Reciprocity", "statement": "For two illuminations of the boundaries (no beam, no internal source) over a reciprocal surface, the light of the first weighted with the response to the second equals the light of the second weighted with the response to the first.", "quantifier": "For every atmosphere, number of layers and streams, every pair of boundary illuminations.", "why_tests_cant": "The inputs (layer count, stream count, real-valued optics and depths) form an infinite family; a test compares finitely many points against stored numbers.", "anchors": ["src/PythonicDISORT/_assemble_intensity_and_fluxes.py:u0", "src/PythonicDISORT/_solve_for_coeffs.py:_solve_for_coeffs"]}
{"id": "C74", "title": "No more light leaves than enters", "statement": "Without internal emission and with non-negative scattering, the net upward flux does not decrease with depth; over a surface that emits nothing and returns at most what it receives, at no depth more light goes up than comes down, in particular the atmosphere reflects at most the incident flux.", "quantifier": "For every atmosphere, number of layers and streams, and every pair of depths.", "why_tests_cant": "The inputs (layer count, stream count, real-valued optics and depths) form an infinite family; a test compares finitely many points against stored numbers.", "anchors": ["src/PythonicDISORT/_assemble_intensity_and_fluxes.py:flux_up", "src/PythonicDISORT/_assemble_intensity_and_fluxes.py:flux_down"]}
{"id": "C75", "title": "The intensity solves the transfer equation with all azimuths", "statement": "With NFourier = NLeg (the default) and when the 1e-8 threshold skips no scattering, u(tau, phi) (NT_cor = False) satisfies in every stream and at every azimuth the transfer equation before the Fourier expansion: mu*du/dtau = (1-omega*f)*(u - omega*/(4 pi) * sum_j w_j int_0^2pi p*(nu) u dphi' - omega* I0/(4 pi) p*(nu_0) exp(-tau*/mu0)) - (1-omega) S, where p* is the delta-M scaled phase function truncated to NLeg terms and nu the cosine of the scattering angle; at the top it is b_neg and at the bottom b_pos plus the reflection integral of the BDRF with the supplied Fourier modes.", "quantifier": "For every accepted input with successful solves, every layer, depth, stream and azimuth.", "why_tests_cant": "Relates the Fourier/associated Legendre bookkeeping of all modes to one integral equation (needs the addition theorem for spherical harmonics); tests compare with stored numbers.", "anchors": ["src/PythonicDISORT/_assemble_intensity_and_fluxes.py:u", "src/PythonicDISORT/_solve_for_gen_and_part_sols.py:_solve_for_gen_and_part_sols", "src/PythonicDISORT/_solve_for_coeffs.py:_solve_for_coeffs"]}
{"id": "C76", "title": "No intensity is negative", "statement": "If the delta-M scaled truncated phase function is nowhere negative, the BDRF is nowhere negative and reflects at most all of a uniform illumination, and the internal source and boundary values are non-negative, then u(tau, phi) (NT_cor = False, NFourier = NLeg, no scattering skipped by the 1e-8 threshold) is non-negative at every depth, stream and azimuth.", "quantifier": "For every such atmosphere, every number of streams and layers, every tau and phi.", "why_tests_cant": "The inputs (layer count, stream count, real-valued optics and depths) form an infinite family; a test compares finitely many points against stored numbers.", "anchors": ["src/PythonicDISORT/_assemble_intensity_and_fluxes.py:u", "src/PythonicDISORT/pydisort.py:pydisort"]}
{"id": "C77", "title": "Delta-M scaling equals scaling the inputs by hand", "statement": "Calling pydisort with f_arr gives at corresponding depths the same mean intensity, upward flux, total downward flux and (NT_cor = False) intensity as calling it with f_arr = 0 on the scaled optical depths tau*, single-scattering albedos omega*, Legendre coefficients g*, with the internal source rewritten as a polynomial in tau*.", "quantifier": "For every well-posed input with admissible scaled coefficients, every layer and depth in it, every stream and azimuth.", "why_tests_cant": "The inputs (layer count, stream count, real-valued optics and depths) form an infinite family; a test compares finitely many points against stored numbers.", "anchors": ["src/PythonicDISORT/pydisort.py:delta-M scaling", "src/PythonicDISORT/_assemble_intensity_and_fluxes.py:_assemble_intensity_and_fluxes"]}
{"id": "C78", "title": "Rotating the beam rotates the light", "statement": "Changing phi0 to any other azimuth in [0, 2 pi) leaves success of the call, u0 and the fluxes unchanged and turns u (with or without NT corrections, and the Fourier error estimate) by the difference: u'(tau, phi + phi0' - phi0) = u(tau, phi).", "quantifier": "For every successful call, every new azimuth, all arguments tau and phi and both values of is_antiderivative_wrt_tau.", "why_tests_cant": "The inputs (layer count, stream count, real-valued optics and depths) form an infinite family; a test compares finitely many points against stored numbers.", "anchors": ["src/PythonicDISORT/_assemble_intensity_and_fluxes.py:u", "src/PythonicDISORT/pydisort.py:u_corrected"]}
{"id": "C79", "title": "Turning the atmosphere upside down mirrors the light", "statement": "Without beam and reflecting surface, reversing the layers, exchanging b_pos and b_neg and mirroring the internal source gives at depth tau_bottom - t the intensities of the original problem at t in the opposite directions; upward and downward fluxes change places.", "quantifier": "For every well-posed input of this kind, every depth, stream and azimuth.", "why_tests_cant": "The inputs (layer count, stream count, real-valued optics and depths) form an infinite family; a test compares finitely many points against stored numbers.", "anchors": ["src/PythonicDISORT/pydisort.py:pydisort", "src/PythonicDISORT/_solve_for_coeffs.py:_solve_for_coeffs"]}
{"id": "C80", "title": "Only the physics matters", "statement": "Two calls that describe the same physical problem return the same results although they may differ in: use_banded_solver_NLayers, NFourier (for u0 and the fluxes), phase function and f of layers with omega = 0, Legendre coefficients beyond NLeg, NLeg if the additional coefficients equal f, the beam direction when I0 = 0, unused BDRF modes, the form of the boundary values (number, vector, matrix), and padding of s_poly_coeffs.", "quantifier": "For every pair of well-posed inputs describing the same problem.", "why_tests_cant": "The number of pairs is unbounded; tests compare a few pairs.", "anchors": ["src/PythonicDISORT/pydisort.py:pydisort", "src/PythonicDISORT/_solve_for_coeffs.py:_solve_for_coeffs", "src/PythonicDISORT/_solve_for_gen_and_part_sols.py:_solve_for_gen_and_part_sols"]}
{"id": "C81", "title": "Cutting the atmosphere at an interface", "statement": "The layers above an interface, lit from below by the upward mean intensities computed there, and the layers below, lit from above by the attenuated beam and the computed downward mean intensities, give the same u0 and fluxes as the whole atmosphere.", "quantifier": "For every well-posed input, every interface and every depth.", "why_tests_cant": "The inputs (layer count, stream count, real-valued optics and depths) form an infinite family; a test compares finitely many points against stored numbers.", "anchors": ["src/PythonicDISORT/_solve_for_coeffs.py:_solve_for_coeffs", "src/PythonicDISORT/_assemble_intensity_and_fluxes.py:u0"]}
{"id": "C82", "title": "Brighter sources, brighter light in every direction", "statement": "If neither the delta-M scaled truncated phase function nor the BDRF is negative anywhere and no source of one run exceeds that of the other (beam, internal source, boundary values), then u(tau, phi) of the first run (NT_cor = False, NFourier = NLeg, no scattering skipped by the 1e-8 threshold) nowhere exceeds that of the second.", "quantifier": "For every atmosphere, every pair of source sets, every depth, stream and azimuth.", "why_tests_cant": "The inputs (layer count, stream count, real-valued optics and depths) form an infinite family; a test compares finitely many points against stored numbers.", "anchors": ["src/PythonicDISORT/_assemble_intensity_and_fluxes.py:u", "src/PythonicDISORT/pydisort.py:pydisort"]}
{"id": "C83", "title": "Changes of the thermal sources are not amplified", "statement": "If internal source, illumination from above and surface emission change by at most what a black body of intensity eps would provide (surface: (1 - reflectance) * eps), with the same beam, then every intensity (u0, and u with or without NT corrections) changes by at most eps and every flux by at most pi*eps.", "quantifier": "For every well-posed atmosphere with non-negative scattering and a fair surface, every pair of source sets, eps >= 0, depth, stream and azimuth.", "why_tests_cant": "The inputs (layer count, stream count, real-valued optics and depths) form an infinite family; a test compares finitely many points against stored numbers.", "anchors": ["src/PythonicDISORT/_assemble_intensity_and_fluxes.py:u", "src/PythonicDISORT/_assemble_intensity_and_fluxes.py:u0", "src/PythonicDISORT/_assemble_intensity_and_fluxes.py:flux_up", "src/PythonicDISORT/_assemble_intensity_and_fluxes.py:flux_down"]}
{"id": "C84", "title": "autograd_compatible does not change the results", "statement": "Whatever u(tau, phi, is_antiderivative_wrt_tau) returns with autograd_compatible=False, it returns with autograd_compatible=True: concatenations instead of in-place additions give the same array. It raises in the same cases too (for NQuad = 2 with NT corrections, where autograd_compatible=False raises unless there is one azimuth, only for the intensity itself and a non-empty array of azimuths).", "quantifier": "For every call of pydisort that returns, every array of depths and azimuths, with and without NT corrections, intensity and antiderivative.", "why_tests_cant": "The test suite runs a handful of derivative checks with autograd; shapes and options are unbounded.", "anchors": ["src/PythonicDISORT/_assemble_intensity_and_fluxes.py:u", "src/PythonicDISORT/pydisort.py:TMS_correction", "src/PythonicDISORT/pydisort.py:u_corrected"]}
{"id": "C85", "title": "Axes of the returned arrays", "statement": "u, u0, flux_up and flux_down return arrays with the axes mu, tau, phi (as applicable) in this order with those of length one dropped, entries in place; in particular adding the squeezed NT corrections to the squeezed intensity adds the right entries. The direct flux is a scalar 0 without a beam.", "quantifier": "For every call of pydisort that returns, every array of depths in the atmosphere and every array of azimuths.", "why_tests_cant": "Number and lengths of the axes are unbounded; broadcasting errors show only for particular lengths.", "anchors": ["src/PythonicDISORT/_assemble_intensity_and_fluxes.py:u", "src/PythonicDISORT/_assemble_intensity_and_fluxes.py:u0", "src/PythonicDISORT/_assemble_intensity_and_fluxes.py:flux_up", "src/PythonicDISORT/_assemble_intensity_and_fluxes.py:flux_down", "src/PythonicDISORT/pydisort.py:u_corrected"]}
{"id": "C86", "title": "Fourier error estimate of the antiderivative", "statement": "u(tau, phi, is_antiderivative_wrt_tau=True, return_Fourier_error=True) returns, as the last entry, the maximum over depths, directions and azimuths of |last Fourier term of the antiderivative| / |antiderivative| (0 where the antiderivative is negligible): the estimate of C38 applied to the antiderivative.", "quantifier": "For every problem whose call of pydisort returns, all arrays of depths in the atmosphere and of azimuths.", "why_tests_cant": "The axes are only mixed up for particular numbers of layers, streams and depths; for matching lengths wrong numbers are returned silently.", "anchors": ["src/PythonicDISORT/_assemble_intensity_and_fluxes.py:u"]}
{"id": "C87", "title": "Warnings", "statement": "pydisort warns exactly when a documented condition holds: a zeroth Legendre coefficient of a scattering layer is not 1 (and is then replaced), more than 64 Fourier modes, a delta-M scaled single-scattering albedo above 1 - 1e-6, a delta-M scaled Legendre coefficient in use (not the zeroth) above 0.95 in magnitude. Each warning is issued at most once. Leg_coeffs_all of the caller is modified exactly when the first warning is issued.", "quantifier": "For every call of pydisort that returns.", "why_tests_cant": "The conditions are thresholds on arrays of unbounded size.", "anchors": ["src/PythonicDISORT/pydisort.py:pydisort"]}
{"id": "C88", "title": "Less absorption, more light", "statement": "If single-scattering albedos increase (in layers without internal emission) or the azimuthally averaged BDRF increases, with everything else equal, then no azimuthally averaged intensity, upward flux or diffuse downward flux decreases at any depth (delta-M scaled or not); the direct flux is unchanged.", "quantifier": "For every pair of calls of pydisort that return, differing in omega_arr and BDRF_Fourier_modes only, with non-negative scattering and sources and a surface that reflects at most all light; all depths and streams.", "why_tests_cant": "The inputs (layer count, stream count, real-valued optics and depths) form an infinite family; a test compares finitely many points against stored numbers.", "anchors": ["src/PythonicDISORT/pydisort.py:pydisort", "src/PythonicDISORT/_assemble_intensity_and_fluxes.py:u0", "src/PythonicDISORT/_assemble_intensity_and_fluxes.py:flux_up", "src/PythonicDISORT/_assemble_intensity_and_fluxes.py:flux_down"]}
{"id": "C89", "title": "Less absorption, more light in every direction", "statement": "As C88 for the intensity at all azimuths: if single-scattering albedos increase (in layers without internal emission) or the BDRF increases at some pair of directions, and the delta-M scaled truncated phase function is nowhere negative, then u(tau, phi) (NT_cor = False, NFourier = NLeg, no scattering skipped by the 1e-8 threshold) nowhere decreases.", "quantifier": "For every pair of calls of pydisort that return, differing in omega_arr and BDRF_Fourier_modes only; all depths, streams and azimuths.", "why_tests_cant": "The inputs (layer count, stream count, real-valued optics and depths) form an infinite family; a test compares finitely many points against stored numbers.", "anchors": ["src/PythonicDISORT/pydisort.py:pydisort", "src/PythonicDISORT/_assemble_intensity_and_fluxes.py:u"]}
{"id": "C90", "title": "What lies below or above adds light", "statement": "Cut an atmosphere at a layer boundary. The upper layers over a black, dark ground have nowhere more mean intensity, flux (up, diffuse down) or intensity than within the whole atmosphere; the lower layers under a black sky, lit by the attenuated beam only, have nowhere more mean intensity, upward flux, total (diffuse + direct) downward flux or intensity than within the whole atmosphere.", "quantifier": "For every well-posed atmosphere with non-negative scattering and sources and a fair surface, every interior layer boundary, depth, stream; intensities also for every azimuth (NT_cor = False, NFourier = NLeg, non-negative truncated phase function).", "why_tests_cant": "The inputs (layer count, stream count, real-valued optics and depths) form an infinite family; a test compares finitely many points against stored numbers.", "anchors": ["src/PythonicDISORT/pydisort.py:pydisort", "src/PythonicDISORT/_assemble_intensity_and_fluxes.py:u", "src/PythonicDISORT/_assemble_intensity_and_fluxes.py:u0", "src/PythonicDISORT/_assemble_intensity_and_fluxes.py:flux_up", "src/PythonicDISORT/_assemble_intensity_and_fluxes.py:flux_down"]}
{"id": "C91", "title": "Resonant beam directions", "statement": "A beam direction is resonant if, in some layer and Fourier mode, light can decay with depth exactly as the direct beam does; the particular solution for the beam then does not exist in the form assumed. If the problem without the beam is well-posed, at most NFourier * NLayers * NQuad / 2 directions are resonant; from all others pydisort returns the solution, from a resonant one it raises LinAlgError.", "quantifier": "For every atmosphere that is well-posed without the beam, every beam direction in (0, 1].", "why_tests_cant": "Exact resonances are isolated points that no sampled test hits.", "anchors": ["src/PythonicDISORT/_solve_for_gen_and_part_sols.py:_solve_for_gen_and_part_sols", "src/PythonicDISORT/pydisort.py:pydisort"]}
{"id": "C92", "title": "Every quotient and square root is defined", "statement": "In a call that passes the input checks and is well-posed (no f = 1, no resonance, at most 21 source coefficients, regular systems) no denominator whose value depends on the input is zero and no radicand is negative, neither in the solver nor in the returned functions nor in the corrections of Nakajima and Tanaka; so no value is nan or inf in exact arithmetic.", "quantifier": "For every well-posed call, every layer, Fourier mode and stream.", "why_tests_cant": "Zeros of denominators are isolated; sampled inputs do not hit them.", "anchors": ["src/PythonicDISORT/pydisort.py:pydisort", "src/PythonicDISORT/_assemble_intensity_and_fluxes.py:_assemble_intensity_and_fluxes", "src/PythonicDISORT/_solve_for_gen_and_part_sols.py:_solve_for_gen_and_part_sols", "src/PythonicDISORT/subroutines.py:_mathscr_v"]}
{"id": "C93", "title": "Comparison with reference results", "statement": "_compare returns the pointwise differences from the reference fluxes and intensities (streams reordered and chosen by the mask) and their ratios to the reference values, and prints the largest of each, for intensities with a depth at which it occurs. A largest ratio below eps means that every value agrees with its reference value to relative accuracy eps. Reference intensities with another number of entries, and an index that names no stream, are refused.", "quantifier": "For every call of pydisort that returns, all reference arrays of any size, masks and orders of the streams.", "why_tests_cant": "The comparison is itself what the tests rely on; a fault in it makes them pass.", "anchors": ["src/PythonicDISORT/subroutines.py:_compare"]}
{"id": "C94", "title": "Axes of interpolated intensities, actinic fluxes and Planck values", "statement": "interpolate(u)(mu, tau, phi) returns an array with the axes mu, tau, phi, interpolate(u0)(mu, tau) one with the axes mu, tau, the actinic fluxes one value per depth and Planck one value per temperature, always without the axes of length one and with every entry in its place: the interpolation of what u or u0 computes at that depth and azimuth, the hemispheric integral of u0 (plus downward what u0 reports as reclassified), Planck's law. Cosines outside [-1, 1] are refused.", "quantifier": "For every call of pydisort that returns, all arrays of directions, depths and azimuths, in particular of length one.", "why_tests_cant": "Squeezed axes matter only for particular combinations of lengths, which are unbounded.", "anchors": ["src/PythonicDISORT/subroutines.py:interpolate", "src/PythonicDISORT/subroutines.py:generate_diff_act_flux_funcs", "src/PythonicDISORT/subroutines.py:Planck"]}
{"id": "C95", "title": "Antiderivatives of the actinic fluxes", "statement": "flux_act_up(tau, True) and flux_act_down_diffuse(tau, True) are antiderivatives with respect to tau of flux_act_up(tau) and flux_act_down_diffuse(tau) in every layer, including the reclassified part of the delta-M scaled beam.", "quantifier": "For every call of pydisort that returns and every array of depths in the atmosphere.", "why_tests_cant": "An antiderivative is a statement about a continuum of depths.", "anchors": ["src/PythonicDISORT/subroutines.py:generate_diff_act_flux_funcs", "src/PythonicDISORT/_assemble_intensity_and_fluxes.py:u0"]}
{"id": "C96", "title": "Neighbouring layers and the net flux", "statement": "Cut an atmosphere at a layer boundary. In the upper layers the net downward flux (diffuse + direct - up) within the whole atmosphere is nowhere larger than in the upper layers alone over a black, dark ground. In the lower layers, over a surface that returns at most what it receives, it is nowhere smaller than in the lower layers alone under a black sky and the attenuated beam. If the lower layers emit nothing, the net downward flux at any depth in them, in particular what reaches the ground on balance, is at most the downward flux the upper layers alone let through: making an atmosphere thicker from below never increases transmission.", "quantifier": "For every well-posed atmosphere with non-negative scattering and sources and a fair surface, every interior layer boundary and every depth.", "why_tests_cant": "The inputs (layer count, stream count, real-valued optics and depths) form an infinite family; a test compares finitely many points against stored numbers.", "anchors": ["src/PythonicDISORT/pydisort.py:pydisort", "src/PythonicDISORT/_assemble_intensity_and_fluxes.py:flux_up", "src/PythonicDISORT/_assemble_intensity_and_fluxes.py:flux_down"]}
{"id": "C97", "title": "The vectorised particular solution treats every depth on its own", "statement": "Called with an array of depths in any order and with repetitions, restricted to the layers that occur by np.unique as in the evaluation functions, _mathscr_v returns an array whose entry for a stream and a depth is the value at that depth of the component of the polynomial solution of the mode-0 system for the source of the layer of that depth; this polynomial solution is unique, and neither the other depths nor the uninitialised factorial array influence the entry.", "quantifier": "For every number of layers, streams, selected rows, depths and 1 to 21 coefficients, every depth array and every content of the uninitialised array.", "why_tests_cant": "The einsum contractions, fancy indices and reversed coefficient orders agree with the formula for every shape, not only for the shapes in the tests.", "anchors": ["src/PythonicDISORT/subroutines.py:_mathscr_v", "src/PythonicDISORT/_assemble_intensity_and_fluxes.py:u", "src/PythonicDISORT/_assemble_intensity_and_fluxes.py:u0", "src/PythonicDISORT/_assemble_intensity_and_fluxes.py:flux_up", "src/PythonicDISORT/_assemble_intensity_and_fluxes.py:flux_down"]}
{"id": "C98", "title": "The vectorised evaluation functions treat every depth on their own", "statement": "u, u0, flux_up and flux_down, called with an array of depths in any order and with repetitions, return an array whose entry for a depth is the value at that depth of the intensity, the azimuthal mean or the flux of the solution: the search for the layer with argmax, the fancy indices, slices, concatenations, einsums and the in-place addition of the particular solution to mode zero mix neither depths nor layers, streams or modes, and no uninitialised memory is used. One depth outside the atmosphere makes the whole call raise ValueError.", "quantifier": "For every call of pydisort that returns, every array of depths and azimuths, both values of is_antiderivative_wrt_tau.", "why_tests_cant": "The array operations must fit together for every combination of lengths of the axes; with equal lengths a mixed-up axis broadcasts without an error.", "anchors": ["src/PythonicDISORT/_assemble_intensity_and_fluxes.py:u", "src/PythonicDISORT/_assemble_intensity_and_fluxes.py:u0", "src/PythonicDISORT/_assemble_intensity_and_fluxes.py:flux_up", "src/PythonicDISORT/_assemble_intensity_and_fluxes.py:flux_down"]}
{"id": "C99", "title": "The whole of u, with the NT corrections, treats every depth and azimuth on its own", "statement": "The function u that pydisort returns, with the TMS and IMS corrections of NT_cor, with or without autograd_compatible, called with arrays of depths (any order, repetitions) and azimuths, returns an array with axes streams, depths, azimuths (axes of length one removed) whose entry is the intensity for that stream, depth and azimuth alone: np.unique and its inverse, the cumulative sums over reversed layers, the tests that skip an addition, the two ways of adding to half of the streams and the final squeezes mix nothing up. The program on arrays also raises exactly the exceptions of the pointwise model, in particular ValueError when one depth lies outside the atmosphere.", "quantifier": "For every call of pydisort that returns, every array of depths and azimuths, both values of autograd_compatible and of is_antiderivative_wrt_tau; for the entries: at least one depth, and with two streams exactly one azimuth, when NT_cor is set (C45).", "why_tests_cant": "The corrections depend on which layers occur among the depths asked for; that no combination of depths changes the value at one of them is a statement about all arrays.", "anchors": ["src/PythonicDISORT/pydisort.py:TMS_correction", "src/PythonicDISORT/pydisort.py:IMS_correction", "src/PythonicDISORT/pydisort.py:u_corrected", "src/PythonicDISORT/pydisort.py:pydisort"]}
{"id": "C100", "title": "Ignoring weak scattering costs little", "statement": "In a layer in which no weighted scattering coefficient exceeds 1e-8 the code ignores scattering in the azimuthal mean. Compared with a solution of the equations in which nothing is ignored, the azimuthally averaged intensities are off by at most NLeg 1e-8 (2 B + I0 / 2 pi), where B bounds the intensities, and each flux by at most pi times this, whatever the other layers, even thick and nearly conservative ones, and the surface. Thermal equilibrium holds up to 2e-8 NLeg B; it does not hold exactly.", "quantifier": "For every call that returns, every number of layers and streams, every exact solution, every depth and stream; non-negative scattering between the streams and a surface that returns at most what it receives.", "why_tests_cant": "The error of the shortcut is near rounding for the usual inputs; that no neighbouring layer amplifies it cannot be sampled.", "anchors": ["src/PythonicDISORT/_solve_for_gen_and_part_sols.py:_solve_for_gen_and_part_sols", "src/PythonicDISORT/_assemble_intensity_and_fluxes.py:u0", "src/PythonicDISORT/_assemble_intensity_and_fluxes.py:flux_up", "src/PythonicDISORT/_assemble_intensity_and_fluxes.py:flux_down"]}
{"id": "C101", "title": "Absorption screens distant sources", "statement": "Change the thermal sources in some neighbouring layers (and the radiation from above or the emission of the surface, where the layers reach there) by at most what a black body of intensity eps provides. At any depth every intensity, with or without the corrections, changes by at most eps exp(-A), where A is the absorption optical depth between this depth and the layers, and every diffuse flux by at most pi times this. The direct flux does not change.", "quantifier": "For every number of layers and streams, every pair of such sources, every depth, stream and azimuth; non-negative scattering between the streams and a surface that returns at most what it receives.", "why_tests_cant": "The decay compares two calls at every depth through arbitrary scattering in between; tests only compare a few depths of a few atmospheres.", "anchors": ["src/PythonicDISORT/pydisort.py:pydisort", "src/PythonicDISORT/_solve_for_coeffs.py:_solve_for_coeffs", "src/PythonicDISORT/_assemble_intensity_and_fluxes.py:u", "src/PythonicDISORT/_assemble_intensity_and_fluxes.py:u0", "src/PythonicDISORT/_assemble_intensity_and_fluxes.py:flux_up", "src/PythonicDISORT/_assemble_intensity_and_fluxes.py:flux_down"]}
{"id": "C102", "title": "What lies beyond an absorbing layer hardly matters", "statement": "Leave out everything below an interface, surface included. At every depth above it the azimuthally averaged intensity of each stream changes by at most D exp(-A), where D is the largest intensity that came up through the interface and A the absorption optical depth between the depth and the interface; each diffuse flux changes by at most pi times this and the direct flux not at all. Likewise for leaving out everything above an interface but its attenuation of the beam.", "quantifier": "For every number of layers and streams, every interface, every depth on the kept side and every stream, whatever the signs of the sources; non-negative scattering between the streams.", "why_tests_cant": "The bound must hold whatever is left out, so no finite set of atmospheres shows it.", "anchors": ["src/PythonicDISORT/pydisort.py:pydisort", "src/PythonicDISORT/_solve_for_coeffs.py:_solve_for_coeffs", "src/PythonicDISORT/_assemble_intensity_and_fluxes.py:u0", "src/PythonicDISORT/_assemble_intensity_and_fluxes.py:flux_up", "src/PythonicDISORT/_assemble_intensity_and_fluxes.py:flux_down"]}
{"id": "C103", "title": "A call owns its data", "statement": "A call depends on the contents its array arguments have at the time of the call and on nothing else: of the caller's arrays it changes none (except the first column of Leg_coeffs_all, see C29), and writing afterwards to an array that was passed in or handed out does not change what the returned functions return.", "quantifier": "For every memory content, every mixture of arrays, lists and numbers as arguments, every call whether it returns or raises, and every later change of memory by the caller.", "why_tests_cant": "It concerns every later write to every array, and sharing does not show in the values a test looks at right after the call.", "anchors": ["src/PythonicDISORT/pydisort.py:pydisort", "src/PythonicDISORT/pydisort.py:TMS_correction", "src/PythonicDISORT/_assemble_intensity_and_fluxes.py:u", "src/PythonicDISORT/_assemble_intensity_and_fluxes.py:u0", "src/PythonicDISORT/_assemble_intensity_and_fluxes.py:flux_up", "src/PythonicDISORT/_assemble_intensity_and_fluxes.py:flux_down"]}
{"id": "C104", "title": "Kirchhoff's law", "statement": "What an instrument outside sees of the sources inside equals what those sources would receive from the instrument if it sent light instead. In particular the intensity that layers and surface emit into a direction, times the flux that comes in from that direction in a second call, is the sum of the black body intensities times the fluxes absorbed by the layers and the surface; if all have the same temperature, the emissivity in a direction is one minus the albedo for light from that direction.", "quantifier": "For every atmosphere, surface with symmetric BDRF, number of streams, every pair of calls without beam and every direction of a stream.", "why_tests_cant": "It relates pairs of calls through an integral over depth.", "anchors": ["src/PythonicDISORT/pydisort.py:pydisort", "src/PythonicDISORT/_assemble_intensity_and_fluxes.py:u0", "src/PythonicDISORT/_assemble_intensity_and_fluxes.py:flux_up", "src/PythonicDISORT/_assemble_intensity_and_fluxes.py:flux_down"]}
{"id": "C105", "title": "Two streams give the two-stream approximation", "statement": "With NQuad = 2 and a single layer over black ground, the returned intensities and fluxes are the closed-form two-stream (quadrature) solution of the textbooks, with hyperbolic functions of the diffusion exponent, for diffuse light from above and below, a beam and a constant internal source, after delta-M scaling. In particular albedo and transmission for diffuse light are gamma2 sinh(kT)/(k cosh(kT) + gamma1 sinh(kT)) and k/(k cosh(kT) + gamma1 sinh(kT)).", "quantifier": "For every thickness, albedo, asymmetry, peak fraction, beam, boundary intensities and depth.", "why_tests_cant": "It is an identity of functions of seven real parameters.", "anchors": ["src/PythonicDISORT/pydisort.py:pydisort", "src/PythonicDISORT/_solve_for_gen_and_part_sols.py:_solve_for_gen_and_part_sols", "src/PythonicDISORT/_solve_for_coeffs.py:_solve_for_coeffs", "src/PythonicDISORT/_assemble_intensity_and_fluxes.py:u0", "src/PythonicDISORT/_assemble_intensity_and_fluxes.py:flux_up", "src/PythonicDISORT/_assemble_intensity_and_fluxes.py:flux_down"]}
{"id": "C106", "title": "Small changes of the optical properties have small effects", "statement": "For thermal calls (no beam, all sources non-negative and below those of a black body of intensity B) two calls that differ only in albedos, phase functions and peak fractions give azimuthally averaged intensities that differ by at most eps B and fluxes that differ by at most pi eps B, where eps bounds, layer by layer, the change of the stream-to-stream scattering relative to the absorption. If only the albedos differ, eps is the relative change of the co-albedo.", "quantifier": "For every number of layers and streams, all thicknesses, depths and pairs of optical properties.", "why_tests_cant": "A bound for all pairs of inputs; differences of sampled pairs say nothing about the others.", "anchors": ["src/PythonicDISORT/pydisort.py:pydisort", "src/PythonicDISORT/_solve_for_gen_and_part_sols.py:_solve_for_gen_and_part_sols", "src/PythonicDISORT/_solve_for_coeffs.py:_solve_for_coeffs", "src/PythonicDISORT/_assemble_intensity_and_fluxes.py:u0", "src/PythonicDISORT/_assemble_intensity_and_fluxes.py:flux_up", "src/PythonicDISORT/_assemble_intensity_and_fluxes.py:flux_down"]}
{"id": "C107", "title": "Delta-M scaling under floating-point rounding", "statement": "With rounding after every operation (any binary format with gradual underflow, any monotone rounding that is exact for numbers of the format) and inputs that are floating-point numbers: the check of the layer thicknesses is exact; the scale factors lie in [2^-p, 1]; the scaled albedos are at most the albedos and hence below one; the scaled zeroth Legendre coefficients are exactly one and the others at most one; the scaled boundaries do not decrease; when depths are rescaled, a depth inside a layer is scaled to at most the lower boundary of the layer and to at least the upper one up to rounding, so that the exponents of the homogeneous solution are not positive, respectively at most a few units of rounding; the quadrature nodes stay in (0, 1]; and rescaled sources are at most one. The exponents do not have the exact sign in general: with rounding to nearest in double precision one measured from the upper boundary can be positive.", "quantifier": "For every number of layers and all accepted inputs that are floating-point numbers, for every format and every way of rounding.", "why_tests_cant": "A rounding error at the edge (an albedo rounded up to one, a scale factor rounded down to zero) occurs for a few out of 2^64 inputs.", "anchors": ["src/PythonicDISORT/pydisort.py:pydisort", "src/PythonicDISORT/_assemble_intensity_and_fluxes.py:u", "src/PythonicDISORT/subroutines.py:Gauss_Legendre_quad", "src/PythonicDISORT/subroutines.py:transform_interval"]}
{"id": "C108", "title": "Discretisation error of the streams", "statement": "Compare the returned azimuthally averaged intensities with a field that solves the transfer equation for all directions (scattered and reflected light as integrals, not quadrature sums). If the quadrature integrates the light scattered by that field up to a fraction epsilon of the co-albedo of the layer, and the light it reflects up to a fraction epsilon of what the surface absorbs, then the returned intensities differ from it by at most epsilon at every depth and stream, however thick the atmosphere; the fluxes by at most pi epsilon plus the quadrature error of the flux integral. In particular a field that is a polynomial of low degree of the direction in either hemisphere is reproduced without any discretisation error.", "quantifier": "For every accepted atmosphere with a non-negative scattering kernel, every beam and source, every surface that reflects at most all of the light, every exact solution, every number of streams, every depth and stream.", "why_tests_cant": "The exact solution is known in closed form only in special cases; a test compares with a second discretised solver.", "anchors": ["src/PythonicDISORT/pydisort.py:pydisort", "src/PythonicDISORT/_solve_for_gen_and_part_sols.py:_solve_for_gen_and_part_sols", "src/PythonicDISORT/_solve_for_coeffs.py:_solve_for_coeffs", "src/PythonicDISORT/_assemble_intensity_and_fluxes.py:_assemble_intensity_and_fluxes", "src/PythonicDISORT/subroutines.py:Gauss_Legendre_quad"]}
{"id": "C109", "title": "Convergence with the number of streams", "statement": "Take an atmosphere with a fixed number of Legendre coefficients, a non-negative phase function and a surface that absorbs some of the light, and a field that solves its transfer equation for all directions. For every accuracy there is a number of streams beyond which every call that describes this atmosphere, with boundary values sampled at its quadrature angles, returns azimuthally averaged intensities and fluxes that are within this accuracy of the exact ones, uniformly in depth and direction.", "quantifier": "For every such atmosphere and exact solution, every accuracy, every number of streams from some number on, every depth and stream.", "why_tests_cant": "A limit cannot be observed; convergence tests stop at a few dozen streams and the field has no limit towards horizontal directions at the boundaries.", "anchors": ["src/PythonicDISORT/pydisort.py:pydisort", "src/PythonicDISORT/_solve_for_gen_and_part_sols.py:_solve_for_gen_and_part_sols", "src/PythonicDISORT/_solve_for_coeffs.py:_solve_for_coeffs", "src/PythonicDISORT/_assemble_intensity_and_fluxes.py:_assemble_intensity_and_fluxes", "src/PythonicDISORT/subroutines.py:Gauss_Legendre_quad"]}
{"id": "C110", "title": "The equation that is discretised has one and only one solution", "statement": "The transfer equation for all directions that pydisort discretises (azimuthal average, after delta-M scaling, with the Legendre coefficients kept) has a solution that is bounded, and continuous except for horizontal directions, whenever the call is accepted, no layer has f = 1, the phase function is non-negative, the surface absorbs some of the light and the illumination of the boundaries is continuous and bounded. There is only one.", "quantifier": "For every accepted atmosphere of this kind, with any number of layers, any beam, internal sources and surface, every depth and every direction except the horizontal.", "why_tests_cant": "A test sees a discretised approximation; it cannot show that there is something for it to converge to.", "anchors": ["src/PythonicDISORT/pydisort.py:pydisort", "src/PythonicDISORT/_solve_for_gen_and_part_sols.py:_solve_for_gen_and_part_sols", "src/PythonicDISORT/_solve_for_coeffs.py:_solve_for_coeffs"]}
{"id": "C111", "title": "Answers do not depend on the number of streams, if there are enough", "statement": "For every atmosphere with a fixed number of Legendre coefficients, a non-negative phase function and an absorbing surface, every continuous bounded illumination of the boundaries and every accuracy there is a number of streams such that any two calls that describe this atmosphere and use at least this many streams return fluxes that agree within the accuracy at every depth, and intensities that agree wherever the calls have a direction in common.", "quantifier": "For every such atmosphere, every accuracy, every pair of numbers of streams from some number on, every depth.", "why_tests_cant": "Tests compare a few numbers of streams on a few atmospheres.", "anchors": ["src/PythonicDISORT/pydisort.py:pydisort", "src/PythonicDISORT/_solve_for_gen_and_part_sols.py:_solve_for_gen_and_part_sols", "src/PythonicDISORT/_solve_for_coeffs.py:_solve_for_coeffs", "src/PythonicDISORT/_assemble_intensity_and_fluxes.py:_assemble_intensity_and_fluxes", "src/PythonicDISORT/subroutines.py:Gauss_Legendre_quad"]}
{"id": "C112", "title": "The transfer equation with all directions has one and only one solution", "statement": "The transfer equation of the documentation with nothing discretised and nothing expanded - polar angle and azimuth continuous, scattered and reflected light integrals over all directions - has a solution that is bounded, and continuous except for horizontal directions, whenever the call is accepted, no layer has f = 1, the scaled and truncated phase function is non-negative, the BDRF is continuous, non-negative and absorbs some of the light, it has no more Fourier modes than there are Legendre coefficients, and the illumination of the boundaries is continuous and bounded. There is only one.", "quantifier": "For every accepted atmosphere of this kind, with any number of layers, any beam, internal sources and BDRF, every depth, every azimuth and every polar direction except the horizontal.", "why_tests_cant": "A test sees a discretised approximation; it cannot show that there is something for it to converge to.", "anchors": ["src/PythonicDISORT/pydisort.py:pydisort", "src/PythonicDISORT/_solve_for_gen_and_part_sols.py:_solve_for_gen_and_part_sols", "src/PythonicDISORT/_solve_for_coeffs.py:_solve_for_coeffs"]}
{"id": "C113", "title": "With more and more streams the returned intensities converge to the true ones, at all azimuths", "statement": "For every atmosphere of C112 whose scattering is nowhere neglected and every accuracy there is a number of streams from which on the uncorrected intensities u(tau, phi) that pydisort returns with all Fourier modes agree with the solution of the transfer equation with all directions within the accuracy, at every depth, every azimuth and in every stream at once.", "quantifier": "For every such atmosphere, every accuracy, every number of streams from some number on, every depth, azimuth and stream.", "why_tests_cant": "Tests compare a few numbers of streams, a few azimuths and a few atmospheres against other discretised solvers.", "anchors": ["src/PythonicDISORT/pydisort.py:pydisort", "src/PythonicDISORT/_solve_for_gen_and_part_sols.py:_solve_for_gen_and_part_sols", "src/PythonicDISORT/_solve_for_coeffs.py:_solve_for_coeffs", "src/PythonicDISORT/_assemble_intensity_and_fluxes.py:_assemble_intensity_and_fluxes", "src/PythonicDISORT/subroutines.py:Gauss_Legendre_quad"]}
{"id": "C114", "title": "Intensities in nearby directions agree, whatever the number of streams", "statement": "For every atmosphere of C113, every accuracy and every distance from the horizon there are a number of streams and a tolerance such that any two calls that describe this atmosphere with at least this many streams return intensities that agree within the accuracy whenever the depths, the azimuths and the cosines of the polar angles at which they are taken agree within the tolerance.", "quantifier": "For every such atmosphere, every accuracy, every pair of numbers of streams from some number on, all depths, azimuths and streams away from the horizon.", "why_tests_cant": "Tests compare a few numbers of streams, and the streams of different calls never coincide.", "anchors": ["src/PythonicDISORT/pydisort.py:pydisort", "src/PythonicDISORT/_solve_for_gen_and_part_sols.py:_solve_for_gen_and_part_sols", "src/PythonicDISORT/_solve_for_coeffs.py:_solve_for_coeffs", "src/PythonicDISORT/_assemble_intensity_and_fluxes.py:_assemble_intensity_and_fluxes", "src/PythonicDISORT/subroutines.py:Gauss_Legendre_quad"]}
{"id": "C115", "title": "Truncation and delta-M scaling become harmless as the number of coefficients grows", "statement": "Take the transfer equation before truncation and delta-M scaling: every layer has a non-negative phase function with infinitely many Legendre coefficients (absolutely convergent series), nothing is scaled, and the directions are continuous. For every accuracy there is a number of coefficients from which on every call that uses the leading coefficients of these phase functions, with as many streams as pydisort demands for them and with forward peaks f small compared with NLeg^-2, returns zeroth mode, upward flux and diffuse and direct downward flux within the accuracy of that equation, at all depths and in all streams. If the coefficients decay faster than k^-2, then this holds for the usual peaks f = g_NLeg and for f = 0.", "quantifier": "For every atmosphere, every sequence of Legendre coefficients, every accuracy, every number of coefficients from some number on, every admissible number of streams, and every depth and stream.", "why_tests_cant": "Tests compare a few truncations of a few phase functions; none can reach the limit.", "anchors": ["src/PythonicDISORT/pydisort.py:pydisort", "src/PythonicDISORT/_solve_for_gen_and_part_sols.py:_solve_for_gen_and_part_sols", "src/PythonicDISORT/_solve_for_coeffs.py:_solve_for_coeffs", "src/PythonicDISORT/_assemble_intensity_and_fluxes.py:_assemble_intensity_and_fluxes", "src/PythonicDISORT/subroutines.py:Gauss_Legendre_quad"]}
{"id": "C116", "title": "The untruncated transfer equation has one and only one solution", "statement": "The transfer equation of C115 - all Legendre coefficients, no scaling, continuous directions, averaged over azimuth - has a solution that is bounded, and continuous except for horizontal directions, for every accepted atmosphere whose phase functions are non-negative and whose surface absorbs some of the light, under continuous and bounded illumination. There is only one.", "quantifier": "For every accepted atmosphere of this kind, with any number of layers, any beam, internal sources and surface, every depth and every direction except the horizontal.", "why_tests_cant": "A test sees truncated and discretised approximations only.", "anchors": ["src/PythonicDISORT/pydisort.py:pydisort", "src/PythonicDISORT/_solve_for_gen_and_part_sols.py:_solve_for_gen_and_part_sols", "src/PythonicDISORT/_solve_for_coeffs.py:_solve_for_coeffs"]}
{"id": "C117", "title": "In all directions, the untruncated transfer equation has one and only one solution", "statement": "Take the transfer equation before every approximation: polar angles and azimuths are continuous, the phase functions keep all their Legendre coefficients, and nothing is delta-M scaled. It has a solution that is bounded, periodic in azimuth, and continuous except for horizontal directions, for every accepted atmosphere whose phase functions are non-negative with absolutely convergent Legendre series, above a surface with a continuous BDRF that absorbs some of the light, under continuous and bounded illumination. There is only one.", "quantifier": "For every accepted atmosphere of this kind, with any number of layers, any beam, internal sources and BDRF modes, every depth, every azimuth, and every polar direction except the horizontal.", "why_tests_cant": "A test sees truncated and discretised approximations only.", "anchors": ["src/PythonicDISORT/pydisort.py:pydisort", "src/PythonicDISORT/_solve_for_gen_and_part_sols.py:_solve_for_gen_and_part_sols", "src/PythonicDISORT/_solve_for_coeffs.py:_solve_for_coeffs"]}
{"id": "C118", "title": "The equation that is solved when Fourier modes are dropped", "statement": "pydisort drops azimuthal modes of the phase function in two ways: it uses only NFourier of them, and it ignores scattering in modes none of whose coefficients exceeds 1e-8. Whatever is dropped, the returned intensities solve at all azimuths the transfer equation with the part of the phase function that is left. That part differs from the truncated, scaled phase function by at most 2e-8 for every mode used, plus the coefficients from NFourier on.", "quantifier": "For every call that returns intensities, any NFourier, any coefficients, every depth inside a layer, stream and azimuth; the bound holds for all pairs of directions.", "why_tests_cant": "A test compares intensities with a reference and cannot tell a dropped mode from rounding.", "anchors": ["src/PythonicDISORT/pydisort.py:pydisort", "src/PythonicDISORT/_solve_for_gen_and_part_sols.py:_solve_for_gen_and_part_sols", "src/PythonicDISORT/_assemble_intensity_and_fluxes.py:_assemble_intensity_and_fluxes"]}
{"id": "C119", "title": "With more coefficients, modes and streams the intensities at all azimuths approach the untruncated solution", "statement": "Let w solve the transfer equation before every approximation, and bound it by M. Every call that passes the leading Legendre coefficients of the same phase functions and asks for the same sun, surface and illumination returns intensities within eps + nu (M + I0/4pi)/(kappa - nu) of w at every depth, azimuth and stream, if it uses enough Fourier modes and its delta-M peaks are small compared with the inverse square of the number of coefficients. Here kappa is the least fraction absorbed by a layer or the surface, and nu bounds the scattering that the code ignores because its coefficients are below 1e-8. If the coefficients decay faster than the inverse square of their index, the usual peak f = g_NLeg is small enough.", "quantifier": "For every accepted atmosphere with non-negative phase functions whose Legendre series converge absolutely, above an absorbing surface with a continuous BDRF, every eps > 0, and all calls with at least the number of modes that goes with eps; NQuad, NLeg and NFourier are otherwise free.", "why_tests_cant": "Convergence is a statement about infinitely many calls, and the limit is not computable by the code.", "anchors": ["src/PythonicDISORT/pydisort.py:pydisort", "src/PythonicDISORT/_solve_for_gen_and_part_sols.py:_solve_for_gen_and_part_sols", "src/PythonicDISORT/_solve_for_coeffs.py:_solve_for_coeffs", "src/PythonicDISORT/_assemble_intensity_and_fluxes.py:_assemble_intensity_and_fluxes"]}
{"id": "C120", "title": "The threshold 1e-8 keeps the intensities from converging", "statement": "pydisort ignores scattering in an azimuthal mode none of whose coefficients exceeds 1e-8. If all coefficients beyond the zeroth are below this threshold and the surface does not prefer an azimuth, the returned intensities do not depend on azimuth at all, however oblique the beam and however many modes are requested. The exact solution does depend on azimuth then, unless scattering is isotropic. So there is an error, positive and the same for all sufficiently fine calls, that no number of streams, coefficients and modes removes: the last term of the bound in C119 cannot be omitted.", "quantifier": "For every such atmosphere with an oblique beam and anisotropic scattering, all calls with at least a certain number of streams; and a concrete atmosphere to which C117 and C119 apply.", "why_tests_cant": "The error is of the size of the threshold and a test with a tolerance above it cannot see that it stays.", "anchors": ["src/PythonicDISORT/_solve_for_gen_and_part_sols.py:_solve_for_gen_and_part_sols", "src/PythonicDISORT/pydisort.py:pydisort", "src/PythonicDISORT/_assemble_intensity_and_fluxes.py:_assemble_intensity_and_fluxes"]}
{"id": "C121", "title": "The intensity corrections are no larger than what was cut off", "statement": "With NT_cor the function u adds the TMS and IMS corrections to the Fourier series. Whatever the optics, these are at most I0 D/(pi sigma), where D bounds what truncation and delta-M scaling remove from the phase function of a layer (f in each of the NLeg used coefficients and the unused coefficients) and sigma is the least of the factors 1 - omega f. So corrected intensities come as near to the exact solution as uncorrected ones do in C119. They cannot be had with arbitrarily many streams, however: sooner or later a quadrature angle is within 1e-8 of mu0 and the call is refused.", "quantifier": "For every call in which the corrections are active and do not divide by zero, all depths, azimuths and streams, any number of layers; for every beam direction, all calls with at least a certain number of streams.", "why_tests_cant": "Bounds over all optics and all directions, including those near the beam where the formulas are nearly 0/0.", "anchors": ["src/PythonicDISORT/pydisort.py:pydisort", "src/PythonicDISORT/subroutines.py:calculate_nu"]}
{"id": "C122", "title": "The returned fluxes approach the energies carried by the untruncated intensity", "statement": "Average the solution of the untruncated transfer equation in all directions (C117) over azimuth. The average solves the untruncated azimuthally averaged equation (C116). Hence, with more and more coefficients and streams, the returned upward and diffuse downward fluxes approach the double integrals over polar angle and azimuth of mu times that intensity, the returned azimuthally averaged intensities approach its averages, and the direct flux equals I0 mu0 exp(-tau/mu0).", "quantifier": "For every accepted atmosphere with visible scattering, non-negative phase functions with absolutely convergent series and an absorbing surface (its BDRF may depend on the azimuth), every accuracy, every call with enough coefficients and small enough peaks, every depth and stream.", "why_tests_cant": "A test compares with other truncated calculations.", "anchors": ["src/PythonicDISORT/pydisort.py:pydisort", "src/PythonicDISORT/_assemble_intensity_and_fluxes.py:_assemble_intensity_and_fluxes"]}
{"id": "C123", "title": "Negative results disappear as the resolution grows", "statement": "The intensity that solves the untruncated transfer equation in all directions is nowhere negative if no source is; it does not decrease if sources increase; without a beam it does not exceed B if no source exceeds that of a black body of intensity B; it does not fall below B if no source does; and it is B everywhere if everything has the same temperature. Hence the returned fluxes and azimuthally averaged intensities are at least -eps for calls with enough coefficients, whether or not the truncated phase functions are negative somewhere. The same holds for the intensities at all azimuths, up to what the threshold on scattering can cause (C119).", "quantifier": "For every accepted atmosphere with non-negative phase functions with absolutely convergent series and an absorbing surface, all sources in order, every eps, every call with enough coefficients and small enough peaks, every depth, azimuth and stream.", "why_tests_cant": "No resolution used in a test shows that negative values become arbitrarily small for all atmospheres.", "anchors": ["src/PythonicDISORT/pydisort.py:pydisort", "src/PythonicDISORT/_assemble_intensity_and_fluxes.py:_assemble_intensity_and_fluxes", "src/PythonicDISORT/_solve_for_gen_and_part_sols.py:_solve_for_gen_and_part_sols"]}
{"id": "C124", "title": "Only finite numbers pass the checks", "statement": "If the checks on the arguments pass, all numbers among the arguments are finite: no NaN and no infinity.", "quantifier": "For all arguments with IEEE values, including NaN and infinities, and every accepted call.", "why_tests_cant": "Tests pass finite arguments.", "anchors": ["src/PythonicDISORT/pydisort.py:pydisort"]}
{"id": "C125", "title": "NaN and infinities that pass the checks are visible in the results", "statement": "If the incident intensity or a boundary condition contains NaN, all returned intensities and fluxes are NaN; if it contains infinity, none of them is finite. A depth NaN is not refused by the range check; the diffuse results at that depth and the direct flux of a beam are NaN, and the results at the other depths are not affected. At an azimuth that is NaN or infinite, or if the azimuth of the beam is, all intensities are NaN.", "quantifier": "For all arguments and all depths and azimuths with IEEE values, whatever the linear solvers return.", "why_tests_cant": "Tests pass finite arguments.", "anchors": ["src/PythonicDISORT/pydisort.py:pydisort", "src/PythonicDISORT/_assemble_intensity_and_fluxes.py:_assemble_intensity_and_fluxes"]}
{"id": "C126", "title": "In a thick atmosphere the surface does not matter", "statement": "If the internal source of the lowest layer stays bounded as the layer is continued downwards, the transfer equation of the atmosphere whose lowest layer never ends has exactly one bounded solution. Ending the lowest layer at depth T above any surface changes the azimuthally averaged intensities at depth t by at most the light coming up at T times exp(-absorption optical depth between t and T), and the upward and total downward flux by at most pi times this. As T grows beyond all bounds, above surfaces that do not amplify and emit a bounded amount, the returned intensities and fluxes converge to those of the atmosphere without bottom.", "quantifier": "For every atmosphere, number of layers and streams, every sequence of depths and of surfaces, every depth and stream; non-negative scattering between the streams.", "why_tests_cant": "A limit of infinitely many calls; tests use a few thick layers.", "anchors": ["src/PythonicDISORT/pydisort.py:pydisort", "src/PythonicDISORT/_assemble_intensity_and_fluxes.py:_assemble_intensity_and_fluxes", "src/PythonicDISORT/_solve_for_coeffs.py:_solve_for_coeffs"]}
{"id": "C127", "title": "Infinity as the last entry of tau_arr", "statement": "The checks accept infinity as the last entry of tau_arr. A call without internal source then succeeds. Without delta-M scaling, at every finite depth the returned functions yield the intensities (all Fourier modes) and fluxes of the unique bounded solution of the transfer equation in the atmosphere whose lowest layer never ends, whatever the surface arguments are. If any layer is delta-M scaled, the same holds above the lowest layer, but all intensities and diffuse fluxes in the lowest layer are NaN, because the scaled depth is computed as inf - (inf - tau) * scale. The depth infinity itself passes the range check and gives NaN. The averaged intensities and upward fluxes of calls with finite depths converge to those of this call as the depth grows.", "quantifier": "For every well-posed call without internal source and without intensity corrections, every number of layers and streams, all depths, azimuths and contents of uninitialised memory.", "why_tests_cant": "Infinite depth and unique bounded solutions on a half-line; the tests never pass infinity.", "anchors": ["src/PythonicDISORT/pydisort.py:pydisort", "src/PythonicDISORT/_assemble_intensity_and_fluxes.py:_assemble_intensity_and_fluxes", "src/PythonicDISORT/_solve_for_coeffs.py:_solve_for_coeffs"]}
{"id": "C128", "title": "Depths passed as integers", "statement": "The functions returned by pydisort give the same results for depths passed as signed 64-bit integers as for the same depths passed as floats.", "quantifier": "For every successful call, all integer depths and azimuths, functions and antiderivatives.", "why_tests_cant": "Silent 64-bit wrap-around in powers of the depths; the tests pass floats.", "anchors": ["src/PythonicDISORT/_assemble_intensity_and_fluxes.py:_assemble_intensity_and_fluxes", "src/PythonicDISORT/subroutines.py:_mathscr_v"]}
{"id": "C129", "title": "Inexact linear algebra", "statement": "If the eigenvectors, the particular solutions for the beam and the internal source and the coefficients of the homogeneous solutions stored by pydisort are inexact but leave small residuals, u0 and the fluxes are off by at most a fixed multiple of the residuals: with residuals eta in the eigenvalue equation and in the equations of the particular solutions, delta in the continuity at interfaces and beta in the boundary conditions, in n layers that all absorb at least the fraction kappa, by (max(eta, beta) + 2(n-1)delta)/kappa + (n-1)delta, independently of the optical thickness, the number of streams and the condition of the matrices.", "quantifier": "For every successful call with nonnegative scattering, whatever np.linalg.eig and the linear solvers return, all depths and streams; for two runs with different eigen-solvers too; residuals vanish with exact linear algebra.", "why_tests_cant": "A bound over all inexact results of external routines.", "anchors": ["src/PythonicDISORT/_assemble_intensity_and_fluxes.py:_assemble_intensity_and_fluxes", "src/PythonicDISORT/_solve_for_gen_and_part_sols.py:_solve_for_gen_and_part_sols", "src/PythonicDISORT/_solve_for_coeffs.py:_solve_for_coeffs"]}
{"id": "C130", "title": "Legendre coefficients passed as integers", "statement": "pydisort gives the same intensities for phase-function Legendre coefficients passed as integers as for the same coefficients passed as floats.", "quantifier": "For every successful call with integer coefficients, all depths, azimuths and streams.", "why_tests_cant": "Silent truncation on assignment to a copy of the caller's array; the tests pass floats.", "anchors": ["src/PythonicDISORT/pydisort.py:pydisort"]}
{"id": "C131", "title": "Corrected intensities of thick atmospheres are finite", "statement": "With an exponential function that underflows to zero below some threshold, as in double precision, the intensity with NT corrections is a finite number for every stream and depth.", "quantifier": "For every successful call with active corrections, every threshold, all depths, azimuths and streams.", "why_tests_cant": "Needs several layers, corrections and a depth of about 745 times the smallest quadrature cosine; the tests use thin atmospheres.", "anchors": ["src/PythonicDISORT/pydisort.py:pydisort"]}
{"id": "C132", "title": "Inexact exponentials do not make the linear systems singular", "statement": "If np.exp returns, for every negative exponent, any number between 0 and 1 (rounded, flushed to zero or plain wrong), the matrices assembled in _solve_for_coeffs remain nonsingular, so that the call returns; and the coefficients make the modes, evaluated with the same np.exp, satisfy the boundary and continuity conditions exactly.", "quantifier": "For every well-posed call and every function in place of exp with values in [0, 1] on negative numbers (solvability), every function that is 1 at 0 (conditions).", "why_tests_cant": "Tests use one exponential function and a handful of depths; underflow needs thick layers.", "anchors": ["src/PythonicDISORT/_solve_for_coeffs.py:_solve_for_coeffs", "src/PythonicDISORT/_assemble_intensity_and_fluxes.py:_assemble_intensity_and_fluxes"]}
{"id": "C133", "title": "The quadrature rules converge for every continuous function", "statement": "The weights of Clenshaw_Curtis_quad are positive, symmetric and sum to the length of the interval. For a continuous integrand its error is at most twice the length of the interval times the distance to the polynomials of degree <= Nphi, and tends to zero as Nphi grows; so does the error of Gauss_Legendre_quad, given the contract of leggauss.", "quantifier": "For every odd Nphi >= 3, every interval c < d and every function continuous on [c, d], smooth or not.", "why_tests_cant": "Tests integrate a few smooth functions with a few node counts; convergence is a statement about all counts and all continuous functions.", "anchors": ["src/PythonicDISORT/subroutines.py:Gauss_Legendre_quad", "src/PythonicDISORT/subroutines.py:Clenshaw_Curtis_quad"]}
{"id": "C134", "title": "Layer boundaries passed as unsigned integers", "statement": "pydisort gives the same outcome for layer boundaries tau_arr passed as unsigned integers as for the same boundaries passed as floats; in particular boundaries that do not increase are refused.", "quantifier": "For every width of the integers, every number of layers, all boundaries that fit and all other arguments.", "why_tests_cant": "np.diff of unsigned integers wraps around, and the check for positive thicknesses then always passes; the tests pass floats.", "anchors": ["src/PythonicDISORT/pydisort.py:pydisort"]}
{"id": "C135", "title": "Depths passed as unsigned integers", "statement": "The functions returned by pydisort give the same results for depths passed as unsigned integers as for the same depths passed as floats.", "quantifier": "For every successful call, every width of the integers, all depths that fit and all azimuths.", "why_tests_cant": "-tau wraps around for unsigned integers before it is exponentiated; the tests pass floats.", "anchors": ["src/PythonicDISORT/_assemble_intensity_and_fluxes.py:_assemble_intensity_and_fluxes"]}
{"id": "C136", "title": "Fourier modes of high order", "statement": "The underflow of the factorial quotients (l-m)!/(l+m)! in double precision changes nothing in what a call returns: Fourier modes of every order that was asked for are part of the intensity.", "quantifier": "For all arguments, all external routines, and every way of computing the quotients that is exact for normal numbers and gives zero below a quarter of the smallest positive number.", "why_tests_cant": "The modes of order 89 and more vanish without any message; the tests use at most 48 streams.", "anchors": ["src/PythonicDISORT/_solve_for_gen_and_part_sols.py:_solve_for_gen_and_part_sols"]}
{"id": "C137", "title": "Legendre functions that overflow", "statement": "No call returns numbers that were computed with an associated Legendre function that is infinite or NaN at one of the streams: such a call ends with LinAlgError.", "quantifier": "For all arguments and external routines, every way lpmv may overflow and every way the factorial quotients are rounded, all Fourier modes, layers, streams and degrees, and all content of uninitialised arrays.", "why_tests_cant": "The tests do not reach orders at which the Legendre functions overflow.", "anchors": ["src/PythonicDISORT/_solve_for_gen_and_part_sols.py:_solve_for_gen_and_part_sols"]}
{"id": "C138", "title": "Nothing depends on NumPy and LAPACK beyond their contracts", "statement": "The order, length and sign of the eigenvectors returned by np.linalg.eig, and the basis it picks for a repeated eigenvalue, do not change any result; and leggauss has no choice, since there is one Gauss-Legendre rule with increasing nodes. Two sets of routines that meet their contracts give calls with the same intensities, fluxes, antiderivatives, corrected intensities and estimates of the Fourier error.", "quantifier": "For all well-posed calls whose sources are not divided by zero, all pairs of routines for eigenvectors and quadrature that meet their contracts, all content of uninitialised arrays, and all depths and azimuths.", "why_tests_cant": "A test runs with one version of LAPACK and sees one choice of eigenvectors.", "anchors": ["src/PythonicDISORT/_solve_for_gen_and_part_sols.py:_solve_for_gen_and_part_sols", "src/PythonicDISORT/_solve_for_coeffs.py:_solve_for_coeffs", "src/PythonicDISORT/_assemble_intensity_and_fluxes.py:_assemble_intensity_and_fluxes", "src/PythonicDISORT/subroutines.py:Gauss_Legendre_quad"]}
{"id": "C139", "title": "Asking for fewer Fourier modes cuts the series off", "statement": "A call that differs from a successful one only in a smaller NFourier returns as well, and its intensity function is the Fourier series of the other one cut off after NFourier terms: the modes do not depend on how many of them are computed. With the NT corrections, too, the intensities differ exactly in the terms left out, and where one raises an exception the other raises the same.", "quantifier": "For every call that returns intensities, every smaller positive number of modes, all external routines, all content of uninitialised arrays, and all depths in range and azimuths.", "why_tests_cant": "Tests compare a few values of NFourier within a tolerance.", "anchors": ["src/PythonicDISORT/pydisort.py:pydisort", "src/PythonicDISORT/_solve_for_gen_and_part_sols.py:_solve_for_gen_and_part_sols", "src/PythonicDISORT/_solve_for_coeffs.py:_solve_for_coeffs", "src/PythonicDISORT/_assemble_intensity_and_fluxes.py:u"]}
{"id": "C140", "title": "The streams are symmetric about 60 degrees", "statement": "Gauss_Legendre_quad returns nodes and weights that are symmetric about the middle of the interval, so that for every stream with cosine mu pydisort has streams with cosines 1 - mu and -mu. One of them is at exactly 60 degrees (mu = 1/2) if and only if NQuad / 2 is odd. In that case every call with NT_cor = True and mu0 = 1/2 is refused, even without a beam.", "quantifier": "For every number of streams, all external routines that meet their contracts (increasing nodes for the first statement), all intervals, and all arguments that pass the other checks.", "why_tests_cant": "Tests look at a few numbers of streams; nodes computed in floating point are symmetric only up to rounding.", "anchors": ["src/PythonicDISORT/subroutines.py:Gauss_Legendre_quad", "src/PythonicDISORT/pydisort.py:pydisort"]}
{"id": "C141", "title": "How finely the light depends on azimuth", "statement": "If there is no beam, or if no scattering layer has a phase-function coefficient from M on other than f and the surface has at most M Fourier modes, then all Fourier modes of the intensity from M on vanish. So without a beam, or with isotropic scattering over a Lambertian surface, u returns the values of u0 at every azimuth, and a call with NFourier = M returns the same intensities as any call with more modes.", "quantifier": "For every well-posed input with those properties, every M, all depths in range, azimuths and streams.", "why_tests_cant": "Tests evaluate a few azimuths and compare within a tolerance.", "anchors": ["src/PythonicDISORT/pydisort.py:pydisort", "src/PythonicDISORT/_solve_for_gen_and_part_sols.py:_solve_for_gen_and_part_sols", "src/PythonicDISORT/_solve_for_coeffs.py:_solve_for_coeffs", "src/PythonicDISORT/_assemble_intensity_and_fluxes.py:u"]}
{"id": "C142", "title": "Layers that do not scatter only attenuate", "statement": "Inside a layer with omega = 0 and no internal source, whatever the other layers and the surface are like, every intensity at every azimuth and every mean intensity changes from depth s to depth t by the factor exp((t - s)/mu) of its direction, and the direct beam adds nothing to it. With an internal source the emission of the layer between the two depths is added, attenuated from where it is emitted (Schwarzschild's formula).", "quantifier": "For every successful call with sound numerics and every such layer, all pairs of depths in it, streams and azimuths.", "why_tests_cant": "Tests evaluate a few depths of a few atmospheres and compare within a tolerance.", "anchors": ["src/PythonicDISORT/pydisort.py:pydisort", "src/PythonicDISORT/_solve_for_gen_and_part_sols.py:_solve_for_gen_and_part_sols", "src/PythonicDISORT/_assemble_intensity_and_fluxes.py:u", "src/PythonicDISORT/_assemble_intensity_and_fluxes.py:u0"]}
{"id": "C143", "title": "Balance of radiation pressure", "statement": "When fewer phase function moments than streams are used, the radiation pressure (second moment over direction) of the diffuse light and the beam together changes with depth in proportion to the returned net flux up - diffuse - direct. The factor is the depth scaling times one minus scaled albedo times scaled asymmetry parameter, which in a scattering layer equals 1 - omega*g with the caller's values. Internal sources do not enter.", "quantifier": "For every successful call with sound numerics and NLeg < NQuad, every layer and every depth strictly inside it.", "why_tests_cant": "It is a differential identity at all depths for arbitrary layers, sources and surfaces; tests compare stored values at a few depths.", "anchors": ["src/PythonicDISORT/pydisort.py:pydisort", "src/PythonicDISORT/_solve_for_gen_and_part_sols.py:_solve_for_gen_and_part_sols", "src/PythonicDISORT/_assemble_intensity_and_fluxes.py:flux_up", "src/PythonicDISORT/_assemble_intensity_and_fluxes.py:flux_down", "src/PythonicDISORT/_assemble_intensity_and_fluxes.py:u0"]}

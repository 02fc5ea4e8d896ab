{
 "claims": [
  {
   "property": "C01",
   "status": "proved",
   "theorems": [
    "Angler.C01_projection_physical"
   ],
   "note": "exact real arithmetic"
  },
  {
   "property": "C02",
   "status": "proved",
   "theorems": [
    "Angler.C02_permittivity_derivative",
    "Angler.C02_projection_derivative"
   ],
   "note": "HasDerivAt for all densities, eta, beta"
  },
  {
   "property": "C03",
   "status": "proved",
   "theorems": [
    "Angler.C03_beta_zero",
    "Angler.C03_beta_infinity",
    "Angler.C03_projection_limits"
   ],
   "note": "limits as Filter.Tendsto"
  },
  {
   "property": "C04",
   "status": "proved",
   "theorems": [
    "Angler.C04_utils_inverse",
    "Angler.C04_density_permittivity_inverse"
   ],
   "note": "filter.py functions and the duplicates in utils.py"
  },
  {
   "property": "C05",
   "status": "proved",
   "theorems": [
    "Angler.C05_filter_identity_outside"
   ],
   "note": "for any matrix get_W returns"
  },
  {
   "property": "C06",
   "status": "partial",
   "theorems": [
    "Angler.C06_average_partial",
    "Angler.C06_border_pixels_lost",
    "Angler.C06_amplifies"
   ],
   "note": "False near the margin: C06_border_pixels_lost (filtered density 0), C06_amplifies (constant 1 filtered to more than 4; columns are normalised instead of rows). Proved when every pixel within R of the design region is visited by the loops, NPML >= 1."
  },
  {
   "property": "C07",
   "status": "partial",
   "theorems": [
    "Angler.C07_wrap_false",
    "Angler.C07_R_one_partial",
    "Angler.C07_periodic_x_raises",
    "Angler.C07_periodic_y_wrong"
   ],
   "note": "False for R >= 2 because wrap(i,N) is wrong: C07_periodic_x_raises (ValueError), C07_periodic_y_wrong (wrong neighbour). Proved for R = 1."
  },
  {
   "property": "C08",
   "status": "partial",
   "theorems": [
    "Angler.C08_differences_partial",
    "Angler.C08_singleton_axis_fails",
    "Angler.C08_constant_partial"
   ],
   "note": "False on an axis with a single cell (createDws returns the identity, so the derivative of a constant is not 0): C08_singleton_axis_fails. Proved for more than one cell."
  },
  {
   "property": "C09",
   "status": "proved",
   "theorems": [
    "Angler.C09_negative_transpose",
    "Angler.C09_laplacian"
   ],
   "note": "difference operators with PML factors stripped; consequence for the Laplacian"
  },
  {
   "property": "C10",
   "status": "proved",
   "theorems": [
    "Angler.C10_pml_factors",
    "Angler.C10_S_matrices"
   ],
   "note": "pointwise factors and the four S matrices"
  },
  {
   "property": "C11",
   "status": "partial",
   "theorems": [
    "Angler.C11_absorbing_cells_partial",
    "Angler.C11_layers_differ"
   ],
   "note": "False: the low end has NPML+1 absorbing cells, the high end NPML-1 (forward): C11_layers_differ. The exact set of absorbing cells is proved."
  },
  {
   "property": "C12",
   "status": "proved",
   "theorems": [
    "Angler.C12_reciprocity",
    "Angler.C12_reciprocity_solve"
   ],
   "note": "matrix form and through solve_fields"
  },
  {
   "property": "C13",
   "status": "proved",
   "theorems": [
    "Angler.C13_maxwell_Ez_operators",
    "Angler.C13_maxwell_Ez"
   ],
   "note": "operator form for all grids; difference-quotient form for more than one cell per axis"
  },
  {
   "property": "C14",
   "status": "partial",
   "theorems": [
    "Angler.C14_maxwell_Hz_operators_partial",
    "Angler.C14_maxwell_Hz_partial",
    "Angler.C14_default_averaging_fails"
   ],
   "note": "False for the default averaging=False on a non-uniform permittivity: C14_default_averaging_fails. Proved for averaging=True or when averaging leaves the permittivity unchanged."
  },
  {
   "property": "C15",
   "status": "proved",
   "theorems": [
    "Angler.C15_linear_in_source",
    "Angler.C15_zero_source"
   ],
   "note": "linearity of all three returned components; zero source gives zero fields"
  },
  {
   "property": "C16",
   "status": "partial",
   "theorems": [
    "Angler.C16_complex2real_partial",
    "Angler.C16_scipy_raises"
   ],
   "note": "False for the scipy fallback (NameError): C16_scipy_raises. Proved for Pardiso."
  },
  {
   "property": "C17",
   "status": "proved",
   "theorems": [
    "Angler.C17_fields_current",
    "Angler.C17_fields_nl_current"
   ],
   "note": "histories = lists of public operations"
  },
  {
   "property": "C18",
   "status": "proved",
   "theorems": [
    "Angler.C18_only_pol_components"
   ],
   "note": "over all histories of public operations"
  },
  {
   "property": "C19",
   "status": "proved",
   "theorems": [
    "Angler.C19_nl_solve_keeps_linear"
   ],
   "note": "all solvers, also when they raise"
  },
  {
   "property": "C20",
   "status": "proved",
   "theorems": [
    "Angler.C20_constructor_validation"
   ],
   "note": "constructor raises exactly on the invalid inputs"
  },
  {
   "property": "C21",
   "status": "partial",
   "theorems": [
    "Angler.C21_values_partial",
    "Angler.C21_random_drops_loss",
    "Angler.C21_aliasing_partial",
    "Angler.C21_halfway_writes_callers_array"
   ],
   "note": "Values: proved for every style with lossless outside pixels (C21_values_partial). The full claim is false: random styles drop the imaginary part outside the region (C21_random_drops_loss). Aliasing: the other styles never write the caller's arrays; 'halfway' returns the caller's eps_r and writes into it (C21_halfway_writes_callers_array)."
  },
  {
   "property": "C22",
   "status": "proved",
   "theorems": [
    "Angler.C22_kerr_shift",
    "Angler.C22_add_nl",
    "Angler.C22_add_nl_scaled",
    "Angler.C22_rejects"
   ],
   "note": "realness claimed where the permittivity is real"
  },
  {
   "property": "C23",
   "status": "partial",
   "theorems": [
    "Angler.C23_jacobian_partial",
    "Angler.C23_complex_scaled_fails"
   ],
   "note": "False for eps_scale with complex permittivity: C23_complex_scaled_fails. Proved whenever the Kerr coefficients are real."
  },
  {
   "property": "C24",
   "status": "partial",
   "theorems": [
    "Angler.C24_born_fixed_partial",
    "Angler.C24_newton_fixed_partial",
    "Angler.C24_Hz_fixed_point_not_maxwell"
   ],
   "note": "Ez proved (Born and Newton). False for Hz: C24_Hz_fixed_point_not_maxwell (permittivity shift added to the magnetic equation)."
  },
  {
   "property": "C25",
   "status": "proved",
   "theorems": [
    "Angler.C25_converged_residual"
   ],
   "note": "all thresholds and limits; also an explicit bound in terms of the threshold"
  },
  {
   "property": "C26",
   "status": "proved",
   "theorems": [
    "Angler.C26_born_bookkeeping",
    "Angler.C26_newton_bookkeeping",
    "Angler.C26_zero_iterations_raise",
    "Angler.C26_zero_source"
   ],
   "note": "Born and Newton. C26_zero_source: with no source Born makes every pass, recording nan or inf."
  },
  {
   "property": "C27",
   "status": "partial",
   "theorems": [
    "Angler.C27_hybrid_exact",
    "Angler.C27_hybrid_partial",
    "Angler.C27_threshold_fails",
    "Angler.C27_zero_source"
   ],
   "note": "False for thresholds above 1e-10 (C27_threshold_fails: early stop counted as converged); a nan change returns Born (C27_zero_source). Exact characterisation for every threshold: C27_hybrid_exact."
  },
  {
   "property": "C28",
   "status": "proved",
   "theorems": [
    "Angler.C28_no_nonlinearity",
    "Angler.C28_returns"
   ],
   "note": "any start, threshold, limit; born and hybrid always return, newton with Pardiso"
  },
  {
   "property": "C29",
   "status": "partial",
   "theorems": [
    "Angler.C29_gradient_exact_partial",
    "Angler.C29_gradient_exact_unfiltered",
    "Angler.C29_gradient_exact_filtered",
    "Angler.C29_false_near_border"
   ],
   "note": "Exact at every design pixel without a filter, and with get_W when the design region lies inside the area get_W visits; false for design pixels near that area's border: C29_false_near_border (gradient multiplies by W instead of its transpose)."
  },
  {
   "property": "C30",
   "status": "partial",
   "theorems": [
    "Angler.C30_false_near_border",
    "Angler.C30_gradient_exact_partial",
    "Angler.C30_gradient_exact_unfiltered",
    "Angler.C30_gradient_exact_filtered"
   ],
   "note": "As C29, for any mixture of linear Ez, Hx, Hy arguments: exact at every design pixel without a filter, and with get_W when the design region lies inside the area get_W visits; false for design pixels near that area's border, for Hx alone and for Hy alone: C30_false_near_border."
  },
  {
   "property": "C31",
   "status": "partial",
   "theorems": [
    "Angler.C31_gradient_exact_partial",
    "Angler.C31_gradient_exact_unfiltered",
    "Angler.C31_gradient_exact_filtered",
    "Angler.C31_adjoint_halves_conjugate",
    "Angler.C31_after_solve",
    "Angler.C31_false_near_border"
   ],
   "note": "Exact at every design pixel without a filter, and with get_W when the design region lies inside the area get_W visits, along the (proved) unique local branch of exact Kerr solutions; false for design pixels near that area's border: C31_false_near_border. Mixtures with linear Ez, Hx, Hy arguments included; nonlinear Hx/Hy arguments raise NameError (C34)."
  },
  {
   "property": "C32",
   "status": "partial",
   "theorems": [
    "Angler.C32_gradient_exact_partial",
    "Angler.C32_false"
   ],
   "note": "False: C32_false gives, on every grid and at every pixel, a system whose returned gradient is exactly minus the (nonzero) derivative. Partial: exact where material is locally uniform and forward and adjoint fields are locally linear."
  },
  {
   "property": "C33",
   "status": "proved",
   "theorems": [
    "Angler.C33_gradient_zero_outside"
   ],
   "note": "every gradient function, any other simulation argument, any filter radius and NPML"
  },
  {
   "property": "C34",
   "status": "partial",
   "theorems": [
    "Angler.C34_obj_arg",
    "Angler.C34_constructible_iff",
    "Angler.C34_matched",
    "Angler.C34_compute_J_linear_iff",
    "Angler.C34_compute_J_iff",
    "Angler.C34_kerr_gradients_missing",
    "Angler.C34_gradient_supported_partial"
   ],
   "note": "Constructor, matching of partials/gradients and compute_J proved for all inputs. The last clause is false: C34_kerr_gradients_missing proves that any nonlinear argument other than Ez makes compute_dJ raise in every state; C34_gradient_supported_partial covers the seven remaining kinds."
  },
  {
   "property": "C35",
   "status": "partial",
   "theorems": [
    "Angler.C35_fresh_partial",
    "Angler.C35_cache_ignores_argument",
    "Angler.C35_false",
    "Angler.C35_repeated_partial"
   ],
   "note": "Negations: the cache ignores the simulation argument and later edits. Partial: correct when fields_current is False, for linear objectives."
  },
  {
   "property": "C36",
   "status": "partial",
   "theorems": [
    "Angler.C36_densities",
    "Angler.C36_densities_after_step",
    "Angler.C36_permittivity_partial",
    "Angler.C36_false"
   ],
   "note": "C36_densities: from densities in [0,1] every state reached by run('gd') and run('adam') keeps them there (C36_densities_after_step: from any start after one completed step). Permittivity bound proved for filters that keep [0,1] (C36_permittivity_partial: no filter, or get_W with the design region well inside); C36_false: fails for a filter made by get_W itself."
  },
  {
   "property": "C37",
   "status": "partial",
   "theorems": [
    "Angler.C37_outside_partial",
    "Angler.C37_binary_outside_partial",
    "Angler.C37_clipped",
    "Angler.C37_gray"
   ],
   "note": "Density and permittivity outside the design region unchanged by any run of any method when the permittivity there is the projected density (C37_outside_partial), in particular for air and solid material (C37_binary_outside_partial). C37_clipped and C37_gray are negations: other outside material is clipped to eps_m or re-projected by the first step."
  },
  {
   "property": "C38",
   "status": "proved",
   "theorems": [
    "Angler.C38_one_run",
    "Angler.C38_logs_aligned"
   ],
   "note": "Any sequence of runs, any method, including runs that raise: objfn_list and src_amplitudes grow together and a completed run adds the stated number of entries."
  },
  {
   "property": "C39",
   "status": "proved",
   "theorems": [
    "Angler.C39_weights",
    "Angler.C39_adam_run",
    "Angler.C39_constant_gradient"
   ],
   "note": "Adam moments after n iterations are the bias-corrected weighted averages of all gradients; every executed iteration applies the textbook step; constant-gradient corollary."
  },
  {
   "property": "C40",
   "status": "proved",
   "theorems": [
    "Angler.C40_get_set",
    "Angler.C40_wrong_length",
    "Angler.C40_single_value",
    "Angler.C40_single_pixel",
    "Angler.C40_lbfgs_final"
   ],
   "note": "get/set round trip of the design vector; wrong lengths incl. numpy broadcasting (C40_wrong_length, C40_single_value, C40_single_pixel); the state left by run_LBFGS is the vector returned by the (arbitrary) external minimiser."
  },
  {
   "property": "C41",
   "status": "partial",
   "theorems": [
    "Angler.C41_consistent_partial",
    "Angler.C41_after_move_partial",
    "Angler.C41_stale_start"
   ],
   "note": "eps = projection of rho is an invariant of every run that starts with it (C41_consistent_partial) and holds after any accepted move (C41_after_move_partial). C41_stale_start: not established by the constructor."
  },
  {
   "property": "C42",
   "status": "partial",
   "theorems": [
    "Angler.C42_fwhm_partial",
    "Angler.C42_false"
   ],
   "note": "Contiguous-run width proved when the centre sample is above half maximum; C42_false: otherwise samples below the centre are still counted."
  },
  {
   "property": "C43",
   "status": "proved",
   "theorems": [
    "Angler.C43_scan_frequency",
    "Angler.C43_check_deriv",
    "Angler.C43_check_deriv_no_trace",
    "Angler.C43_check_deriv_fields"
   ],
   "note": "scan_frequency leaves the whole simulation unchanged. check_deriv leaves source, frequency, density; permittivity becomes the re-projected density, the fields are solved there, and the simulation does not depend on the points or the step. Also when they raise."
  },
  {
   "property": "C44",
   "status": "partial",
   "theorems": [
    "Angler.C44_amplitude_partial",
    "Angler.C44_false"
   ],
   "note": "By the square law the predicted shift is within the bound iff m >= 2.5e-5 M (both directions proved). C44_false: a call after which the shift measured by the code itself exceeds the bound."
  },
  {
   "property": "C45",
   "status": "proved",
   "theorems": [
    "Angler.C45_density"
   ],
   "note": "All permittivities between the materials in the design region, 0/1 region with a design pixel, eps_m > 1."
  },
  {
   "property": "C46",
   "status": "proved",
   "theorems": [
    "Angler.C46_density_exp"
   ],
   "note": "All permittivities between the materials in the design region, 0/1 region with a design pixel, eps_m > 1."
  },
  {
   "property": "C47",
   "status": "partial",
   "theorems": [
    "Angler.C47_range_partial",
    "Angler.C47_false"
   ],
   "note": "In [0,1] proved; C47_false: the factor equals the density factor and cannot see arrangement (the convolution kernel is a shift)."
  },
  {
   "property": "C48",
   "status": "partial",
   "theorems": [
    "Angler.C48_false",
    "Angler.C48_call_partial"
   ],
   "note": "C48_false: no argument list lets a binarised function be constructed and evaluated as Objective (signature has 2 parameters, args[2] is read). Direct calls work (C48_call_partial)."
  },
  {
   "property": "C49",
   "status": "proved",
   "theorems": [
    "Angler.C49_union",
    "Angler.C49_order",
    "Angler.C49_design_binary"
   ],
   "note": "apply_regions on lists of regions; all six structure functions (three_port, two_port, N_port, ortho_port, accelerator, accelerator_multi)."
  },
  {
   "property": "C50",
   "status": "partial",
   "theorems": [
    "Angler.C50_grid_partial",
    "Angler.C50_spacing_false",
    "Angler.C50_single_false",
    "Angler.C50_two_port",
    "Angler.C50_three_port_partial",
    "Angler.C50_three_port_false"
   ],
   "note": "Coordinates symmetric for N >= 2 with spacing N*dl/(N-1); spacing dl refuted (C50_spacing_false), a single point is not centred (C50_single_false). two_port symmetric for all parameters; three_port symmetric for an even number of rows, refuted for odd (C50_three_port_false)."
  },
  {
   "property": "C51",
   "status": "partial",
   "theorems": [
    "Angler.C51_flux_x_partial",
    "Angler.C51_flux_y_partial",
    "Angler.C51_last_column_false",
    "Angler.C51_negative_zero",
    "Angler.C51_full_width_false",
    "Angler.C51_below_false",
    "Angler.C51_negative_false",
    "Angler.C51_raises"
   ],
   "note": "Lines inside the grid, both normals and polarisations, linear and nonlinear fields, centres counted from the end at least three columns in. Refuted: last column (always 0), centres -1 and -2 (always 0), lines ending at the last row (ValueError), lines starting below row 0 (0)."
  },
  {
   "property": "C52",
   "status": "proved",
   "theorems": [
    "Angler.C52_quadratic"
   ],
   "note": "All centres and widths, including those that raise."
  },
  {
   "property": "C53",
   "status": "proved",
   "theorems": [
    "Angler.C53_raises",
    "Angler.C53_line_only",
    "Angler.C53_idempotent",
    "Angler.C53_scale"
   ],
   "note": "Eigen-solver external (a function of operator, count and guess); idempotence includes W_in. C53_raises: an unknown direction raises ValueError."
  },
  {
   "property": "C54",
   "status": "partial",
   "theorems": [
    "Angler.C54_zero_false",
    "Angler.C54_normalisation_x_partial",
    "Angler.C54_normalisation_y_partial",
    "Angler.C54_false"
   ],
   "note": "Centres c >= 2 on either axis: W_in is the flux through the mirrored line of the field in the straight waveguide; sources already present off the line also radiate. Refuted for centres <= 1, negative ones included (W_in = 0)."
  },
  {
   "property": "C55",
   "status": "proved",
   "theorems": [
    "Angler.C55_grid_average"
   ],
   "note": "both axes, periodic wrap"
  },
  {
   "property": "C56",
   "status": "partial",
   "theorems": [
    "Angler.C56_spacing_partial",
    "Angler.C56_false"
   ],
   "note": "Exact spacing after any history of assignments; equals dl iff the current shape is the constructor's (C56_false otherwise)."
  },
  {
   "property": "C57",
   "status": "partial",
   "theorems": [
    "Angler.C57_deps_drho_bar_partial",
    "Angler.C57_utils_broken"
   ],
   "note": "utils.deps_drho_bar is wrong unless eps_m is 2 (or 0), drho_bar_drho and n2_from_chi3 raise NameError: C57_utils_broken."
  },
  {
   "property": "C58",
   "status": "partial",
   "theorems": [
    "Angler.C58_uninitialised_fails",
    "Angler.C58_methods_partial"
   ],
   "note": "Negation: without an initialised density run raises for every method (C58_uninitialised_fails). With a density, ValueError exactly for the unknown methods, before anything is solved or logged (C58_methods_partial)."
  },
  {
   "property": "C59",
   "status": "proved",
   "theorems": [
    "Angler.C59_scan_values",
    "Angler.C59_scan_returns"
   ],
   "note": "Values and completion, against a separately constructed simulation."
  },
  {
   "property": "C60",
   "status": "partial",
   "theorems": [
    "Angler.C60_phase_partial",
    "Angler.C60_false"
   ],
   "note": "Real modes and phases with nonzero real part; refuted for the phase i (zero source)."
  },
  {
   "property": "C61",
   "status": "proved",
   "theorems": [
    "Angler.C61_power_balance_Ez",
    "Angler.C61_power_balance_Hz"
   ],
   "note": "Exact discrete Poynting theorem for the returned fields, any rectangle outside the PML; Hz for averaging=True or averaging-invariant permittivity (default averaging=False does not return a solution, see C14). Linear solves only."
  },
  {
   "property": "C62",
   "status": "partial",
   "theorems": [
    "Angler.C62_probe_x_partial",
    "Angler.C62_probe_y_partial",
    "Angler.C62_probe_false"
   ],
   "note": "False as stated (C62_probe_false: two probes around a lossless source-free column report different powers of the wrong sign). Proved: probe = true power + dl-second-order term, both directions, Ez."
  },
  {
   "property": "C63",
   "status": "proved",
   "theorems": [
    "Angler.C63_round_trip",
    "Angler.C63_samples"
   ],
   "note": "Continuum attenuation of the profile plus exact sampled values; says nothing about the discrete reflection (see C11)."
  },
  {
   "property": "C64",
   "status": "proved",
   "theorems": [
    "Angler.C64_linear",
    "Angler.C64_nonlinear",
    "Angler.C64_init",
    "Angler.C64_add_nl",
    "Angler.C64_flux",
    "Angler.C64_one_cell_false"
   ],
   "note": "Proved on grids with at least two cells per axis, assuming the matrices met are nonsingular (examples show such devices exist); C64_one_cell_false refutes it on one-cell axes, where the derivative matrices are the identity."
  },
  {
   "property": "C65",
   "status": "proved",
   "theorems": [
    "Angler.C65_measures",
    "Angler.C65_missing",
    "Angler.C65_powers",
    "Angler.C65_linear_device"
   ],
   "note": "Probes are arbitrary callables that do not modify the copy they are given (flux probes in the scaling theorems). Numbers are exact; s_min, s_max > 0."
  },
  {
   "property": "C66",
   "status": "partial",
   "theorems": [
    "Angler.C66_nonlinear_partial",
    "Angler.C66_fresh_false",
    "Angler.C66_stale_false",
    "Angler.C66_false"
   ],
   "note": "False as documented: flux_probe's default nl=False reads the linear fields, which are the stale ones if the simulation was solved before (C66_stale_false, C66_false) and the linear solution otherwise (C66_fresh_false). Proved part: probes with nl=True."
  },
  {
   "property": "C67",
   "status": "partial",
   "theorems": [
    "Angler.C67_Hz_false",
    "Angler.C67_Kerr_false",
    "Angler.C67_gd_ascent_partial",
    "Angler.C67_adam_ascent_partial"
   ],
   "note": "Proved for Ez objectives of linear fields with a filter that is symmetric on the design region (C67_gd_ascent_partial, C67_adam_ascent_partial: first iteration of adam; C86 treats the first n iterations of adam). Refuted for Hz (C67_Hz_false): on every grid with at least 3x3 cells there is an Hz problem in which every small step of run('gd') lowers the objective, because of the wrong Hz gradient (see C32). Refuted, as an exact statement, for nonlinear fields (C67_Kerr_false): the code evaluates the objective after finitely many solver passes but differentiates the solution of the nonlinear equation; in the witness the two differ by a relative 1e-24, so this would not be seen in floating point (C82 says the computed gradient is close to the exact one once the fields are)."
  },
  {
   "property": "C68",
   "status": "proved",
   "theorems": [
    "Angler.C68_gd_stationary"
   ],
   "note": "Both directions proved; example shows a density that is stationary and one that is not."
  },
  {
   "property": "C69",
   "status": "partial",
   "theorems": [
    "Angler.C69_check_deriv_partial",
    "Angler.C69_stale_cache",
    "Angler.C69_false_near_border",
    "Angler.C69_Hz_false",
    "Angler.C69_empty_region",
    "Angler.C69_Kerr_false"
   ],
   "note": "The reported pairs and their agreement in the limit are proved for Ez objectives with a filter that is symmetric on the design region. Refuted: at the border of the filter (C69_false_near_border), for Hz objectives (C69_Hz_false), for objectives of nonlinear fields (C69_Kerr_false: exact statement, opposite signs but of relative size 1e-24, see C67), and the side effect: after check_deriv the next compute_J of the untouched simulation is off by exactly (last numerical derivative)*d_rho (C69_stale_cache)."
  },
  {
   "property": "C70",
   "status": "proved",
   "theorems": [
    "Angler.C70_lbfgs_values"
   ],
   "note": "The gradient part is stated where the system matrix at the stored density is regular. Objectives whose gradient is wrong in the first place (Hz, asymmetric filter) are covered by C29, C32."
  },
  {
   "property": "C71",
   "status": "partial",
   "theorems": [
    "Angler.C71_compute_J",
    "Angler.C71_compute_dJ",
    "Angler.C71_solve_nl_partial",
    "Angler.C71_pristine_is_new",
    "Angler.C71_stale_start_false"
   ],
   "note": "compute_J and compute_dJ with fields_current false are independent of the history (C71_compute_J, C71_compute_dJ; hypotheses shown reachable by C71_pristine_is_new). solve_fields_nl() without Estart: proved when no linear field is stored or the stored one belongs to the present source; after assigning a new source it is false, C71_stale_start_false."
  },
  {
   "property": "C72",
   "status": "proved",
   "theorems": [
    "Angler.C72_linear",
    "Angler.C72_nonlinear",
    "Angler.C72_init",
    "Angler.C72_add_nl",
    "Angler.C72_flux"
   ],
   "note": "Holds without exception, including axes with one cell; regularity of the systems solved is a hypothesis (met by the examples)."
  },
  {
   "property": "C73",
   "status": "proved",
   "theorems": [
    "Angler.C73_linear",
    "Angler.C73_nonlinear"
   ],
   "note": "Shift only along axes without absorbing layer; regularity of the systems solved is a hypothesis (met by the examples)."
  },
  {
   "property": "C74",
   "status": "partial",
   "theorems": [
    "Angler.C74_linear_partial",
    "Angler.C74_nonlinear_partial",
    "Angler.C74_default_averaging_false",
    "Angler.C74_absorber_false",
    "Angler.C74_linear_y_partial",
    "Angler.C74_nonlinear_y_partial"
   ],
   "note": "Proved: Ez with either averaging, Hz with averaging=True, along x and along y; Kerr solves of Ez devices (every solver) along both axes. Refuted by witnesses: Hz with the default averaging=False (C74_default_averaging_false; Kerr solves of Hz devices always use that default) and absorbing layers along the axis (C74_absorber_false)."
  },
  {
   "property": "C75",
   "status": "proved",
   "theorems": [
    "Angler.C75_lossy",
    "Angler.C75_lossy_frozen",
    "Angler.C75_coarse",
    "Angler.C75_coarse_frozen",
    "Angler.C75_coarse_newton",
    "Angler.C75_resonance"
   ],
   "note": "Loss everywhere without layers (both polarisations), coarse grids with layers (Ez). C75_resonance delimits the claim: without loss and coarseness a device can have no field."
  },
  {
   "property": "C76",
   "status": "proved",
   "theorems": [
    "Angler.C76_unique_solution",
    "Angler.C76_geometric",
    "Angler.C76_converges",
    "Angler.C76_threshold_error",
    "Angler.C76_strong_diverges"
   ],
   "note": "The iteration converges under the explicit weakness condition; C76_strong_diverges shows that some such condition is needed."
  },
  {
   "property": "C77",
   "status": "proved",
   "theorems": [
    "Angler.C77_quadratic",
    "Angler.C77_converges",
    "Angler.C77_isolated",
    "Angler.C77_hybrid_default"
   ],
   "note": "Pardiso installed (without it Newton raises, C16/C26). The constants are explicit; the radius is not claimed to be optimal."
  },
  {
   "property": "C78",
   "status": "proved",
   "theorems": [
    "Angler.C78_linear",
    "Angler.C78_nonlinear",
    "Angler.C78_phase",
    "Angler.C78_flux"
   ],
   "note": "All parts. Hypotheses: exact external solvers, regular systems (C75 gives devices where they are). The convergence history is that of the model's exact arithmetic."
  },
  {
   "property": "C79",
   "status": "proved",
   "theorems": [
    "Angler.C79_linear",
    "Angler.C79_nonlinear",
    "Angler.C79_flux",
    "Angler.C79_absorber_false"
   ],
   "note": "All parts; C79_absorber_false is the negation with absorbing layers. Hypotheses: exact external solvers, regular systems."
  },
  {
   "property": "C80",
   "status": "partial",
   "theorems": [
    "Angler.C80_gd_resume",
    "Angler.C80_adam_memoryless_partial",
    "Angler.C80_adam_restarts"
   ],
   "note": "'gd' proved for all runs, including those that raise. 'adam': proved for beta1 = beta2 = 0 (C80_adam_memoryless_partial) and false for the default rates (C80_adam_restarts). 'lbfgs' is scipy's and not covered."
  },
  {
   "property": "C81",
   "status": "proved",
   "theorems": [
    "Angler.C81_field_bound",
    "Angler.C81_tolerance",
    "Angler.C81_kerr",
    "Angler.C81_resonant"
   ],
   "note": "C81_field_bound, C81_tolerance, C81_kerr for coarse devices with any layers; C81_resonant exhibits devices near resonance for which no bound holds."
  },
  {
   "property": "C82",
   "status": "proved",
   "theorems": [
    "Angler.C82_gradient_continuous",
    "Angler.C82_gradient_near_derivative",
    "Angler.C82_born"
   ],
   "note": "Continuity of compute_dJ at exact regular Kerr solutions for stored fields and for the stored nonlinear state separately (C82_gradient_continuous), with C31 the limit is the derivative (C82_gradient_near_derivative); applied to the Born solver on weak Kerr devices with threshold and iteration limit as parameters (C82_born). compute_dJ itself always calls the default solver; the Born statement is about fields stored by an explicit call."
  },
  {
   "property": "C83",
   "status": "proved",
   "theorems": [
    "Angler.C83_residual",
    "Angler.C83_settings_ignored",
    "Angler.C83_Hz",
    "Angler.C83_error",
    "Angler.C83_false_magnetic"
   ],
   "note": "Residual, error bound, ignored settings and Hz proved; the arrays returned as Hx and Hy are the electric field (C83_false_magnetic proves they never satisfy Faraday's law), as a comment in the source concedes."
  },
  {
   "property": "C84",
   "status": "proved",
   "theorems": [
    "Angler.C84_differentiable",
    "Angler.C84_start",
    "Angler.C84_false_start",
    "Angler.C84_gd",
    "Angler.C84_adam"
   ],
   "note": "Run refined to the mathematical iteration by induction over the number of steps; F is the objective as compute_J evaluates it (Spec.IsObjective), the gradient is the derivative of F. Linear Ez objectives with max_ind_shift unset. C84_start: which initialisations meet the condition on the start; C84_false_start: the first recorded value of a random start differs from the objective of its density."
  },
  {
   "property": "C85",
   "status": "proved",
   "theorems": [
    "Angler.C85_gd_converges",
    "Angler.C85_false_large_steps"
   ],
   "note": "Proved through C84: the code's iteration is projected gradient ascent on F, F is C2 on the box (Cramer's rule), so its gradient is Lipschitz there. The safe step size exists but is not computed by the code; C85_false_large_steps shows that some bound is needed."
  },
  {
   "property": "C86",
   "status": "proved",
   "theorems": [
    "Angler.C86_adam_increases",
    "Angler.C86_optima_kept",
    "Angler.C86_false_large_steps"
   ],
   "note": "Proved through C84 and the smoothness of the objective (Cramer's rule): as the step size tends to zero each of the first n Adam steps tends to the first one. For a fixed step size and unboundedly many steps the claim is false (C86_false_large_steps)."
  },
  {
   "property": "C87",
   "status": "proved",
   "theorems": [
    "Angler.C87_workflow",
    "Angler.C87_accepts",
    "Angler.C87_converges",
    "Angler.C87_false_background"
   ],
   "note": "Stated from the inputs alone (Spec.Device, Spec.Inputs): the specification uses the discrete Maxwell equations, the projection formula and calculus derivatives, not the matrices or the stored state. C87_false_background is the reason for the two-material condition; C84_false_start for the three starts. Resonance-free devices are a hypothesis (C75 gives it on coarse grids, used in the example)."
  },
  {
   "property": "C88",
   "status": "proved",
   "theorems": [
    "Angler.C88_evaluation",
    "Angler.C88_gd",
    "Angler.C88_adam",
    "Angler.C88_lbfgs",
    "Angler.C88_check_deriv"
   ],
   "note": "For Ez devices satisfying the weak-nonlinearity bound of C76 at every density near the box with contraction factor at most 1/2, default solver settings ('hybrid', threshold 1e-10) and max_ind_shift None; tolerances are the explicit fieldTol and gradTol; F is proved to exist."
  },
  {
   "property": "C89",
   "status": "partial",
   "theorems": [
    "Angler.C89_plot_transmissions_partial",
    "Angler.C89_plot_transmissions_false",
    "Angler.C89_plt_abs",
    "Angler.C89_plt_re",
    "Angler.C89_plt_diff",
    "Angler.C89_plt_eps",
    "Angler.C89_unsolved",
    "Angler.C89_logged",
    "Angler.C89_run_logs",
    "Angler.C89_plt_objs",
    "Angler.C89_plt_objs_needs_axes",
    "Angler.C89_power_norm",
    "Angler.C89_plot_it_partial",
    "Angler.C89_plot_it_default_empty",
    "Angler.C89_plot_it_single",
    "Angler.C89_plot_it_Hz"
   ],
   "note": "plt_* and the logs: proved in full (C89_run_logs for gradient ascent, C89_logged for one iteration of every method). Partial for plot_it (C89_plot_it_partial) and plot_transmissions (C89_plot_transmissions_partial): false as stated, with C89_plot_it_default_empty (the default ('eps') is a string and draws nothing), C89_plot_it_single (a one-element tuple raises TypeError), C89_plot_it_Hz (Hz simulations raise TypeError), C89_plt_objs_needs_axes (plt_objs without axes always raises) and C89_plot_transmissions_false (the abscissa is the number of the point, not the amplitude) as negations."
  },
  {
   "property": "C90",
   "status": "proved",
   "theorems": [
    "Angler.C90_frames",
    "Angler.C90_frame_means",
    "Angler.C90_one_frame",
    "Angler.C90_layout_square_only",
    "Angler.C90_maxwell_Ez",
    "Angler.C90_maxwell_Hz",
    "Angler.C90_probe_x",
    "Angler.C90_probe_y",
    "Angler.C90_means"
   ],
   "note": "Proved in full, for linear solves. Also shown: the axes of the animation are laid out for the transposed shape, so they fit the frames only on square grids (C90_layout_square_only)."
  },
  {
   "property": "C91",
   "status": "partial",
   "theorems": [
    "Angler.C91_wavenumber",
    "Angler.C91_narrow_false",
    "Angler.C91_Hz_x_false",
    "Angler.C91_Hz_y_false",
    "Angler.C91_Ez_x_partial",
    "Angler.C91_Ez_y_partial",
    "Angler.C91_waves"
   ],
   "note": "Proved for Ez with a source line across the whole (periodic) cross-section and no layers on the transverse axis, both axes; waves and wave number along the axis. Missing and refuted with witnesses: a line that does not span the cross-section (C91_narrow_false); Hz along x, where the mode operator averages the permittivity along the wrong axis (C91_Hz_x_false); Hz along y, where the right current would be the profile divided by the permittivity (C91_Hz_y_false). Layers on the transverse axis are not seen by the mode operator and are excluded. The eigen-solver is a hypothesis (Spec.ModeSolver: eigenvectors, real up to a common factor)."
  },
  {
   "property": "C92",
   "status": "proved",
   "theorems": [
    "Angler.C92_eigen",
    "Angler.C92_det",
    "Angler.C92_resonance",
    "Angler.C92_solution",
    "Angler.C92_fourier",
    "Angler.C92_consistency",
    "Angler.C92_continuum",
    "Angler.C92_convergence"
   ],
   "note": "Both polarisations (for Hz the averaging of a uniform permittivity has no effect). Convergence for band-limited currents (finite sums of plane waves); the continuous field is exhibited and shown to solve the Helmholtz equation with explicit derivatives."
  },
  {
   "property": "C93",
   "status": "proved",
   "theorems": [
    "Angler.C93_turned",
    "Angler.C93_moved",
    "Angler.C93_mirrored",
    "Angler.C93_mirrored_y",
    "Angler.C93_kept",
    "Angler.C93_kept_turned",
    "Angler.C93_filter_turned",
    "Angler.C93_filter_mirror_false"
   ],
   "note": "Images: exchanged axes (C93_turned), motions (C93_moved), mirrors along x and y (C93_mirrored, C93_mirrored_y), for gd and Adam; symmetric problems keep symmetric densities (C93_kept, C93_kept_turned). get_W commutes with exchanging the axes (C93_filter_turned); with a periodic y axis and R = 2 it breaks the mirror symmetry (C93_filter_mirror_false). Mirrors across an absorbing layer are excluded: there even single solves differ (C74)."
  },
  {
   "property": "C94",
   "status": "partial",
   "theorems": [
    "Angler.C94_wide_Ez_partial",
    "Angler.C94_wide_Hz_partial",
    "Angler.C94_width_partial",
    "Angler.C94_single_Ez",
    "Angler.C94_single_Ez_false",
    "Angler.C94_single_Hz",
    "Angler.C94_single_Hz_false"
   ],
   "note": "Wide strips (at least two cells along y) proved for both polarisations (C94_wide_*_partial) and for two widths (C94_width_partial). The same claim for one cell across is refuted for every device with a nonzero source (C94_single_*_false); C94_single_Ez/Hz give the equations such devices do satisfy."
  },
  {
   "property": "C95",
   "status": "proved",
   "theorems": [
    "Angler.C95_two_port",
    "Angler.C95_three_port",
    "Angler.C95_ortho_port",
    "Angler.C95_flag",
    "Angler.C95_missing_calls",
    "Angler.C95_order",
    "Angler.C95_later_wins",
    "Angler.C95_unknown_structure",
    "Angler.C95_Hz",
    "Angler.C95_Q",
    "Angler.C95_axes",
    "Angler.C95_linear",
    "Angler.C95_stale_W_in"
   ],
   "note": "Exact powers, exact reals. The docstring's claim that the figures describe the device is false after _set_source_amplitude (C95_stale_W_in), for the axes (C95_axes) and for broad resonances (C95_Q): these are proved as they are."
  },
  {
   "property": "C96",
   "status": "proved",
   "theorems": [
    "Angler.C96_never",
    "Angler.C96_scan",
    "Angler.C96_high_power",
    "Angler.C96_retuned"
   ],
   "note": "get_spectrum never returns, on any device; scan_frequency characterised for the probes that work."
  },
  {
   "property": "C97",
   "status": "proved",
   "theorems": [
    "Angler.C97_uniform",
    "Angler.C97_guide_x",
    "Angler.C97_guide_y",
    "Angler.C97_waves",
    "Angler.C97_waves_y",
    "Angler.C97_row"
   ],
   "note": "Layers on both axes, on one axis, guides along x and y, single rows. Energy argument on each axis and common eigenvectors; devices with material varying in both directions are covered by C98 only."
  },
  {
   "property": "C98",
   "status": "proved",
   "theorems": [
    "Angler.C98_frequencies",
    "Angler.C98_frozen",
    "Angler.C98_background"
   ],
   "note": "Determinant as a polynomial of the frequency after clearing the stretch factors of each cell; nonzero because large frequencies are solvable (C75)."
  },
  {
   "property": "C99",
   "status": "proved",
   "theorems": [
    "Angler.C99_kept",
    "Angler.C99_waves",
    "Angler.C99_uniform",
    "Angler.C99_at_most_three",
    "Angler.C99_several",
    "Angler.C99_several_waves"
   ],
   "note": "Exact fields are fixed points of all solvers; explicit devices with three of them (uniform media). How many fields a general device has is not covered."
  },
  {
   "property": "C100",
   "status": "proved",
   "theorems": [
    "Angler.C100_screening",
    "Angler.C100_metal_device",
    "Angler.C100_adjoint",
    "Angler.C100_gradient"
   ],
   "note": "Maximum principle of the discrete equations in cells of negative permittivity; decay by induction on the depth; adjoint field through the diagonal scaling that makes the system matrix symmetric. The gradient part is for Ez without a filter (grad_linear_Ez)."
  },
  {
   "property": "C101",
   "status": "proved",
   "theorems": [
    "Angler.C101_error",
    "Angler.C101_fields",
    "Angler.C101_gradient",
    "Angler.C101_derivative",
    "Angler.C101_metal",
    "Angler.C101_not_uniform"
   ],
   "note": "Replaces the assumption of exact solvers (Env.Exact) by a bound on the residual (Env.Within) for linear Ez and Hz fields and for Ez objectives and gradients; C101_not_uniform shows that the accuracy must depend on the device. Rounding errors elsewhere (assembly, NumPy sums) are not covered."
  },
  {
   "property": "C102",
   "status": "proved",
   "theorems": [
    "Angler.C102_step",
    "Angler.C102_sharp",
    "Angler.C102_distance",
    "Angler.C102_width",
    "Angler.C102_permittivity",
    "Angler.C102_border_false"
   ],
   "note": "Proved for core pixels (distance 2R from the PML), sharp constant; the border is excluded and a counterexample there is proved (C102_border_false)."
  },
  {
   "property": "C103",
   "status": "proved",
   "theorems": [
    "Angler.C103_two_port",
    "Angler.C103_scales",
    "Angler.C103_ortho_port",
    "Angler.C103_fails",
    "Angler.C103_input_power",
    "Angler.C103_three_port_curves"
   ],
   "note": "Data handed to matplotlib; rendering, annotations and the drawing of the empty structure are not modelled, and the imports of plot_generator.py (packages fdfdpy and structures) are taken to succeed."
  },
  {
   "property": "C104",
   "status": "proved",
   "theorems": [
    "Angler.C104_force",
    "Angler.C104_unpatterned",
    "Angler.C104_bound",
    "Angler.C104_amplitude",
    "Angler.C104_moved",
    "Angler.C104_gradient_row",
    "Angler.C104_gradient_row_false",
    "Angler.C104_channels",
    "Angler.C104_multi"
   ],
   "note": "The value, the autograd derivative, bound, scaling, phase of the complex gain and the channels of accelerator_multi are proved for all inputs; C104_gradient_row says which objective the code's Ey gradient belongs to and C104_gradient_row_false that it is not the one asked for."
  },
  {
   "property": "C105",
   "status": "proved",
   "theorems": [
    "Angler.C105_autograd",
    "Angler.C105_values",
    "Angler.C105_no_kerr",
    "Angler.C105_straight",
    "Angler.C105_power",
    "Angler.C105_power_kerr",
    "Angler.C105_switch",
    "Angler.C105_splitter",
    "Angler.C105_splitter_N",
    "Angler.C105_symmetric",
    "Angler.C105_gradient",
    "Angler.C105_port"
   ],
   "note": "symmetric splitting is proved without absorbing layers in y, as the reflection theorem C74 is (its negation with layers is proved there)"
  },
  {
   "property": "C106",
   "status": "proved",
   "theorems": [
    "Angler.C106_mode",
    "Angler.C106_power",
    "Angler.C106_mode_shift",
    "Angler.C106_mode_slope",
    "Angler.C106_line",
    "Angler.C106_line_false",
    "Angler.C106_stable",
    "Angler.C106_field",
    "Angler.C106_newton",
    "Angler.C106_born_hybrid",
    "Angler.C106_transmission",
    "Angler.C106_scan",
    "Angler.C106_width"
   ],
   "note": "Low-power solutions (C106_field), what newton, born and hybrid return (C106_newton, C106_born_hybrid), the notebook's scan (C106_transmission, C106_scan), effective width (C106_width), exact nonlinear guided waves, their power and phase shift (C106_mode, C106_power, C106_mode_shift, C106_mode_slope), the ratio to the notebook's analytic line (C106_line) and the proof that it is not one (C106_line_false). The size of the stability constant is not computed; C106_stable gives one for every regular device. The existence of nonlinear guided modes beyond plane waves is a hypothesis of C106_mode_slope."
  },
  {
   "property": "C107",
   "status": "proved",
   "theorems": [
    "Angler.C107_double",
    "Angler.C107_mono",
    "Angler.C107_ends",
    "Angler.C107_range",
    "Angler.C107_eps",
    "Angler.C107_double_eps",
    "Angler.C107_accuracy",
    "Angler.C107_eps_accuracy",
    "Angler.C107_default",
    "Angler.C107_saturates",
    "Angler.C107_sum",
    "Angler.C107_filter",
    "Angler.C107_filter_range",
    "Angler.C107_default_range",
    "Angler.C107_filter_false"
   ],
   "note": "Spec.double is binary64 with ties to even and unlimited exponents; its tanh is correctly rounded, which libm's need not be. The general theorems ask only that tanh be monotone, odd and accurate to a relative error v. That the filter keeps rounded densities below 1 is false (C107_filter_false). Other modules keep exact numbers."
  },
  {
   "property": "C108",
   "status": "partial",
   "theorems": [
    "Angler.C108_frame",
    "Angler.C108_repair",
    "Angler.C108_consistent_partial",
    "Angler.C108_copy",
    "Angler.C108_stale_iff",
    "Angler.C108_solves_old",
    "Angler.C108_solves_old_Hz",
    "Angler.C108_halfway_iff"
   ],
   "note": "False when an array in use is written in place: C108_stale_iff, C108_halfway_iff (both exact criteria, Ez), C108_solves_old, C108_solves_old_Hz. Proved for programs without such writes (C108_consistent_partial); frame, copies and repair for every program (C108_frame, C108_copy, C108_repair). Permittivity arrays are complex and two-dimensional; sources and fields are values."
  },
  {
   "property": "C109",
   "status": "proved",
   "theorems": [
    "Angler.C109_constants",
    "Angler.C109_symmetric",
    "Angler.C109_real",
    "Angler.C109_entries",
    "Angler.C109_residual",
    "Angler.C109_field",
    "Angler.C109_double",
    "Angler.C109_precision"
   ],
   "note": "Ez polarisation; exponents are unbounded (no underflow/overflow); the complex reciprocal and the fourth power are library operations with an error bound. Doubles are an instance (C109_double)."
  },
  {
   "property": "C110",
   "status": "proved",
   "theorems": [
    "Angler.C110_gradient",
    "Angler.C110_layout",
    "Angler.C110_start",
    "Angler.C110_position"
   ],
   "note": "Structure, source placement, first value and first gradient of Accelerator.ipynb in one theorem (exact solver, R=None, period a whole number of cells). The wave form of the gradient is C110_gradient; a period that is not a whole number of cells is covered by the negation in C104_unpatterned."
  },
  {
   "property": "C111",
   "status": "proved",
   "theorems": [
    "Angler.C111_symmetric",
    "Angler.C111_real",
    "Angler.C111_entries",
    "Angler.C111_residual",
    "Angler.C111_field",
    "Angler.C111_double",
    "Angler.C111_precision",
    "Angler.C111_cancel"
   ],
   "note": "Proved for every rounding function with a relative error bound (exponent range unbounded); C111_cancel shows that the bound on cancellation cannot be dropped."
  },
  {
   "property": "C112",
   "status": "proved",
   "theorems": [
    "Angler.C112_floor",
    "Angler.C112_threshold",
    "Angler.C112_converges",
    "Angler.C112_stall"
   ],
   "note": "C112_floor (error after k+1 passes), C112_threshold (what stopping guarantees), C112_converges (an accuracy for every threshold), C112_stall (negation: thresholds up to the accuracy may never be met). The linear solver is any function whose relative residual in the maximum norm is at most t on nonsingular systems; other operations exact."
  },
  {
   "property": "C113",
   "status": "partial",
   "theorems": [
    "Angler.C113_default",
    "Angler.C113_source",
    "Angler.C113_agree",
    "Angler.C113_exact_partial",
    "Angler.C113_border",
    "Angler.C113_outside_partial",
    "Angler.C113_false",
    "Angler.C113_outside_false"
   ],
   "note": "Partial: exactness (C113_exact_partial) and vanishing outside the design region (C113_outside_partial) hold only under the stated conditions; C113_false and C113_outside_false prove the negations. C113_default, C113_agree, C113_source and C113_border hold in general."
  },
  {
   "property": "C114",
   "status": "proved",
   "theorems": [
    "Angler.C114_error",
    "Angler.C114_converges",
    "Angler.C114_accuracy"
   ],
   "note": "Env.WithinR bounds the relative residual (sup norm) of the real solver used by solver_complex2real; Env.Within that of the complex one. C114_error: the field returned (with the final linear pass). C114_converges: the threshold is reached with a fixed accuracy. C114_accuracy: such a neighbourhood and accuracy always exist. The solvers are arbitrary functions with that residual; rounding of the assembly itself is C109/C111."
  },
  {
   "property": "C115",
   "status": "proved",
   "theorems": [
    "Angler.C115_fixed_step",
    "Angler.C115_small_steps"
   ],
   "note": "C115_fixed_step: fixed d_rho, both reported numbers converge with the accuracy of the solver, uniformly over draws and solvers. C115_small_steps: for every tau > 0 a solver within tau whose numerical derivative diverges as d_rho -> 0."
  },
  {
   "property": "C116",
   "status": "partial",
   "theorems": [
    "Angler.C116_bind",
    "Angler.C116_unknown",
    "Angler.C116_missing",
    "Angler.C116_notebook_partial",
    "Angler.C116_J_false",
    "Angler.C116_missing_false",
    "Angler.C116_three_partial",
    "Angler.C116_no_waveguides",
    "Angler.C116_test_structure"
   ],
   "note": "Proved: the characterisation of accepted calls, and the calls of the notebooks. The full statement (every call in the repository binds as meant) is false; C116_J_false, C116_missing_false, C116_no_waveguides and C116_test_structure prove what happens instead."
  },
  {
   "property": "C117",
   "status": "partial",
   "theorems": [
    "Angler.C117_two_port",
    "Angler.C117_multi",
    "Angler.C117_one",
    "Angler.C117_channels",
    "Angler.C117_clear",
    "Angler.C117_N_port_partial",
    "Angler.C117_N_port_false",
    "Angler.C117_ortho_port_partial",
    "Angler.C117_ortho_port_false"
   ],
   "note": "two_port and the accelerators: proved. N_port and ortho_port: symmetric when no row or column lies in the margins of the offsets; otherwise false (C117_N_port_false, C117_ortho_port_false)."
  },
  {
   "property": "C118",
   "status": "proved",
   "theorems": [
    "Angler.C118_empty",
    "Angler.C118_born_newton",
    "Angler.C118_selector",
    "Angler.C118_J"
   ],
   "note": "test_born_newton for any two methods and any linear solver; test_gradient_selector; test_J. numpy's assert_allclose is modelled for finite arrays."
  },
  {
   "property": "C119",
   "status": "proved",
   "theorems": [
    "Angler.C119_probe",
    "Angler.C119_failed",
    "Angler.C119_later",
    "Angler.C119_linear"
   ],
   "note": "scipy's root finder is a parameter; what matplotlib does with one-dimensional arrays is not modelled."
  },
  {
   "property": "C120",
   "status": "proved",
   "theorems": [
    "Angler.C120_gd",
    "Angler.C120_adam",
    "Angler.C120_converges"
   ],
   "note": "The accuracy depends on the problem, the number of steps and the tolerance (compactness argument, no explicit bound). Partial derivatives of the objective are trusted to be what autograd returns (Spec.Autograd), as in C84; linear fields, Ez polarisation, no source control."
  },
  {
   "property": "C121",
   "status": "proved",
   "theorems": [
    "Angler.C121_gradient",
    "Angler.C121_derivative",
    "Angler.C121_uniform",
    "Angler.C121_born",
    "Angler.C121_newton"
   ],
   "note": "C121_gradient, C121_derivative: limits of the mixed adjoint gradient as fields and all linear solves become accurate; C121_born, C121_newton: end to end for weak Kerr devices and for coarse devices near any solution (pardiso backend for Newton); C121_uniform: Born fields and objective values with constants that serve every density between 0 and 1. Examples: point source on any grid, total nonlinear intensity, a linear solver that is never exact."
  },
  {
   "property": "C122",
   "status": "proved",
   "theorems": [
    "Angler.C122_uniform",
    "Angler.C122_lbfgs",
    "Angler.C122_run"
   ],
   "note": "C122_uniform: compactness of the box and joint continuity in density and solves; C122_lbfgs, C122_run: invariant over all call sequences; the closures evaluate at one density near y, and callbacks record the value there."
  }
 ]
}
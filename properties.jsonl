{"id": "C01", "title": "Projection keeps densities physical", "statement": "rhot2rhob(rhot, eta, beta) sends 0 to 0 and 1 to 1, is strictly increasing, and maps [0,1] into [0,1]; so a filtered density in range projects to a permittivity between 1 and eps_m.", "quantifier": "every real eta, every beta > 0, every real density", "why_tests_cant": "uncountably many (eta, beta, rho); a sample cannot exclude a denominator zero or a non-monotone stretch", "anchors": ["angler/filter.py:rhot2rhob", "angler/filter.py:rhob2eps"]}
{"id": "C02", "title": "The projection derivative is the derivative of the projection", "statement": "drhob_drhot(rhot, eta, beta) is exactly d rhot2rhob / d rhot at every density.", "quantifier": "every eta, beta != 0, density", "why_tests_cant": "finite differences only sample and cannot separate truncation error from a wrong formula", "anchors": ["angler/filter.py:drhob_drhot", "angler/filter.py:rhot2rhob"]}
{"id": "C03", "title": "beta -> 0 means no projection, beta -> infinity means a hard threshold", "statement": "As beta tends to 0 the projected density tends to the unprojected density; as beta tends to infinity (0<eta<1) it tends to 0 below eta and to 1 above eta.", "quantifier": "every eta and density; limits in beta", "why_tests_cant": "a limit statement is about all small (large) beta", "anchors": ["angler/filter.py:rhot2rhob", "angler/optimization.py:Optimization.__init__"]}
{"id": "C04", "title": "Density and permittivity are inverse parametrisations", "statement": "eps2rho and rhob2eps (and eps2rho_bar / rho_bar2eps in utils) are mutually inverse whenever eps_m != 1, and for eps_m > 1 the permittivity lies in [1, eps_m] iff the density lies in [0,1].", "quantifier": "every eps, rho, eps_m != 1", "why_tests_cant": "continuum of values", "anchors": ["angler/filter.py:eps2rho", "angler/filter.py:rhob2eps", "angler/utils.py:eps2rho_bar", "angler/utils.py:rho_bar2eps"]}
{"id": "C05", "title": "The density filter leaves pixels outside the design region alone", "statement": "For any W returned by get_W and any density, the filtered density equals the density at each pixel where design_region is 0.", "quantifier": "every grid size, design region, NPML, R and density", "why_tests_cant": "all grids and all densities", "anchors": ["angler/filter.py:get_W", "angler/filter.py:rho2rhot"]}
{"id": "C06", "title": "The density filter is an average", "statement": "For any W returned by get_W, filtering a constant density gives that constant, and filtering a density with values in [0,1] gives values in [0,1].", "quantifier": "every grid, design region, NPML, R, density", "why_tests_cant": "the failing cases are design pixels within R of the margin left by get_W: they depend on the geometry", "anchors": ["angler/filter.py:get_W", "angler/filter.py:rho2rhot"]}
{"id": "C07", "title": "The density filter wraps around in periodic directions", "statement": "When NPML is 0 along an axis, get_W succeeds and couples each design pixel with its neighbours modulo the grid length along that axis with the weight R - distance.", "quantifier": "every grid size and R >= 1 with NPML 0 along an axis", "why_tests_cant": "depends on grid boundary and on R; the tests never build a filter", "anchors": ["angler/filter.py:get_W", "angler/filter.py:wrap"]}
{"id": "C08", "title": "Finite-difference operators act as periodic forward / backward differences on the grid", "statement": "createDws('x'|'y','f'|'b',dL,N) applied to the flattened field is the flattened forward/backward difference of the field along that axis with periodic wrap-around, divided by the spacing; in particular a field that is constant along the axis has zero derivative.", "quantifier": "every grid size Nx, Ny >= 1, spacing, field", "why_tests_cant": "all sizes, including the size-1 and size-2 edge cases", "anchors": ["angler/derivatives.py:createDws"]}
{"id": "C09", "title": "Forward and backward differences are negative transposes", "statement": "createDws(w,'f') equals minus the transpose of createDws(w,'b'), hence without PML the operator Dxf Dxb + Dyf Dyb is real symmetric and negative semidefinite.", "quantifier": "every grid size >1 along the axis and every spacing", "why_tests_cant": "all sizes", "anchors": ["angler/derivatives.py:createDws"]}
{"id": "C10", "title": "PML stretch factors are absorbing and never singular", "statement": "create_sfactor returns numbers with real part 1 and imaginary part <= 0, so they are never zero and their inverses have modulus at most 1; with Nw_pml < 1 all are 1, and all cells that are farther than the layer from both ends have factor exactly 1.", "quantifier": "every grid, layer size, positive frequency and length scale, direction", "why_tests_cant": "all sizes and frequencies", "anchors": ["angler/pml.py:create_sfactor", "angler/pml.py:S", "angler/pml.py:sig_w", "angler/pml.py:S_create"]}
{"id": "C11", "title": "The PML has the requested thickness on both sides", "statement": "NPML cells at each end of an axis carry absorption, and the profile is the mirror image at the two ends.", "quantifier": "every grid size and NPML >= 1 with 2*NPML < N", "why_tests_cant": "an off-by-one in the layer shows only as slightly more reflection", "anchors": ["angler/pml.py:create_sfactor"]}
{"id": "C12", "title": "Reciprocity", "statement": "Exchanging source and detector leaves the response unchanged: for sources b1,b2 supported outside the PML and the fields x1,x2 the system matrix assigns to them, b2.x1 = b1.x2, for both polarisations.", "quantifier": "every permittivity, grid, PML, frequency and pair of sources", "why_tests_cant": "infinitely many systems", "anchors": ["angler/linalg.py:construct_A", "angler/simulation.py:Simulation.solve_fields"]}
{"id": "C13", "title": "solve_fields returns a solution of the discrete Maxwell equations (Ez)", "statement": "For Ez polarisation the returned (Hx,Hy,Ez) satisfy Faraday's law Hx = -Dyb Ez/(i w mu), Hy = Dxb Ez/(i w mu) and Ampere's law Dxf Hy - Dyf Hx - i w eps Ez = src at each cell, when the system matrix is invertible or the source is zero.", "quantifier": "every grid, permittivity, source, frequency, PML", "why_tests_cant": "residual identity for all systems", "anchors": ["angler/simulation.py:Simulation.solve_fields", "angler/linalg.py:construct_A", "angler/linalg.py:solver_direct"]}
{"id": "C14", "title": "solve_fields returns a solution of the discrete Maxwell equations (Hz)", "statement": "For Hz polarisation the returned (Ex,Ey,Hz) satisfy Dyf Ex - Dxf Ey - i w mu Hz = src at every cell.", "quantifier": "every grid, permittivity, source, frequency, PML, averaging flag", "why_tests_cant": "depends on the permittivity profile; uniform permittivity hides the defect", "anchors": ["angler/simulation.py:Simulation.solve_fields", "angler/linalg.py:construct_A", "angler/linalg.py:grid_average"]}
{"id": "C15", "title": "Fields are linear in the source", "statement": "solve_fields with source a*s1 + b*s2 returns a times the fields of s1 plus b times those of s2 (all three components); a zero source gives zero fields.", "quantifier": "every invertible system, all sources and complex scalars", "why_tests_cant": "all pairs of sources", "anchors": ["angler/simulation.py:Simulation.solve_fields", "angler/linalg.py:solver_direct"]}
{"id": "C16", "title": "The complex-to-real solver solves the coupled system", "statement": "solver_complex2real(A11,A12,b) returns x with A11 x + A12 conj(x) = b, for every backend the package supports.", "quantifier": "every size, A11, A12, b", "why_tests_cant": "all matrices; and a backend-dependent crash", "anchors": ["angler/linalg.py:solver_complex2real"]}
{"id": "C17", "title": "Assigning eps_r invalidates stored fields and rebuilds the system", "statement": "After any history of operations, every stored linear field is the one of the current permittivity: assigning eps_r rebuilds A and the derivative operators and clears all stored linear and nonlinear components, so no component computed for an older permittivity is ever visible.", "quantifier": "every history of Simulation operations (assign eps_r, assign src, solve, nonlinear solve, add_nl, init_design_region)", "why_tests_cant": "all histories", "anchors": ["angler/simulation.py:Simulation.eps_r", "angler/simulation.py:Simulation.solve_fields", "angler/simulation.py:Simulation.solve_fields_nl"]}
{"id": "C18", "title": "Only components of the simulation's polarisation are ever stored", "statement": "After every history, stored components not belonging to pol are None; and solve_fields stores exactly the triple that it returns.", "quantifier": "every history", "why_tests_cant": "all histories", "anchors": ["angler/simulation.py:Simulation.solve_fields", "angler/simulation.py:Simulation.eps_r"]}
{"id": "C19", "title": "Nonlinear solves do not disturb the linear solution", "statement": "solve_fields(include_nl=True) and the nonlinear solvers never overwrite stored linear fields, the source, the permittivity or the system matrix.", "quantifier": "every history, every solver", "why_tests_cant": "all histories", "anchors": ["angler/simulation.py:Simulation.solve_fields", "angler/nonlinear_solvers.py:born_solve", "angler/nonlinear_solvers.py:newton_solve"]}
{"id": "C20", "title": "Constructor validation", "statement": "Simulation(...) is accepted only if L0>0, omega>0, NPML is a list of two non-negative numbers and pol is 'Ez' or 'Hz'; otherwise AssertionError and no object.", "quantifier": "every argument tuple", "why_tests_cant": "all inputs", "anchors": ["angler/simulation.py:Simulation._check_inputs", "angler/simulation.py:Simulation.__init__"]}
{"id": "C21", "title": "init_design_region touches only the design region", "statement": "For each style, pixels outside design_region keep their permittivity, pixels inside get a value in [1, eps_m] (exactly eps_m, (eps_m+1)/2, 1 for full/halfway/empty), rho is the density of the new permittivity, and the call leaves arrays owned by the caller and other Simulation objects unchanged.", "quantifier": "every permittivity, 0/1 design region, eps_m, style and random draw; every heap aliasing", "why_tests_cant": "aliasing and randomness", "anchors": ["angler/simulation.py:Simulation.init_design_region"]}
{"id": "C22", "title": "Kerr permittivity shift", "statement": "Each Kerr nonlinearity gives eps_nl = 3 chi nl_region |E|^2 (times the density when eps_scale), real wherever the permittivity is real, zero outside nl_region, non-negative for chi >= 0 and eps >= 1, unchanged under a global phase of E, and contributions of several nonlinearities add.", "quantifier": "every field, permittivity, chi, region, list of nonlinearities", "why_tests_cant": "all fields", "anchors": ["angler/nonlinearity.py:Nonlinearity", "angler/simulation.py:Simulation.compute_nl"]}
{"id": "C23", "title": "The Newton Jacobian is the derivative of the nonlinear equation", "statement": "nl_eq_and_jac returns (f, J11, J12) with f(E) = (A + w^2 eps0 eps_nl(E)) E - i w src and, for every direction h, the real directional derivative of f at E along h is J11 h + J12 conj(h).", "quantifier": "every field, direction, list of Kerr nonlinearities, permittivity", "why_tests_cant": "derivative at all points", "anchors": ["angler/nonlinear_solvers.py:nl_eq_and_jac", "angler/nonlinearity.py:Nonlinearity", "angler/simulation.py:Simulation.compute_nl"]}
{"id": "C24", "title": "Fixed points of the Born and Newton iterations are exact nonlinear solutions", "statement": "A field is left unchanged by one Born step (resp. Newton step) iff it solves the nonlinear Maxwell equation, provided the linear systems met are invertible.", "quantifier": "every simulation and field", "why_tests_cant": "all fields", "anchors": ["angler/nonlinear_solvers.py:born_solve", "angler/nonlinear_solvers.py:newton_solve"]}
{"id": "C25", "title": "A converged nonlinear solve satisfies the nonlinear equation to the reported tolerance", "statement": "If the Born solver reports convergence below the threshold, the returned field satisfies the nonlinear equation with residual bounded by the change in nonlinear permittivity between the last two iterates times the field; the reported convergence is the relative change of the last step.", "quantifier": "every simulation, start, threshold, iteration limit", "why_tests_cant": "all iterations", "anchors": ["angler/nonlinear_solvers.py:born_solve"]}
{"id": "C26", "title": "Nonlinear solver bookkeeping", "statement": "conv has max_num_iter rows; rows up to the stopping step hold each step's relative change, later rows are zero; all rows before the stopping one are not below the threshold; no more than max_num_iter steps are made; max_num_iter = 0 raises instead of returning.", "quantifier": "every threshold and limit, every convergence history", "why_tests_cant": "all histories", "anchors": ["angler/nonlinear_solvers.py:born_solve", "angler/nonlinear_solvers.py:newton_solve", "angler/simulation.py:Simulation.solve_fields_nl"]}
{"id": "C27", "title": "The hybrid solver switches to Newton exactly when Born did not converge", "statement": "solve_fields_nl(solver_nl='hybrid') returns Born's result if Born converged below 1e-10 within 20 steps, and otherwise the result of Newton started from Born's field.", "quantifier": "every simulation and convergence history", "why_tests_cant": "all convergence histories, incl. NaN", "anchors": ["angler/simulation.py:Simulation.solve_fields_nl", "angler/nonlinear_solvers.py:born_solve"]}
{"id": "C28", "title": "Without nonlinearity the nonlinear solve equals the linear solve", "statement": "If no (or zero-chi) nonlinearity is present the nonlinear fields equal the linear ones.", "quantifier": "every simulation, solver born/newton/hybrid", "why_tests_cant": "all simulations", "anchors": ["angler/simulation.py:Simulation.solve_fields_nl", "angler/nonlinear_solvers.py:born_solve"]}
{"id": "C29", "title": "The adjoint gradient is the exact gradient (linear Ez)", "statement": "compute_dJ for an objective of the linear Ez field returns, at every design pixel, the exact derivative of J(Ez(rho)) with respect to rho there (with rho -> filter -> projection -> permittivity -> solve -> J).", "quantifier": "every system, real-differentiable J, filter W, eta, beta, density", "why_tests_cant": "derivative identity; finite differences sample few pixels with tolerance 1e-3", "anchors": ["angler/gradients.py:grad_linear_Ez", "angler/adjoint.py:adjoint_linear_Ez", "angler/optimization.py:Optimization.compute_dJ"]}
{"id": "C30", "title": "The adjoint gradient is exact for Hx and Hy objectives", "statement": "Same as the Ez statement for objectives of the linear Hx and Hy fields.", "quantifier": "every system, J, W, eta, beta, density", "why_tests_cant": "derivative identity", "anchors": ["angler/gradients.py:grad_linear_Hx", "angler/gradients.py:grad_linear_Hy"]}
{"id": "C31", "title": "The adjoint gradient is exact for the Kerr-nonlinear Ez field", "statement": "At an exact nonlinear solution compute_dJ returns the exact derivative of J(Ez_nl(rho)) at each design pixel, and the adjoint field's two halves are conjugate.", "quantifier": "every Kerr system with nonsingular Jacobian, J, density", "why_tests_cant": "derivative identity", "anchors": ["angler/gradients.py:grad_kerr_Ez", "angler/adjoint.py:adjoint_kerr_Ez"]}
{"id": "C32", "title": "The adjoint gradient is exact for Hz-polarisation objectives", "statement": "For Hz polarisation compute_dJ of an objective of the linear Hz field is the exact derivative with respect to the density.", "quantifier": "every system, J, density", "why_tests_cant": "derivative identity", "anchors": ["angler/gradients.py:grad_linear_Hz", "angler/adjoint.py:adjoint_linear_Hz"]}
{"id": "C33", "title": "The gradient vanishes outside the design region", "statement": "Every gradient component at a pixel with design_region 0 is 0, so gradient steps never move those densities.", "quantifier": "every system, W from get_W or identity, J", "why_tests_cant": "all systems", "anchors": ["angler/gradients.py:grad_linear_Ez", "angler/gradients.py:grad_kerr_Ez", "angler/gradients.py:grad_linear_Hz", "angler/filter.py:get_W"]}
{"id": "C34", "title": "Objective arguments and gradients are matched up", "statement": "An Objective is constructible iff the number of arguments of J equals the number of obj_args; then there is exactly one partial and one gradient function per argument, the gradient is the one for the argument's component and linearity; compute_J succeeds iff every component belongs to the simulation's polarisation; compute_dJ is supported for every component/linearity the constructor accepts.", "quantifier": "every arg list, arity, polarisation", "why_tests_cant": "all arg lists", "anchors": ["angler/objective.py:Objective", "angler/objective.py:obj_arg", "angler/optimization.py:Optimization.compute_dJ", "angler/gradients.py:grad_kerr_Hx"]}
{"id": "C35", "title": "compute_J returns the objective of the simulation it is given", "statement": "For every history, compute_J(sim) equals J evaluated on the freshly solved fields of sim in its present state.", "quantifier": "every history of compute_J / compute_dJ / check_deriv / scan_frequency / run calls and edits of simulations", "why_tests_cant": "histories", "anchors": ["angler/optimization.py:Optimization.compute_J", "angler/optimization.py:Optimization._solve_objfn_arg_fields"]}
{"id": "C36", "title": "Optimisation keeps the device physical", "statement": "During run('gd') and run('adam') the densities stay in [0,1] and permittivities stay in [1, eps_m] at each step for any gradients and step sizes.", "quantifier": "every number of steps, gradients, step size", "why_tests_cant": "all trajectories", "anchors": ["angler/optimization.py:Optimization._update_rho", "angler/optimization.py:Optimization._run_GD", "angler/optimization.py:Optimization._run_ADAM"]}
{"id": "C37", "title": "Optimisation never changes pixels outside the design region", "statement": "Density and permittivity of pixels with design_region 0 are the same after any number of optimisation steps as before.", "quantifier": "every method, history, permittivity outside the region", "why_tests_cant": "all trajectories", "anchors": ["angler/optimization.py:Optimization._update_rho", "angler/optimization.py:Optimization._set_design_region", "angler/filter.py:rho2eps"]}
{"id": "C38", "title": "Per-iteration logs stay aligned", "statement": "After any sequence of runs, objfn_list and src_amplitudes have one entry per iteration and equal lengths, and earlier entries never change.", "quantifier": "every sequence of run calls", "why_tests_cant": "histories", "anchors": ["angler/optimization.py:Optimization._run_GD", "angler/optimization.py:Optimization._run_ADAM", "angler/optimization.py:Optimization._run_LBFGS", "angler/optimization.py:Optimization._set_source_amplitude"]}
{"id": "C39", "title": "Adam moments are bias corrected", "statement": "The corrected first moment is a weighted average of all gradients seen (weights non-negative, summing to 1), the corrected second moment the same of squared gradients; so for a constant gradient g the step is g/(|g|+1e-8) at each iteration.", "quantifier": "every gradient sequence, 0<=beta1,beta2<1", "why_tests_cant": "all sequences", "anchors": ["angler/optimization.py:Optimization._step_adam", "angler/optimization.py:Optimization._run_ADAM"]}
{"id": "C40", "title": "Design vector extraction and insertion are inverse", "statement": "_get_design_region after _set_design_region(x) gives x (up to the documented 1e-10 relative tolerance), other densities are unchanged, vectors that do not fit raise ValueError without any change (numpy broadcasts single values; a single design pixel accepts longer vectors equal to its density), and L-BFGS's final state is the optimiser's final vector.", "quantifier": "every design region, density, vector", "why_tests_cant": "all vectors", "anchors": ["angler/optimization.py:Optimization._set_design_region", "angler/optimization.py:Optimization._get_design_region", "angler/optimization.py:Optimization._run_LBFGS"]}
{"id": "C41", "title": "During L-BFGS the permittivity is the image of the density", "statement": "Whenever the objective or gradient is evaluated, simulation.eps_r equals rho2eps(simulation.rho).", "quantifier": "every sequence of optimiser callbacks, every starting state", "why_tests_cant": "all callback sequences", "anchors": ["angler/optimization.py:Optimization._run_LBFGS", "angler/optimization.py:Optimization._set_design_region"]}
{"id": "C42", "title": "FWHM is the width of the half-maximum peak at the centre frequency", "statement": "scan_frequency's FWHM is (number of samples in the contiguous run above half maximum around the centre sample) x (frequency spacing).", "quantifier": "every list of objective values, Nf", "why_tests_cant": "all lists", "anchors": ["angler/optimization.py:Optimization.scan_frequency"]}
{"id": "C43", "title": "Scans leave the simulation alone", "statement": "scan_frequency and check_deriv work on deep copies: scan_frequency leaves the whole simulation as it was; check_deriv leaves source, frequency and density as they were, sets the permittivity to the projected density and solves the fields there, and its perturbed devices leave no trace in the simulation.", "quantifier": "every simulation and Nf/Npts", "why_tests_cant": "all states", "anchors": ["angler/optimization.py:Optimization.scan_frequency", "angler/optimization.py:Optimization.check_deriv"]}
{"id": "C44", "title": "Source amplitude control", "statement": "When max_ind_shift is set, the updated source keeps the index shift (which scales with the square of the amplitude) at or below max_ind_shift.", "quantifier": "every source, shift, epsilon", "why_tests_cant": "all amplitudes", "anchors": ["angler/optimization.py:Optimization._set_source_amplitude", "angler/simulation.py:Simulation.compute_index_shift"]}
{"id": "C45", "title": "Density binariser", "statement": "Binarizer.density multiplies J by a factor in [0,1] which is 1 iff every design pixel is binary and 0 iff each is exactly halfway.", "quantifier": "every permittivity in [1,eps_m], 0/1 region", "why_tests_cant": "all permittivities", "anchors": ["angler/utils.py:Binarizer.density"]}
{"id": "C46", "title": "Exponential binariser", "statement": "Binarizer.density_exp multiplies J by a factor in (0,1], equal to 1 iff binary (exp_const > 0), decreasing in the grayness.", "quantifier": "every permittivity", "why_tests_cant": "all permittivities", "anchors": ["angler/utils.py:Binarizer.density_exp"]}
{"id": "C47", "title": "Smoothness binariser", "statement": "Binarizer.smoothness measures smoothness of the permittivity: it is in [0,1] and distinguishes permittivities with equal gray level but different spatial arrangement.", "quantifier": "every permittivity", "why_tests_cant": "all permittivities", "anchors": ["angler/utils.py:Binarizer.smoothness"]}
{"id": "C48", "title": "A binarised objective can be optimised", "statement": "For a J with arguments (e, e_nl, eps), Objective(binarizer.density(J), args) can be constructed and evaluated.", "quantifier": "every J and arg list", "why_tests_cant": "all arg lists", "anchors": ["angler/utils.py:Binarizer.density", "angler/objective.py:Objective"]}
{"id": "C49", "title": "Region painting is a union", "statement": "apply_regions returns eps_start exactly on the union of the regions and the background elsewhere; so it does not depend on order or duplicates; each design_region built in structures is 0/1 valued.", "quantifier": "every list of regions, grid", "why_tests_cant": "all lists", "anchors": ["angler/structures.py:apply_regions", "angler/structures.py:three_port", "angler/structures.py:two_port", "angler/structures.py:N_port", "angler/structures.py:ortho_port", "angler/structures.py:accelerator"]}
{"id": "C50", "title": "Structures are symmetric and centred", "statement": "get_grid is symmetric about 0 with spacing dl, and two_port, three_port are mirror symmetric in y.", "quantifier": "every dimension, spacing, NPML", "why_tests_cant": "all dimensions", "anchors": ["angler/structures.py:get_grid", "angler/structures.py:two_port", "angler/structures.py:three_port"]}
{"id": "C51", "title": "flux_probe integrates the Poynting flux on the requested line", "statement": "flux_probe('x',[c,yc],w) is dl * sum over the line of Re(S_x) with the fields on the two columns c, c+1; negative indices count from the end; lines reaching the grid's end work like others.", "quantifier": "every grid, centre (incl. negative), width, field", "why_tests_cant": "index arithmetic for all sizes", "anchors": ["angler/simulation.py:Simulation.flux_probe", "angler/linalg.py:grid_average"]}
{"id": "C52", "title": "Power is quadratic in amplitude and insensitive to global phase", "statement": "Scaling all fields by a complex s scales flux_probe by |s|^2.", "quantifier": "every field, scalar", "why_tests_cant": "all fields", "anchors": ["angler/simulation.py:Simulation.flux_probe"]}
{"id": "C53", "title": "Mode sources are written only on the mode line and scale with the requested amplitude", "statement": "setup_modes changes the source only on the mode's line, is idempotent, and the inserted source for real scale s is s times the one for scale 1.", "quantifier": "every eigenvector, line, scale", "why_tests_cant": "all modes", "anchors": ["angler/source/mode.py:mode.insert_mode", "angler/simulation.py:Simulation.setup_modes"]}
{"id": "C54", "title": "Input power normalisation", "statement": "compute_normalization stores the flux of the mode through a straight waveguide, for any admissible centre, including negative ones.", "quantifier": "every mode centre", "why_tests_cant": "index arithmetic", "anchors": ["angler/source/mode.py:mode.compute_normalization"]}
{"id": "C55", "title": "grid_average is an average", "statement": "grid_average preserves constants, total sum and bounds, and acts along the requested axis only.", "quantifier": "every array and axis", "why_tests_cant": "all arrays", "anchors": ["angler/linalg.py:grid_average"]}
{"id": "C56", "title": "Grid spacing consistency", "statement": "The spacing used in the derivative operators is dl/L-independent: dL(N, xrange, yrange) = (dl, dl) for the simulation's own grid, after construction and after each assignment of a permittivity.", "quantifier": "every shape history", "why_tests_cant": "histories with shape changes", "anchors": ["angler/linalg.py:dL", "angler/simulation.py:Simulation.eps_r", "angler/simulation.py:Simulation.__init__"]}
{"id": "C57", "title": "Utility functions are usable", "statement": "utils.deps_drho_bar is the derivative of rho_bar2eps; utils.drho_bar_drho and constants.n2_from_chi3 return values.", "quantifier": "every argument", "why_tests_cant": "name errors on all paths", "anchors": ["angler/utils.py:deps_drho_bar", "angler/utils.py:drho_bar_drho", "angler/constants.py:n2_from_chi3"]}
{"id": "C58", "title": "run starts from any simulation", "statement": "Optimization.run works on a Simulation whose density was not initialised (it derives it from the permittivity) and rejects unknown methods with ValueError.", "quantifier": "every simulation, method string", "why_tests_cant": "attribute errors", "anchors": ["angler/optimization.py:Optimization.run"]}
{"id": "C59", "title": "A frequency scan evaluates the objective at the stated frequencies", "statement": "For a linear objective and Nf >= 2, scan_frequency returns, and its k-th value is the objective on the fields of a newly constructed simulation with the same permittivity, grid, PML, polarisation and source at frequency omega*(1 + df*(k/(Nf-1) - 1/2)).", "quantifier": "every optimisation with a linear objective, Nf, df, k", "why_tests_cant": "every simulation and scan", "anchors": ["angler/optimization.py:Optimization.scan_frequency"]}
{"id": "C60", "title": "Mode sources do not depend on the eigen-solver's phase", "statement": "Eigenvectors are determined up to a complex factor; the source inserted by a mode is the same, up to a global sign, whatever unit phase the eigen-solver returns.", "quantifier": "every mode, simulation, phase", "why_tests_cant": "the phase depends on a random start vector", "anchors": ["angler/source/mode.py:mode.insert_mode", "angler/linalg.py:solver_eigs"]}
{"id": "C61", "title": "Power balance of the solved fields", "statement": "For the fields returned by solve_fields and every rectangle of cells outside the absorbing layers, the power flowing out through its sides equals the power delivered by the source inside minus the power absorbed inside (discrete Poynting theorem), for Ez, and for Hz with averaging.", "quantifier": "every valid simulation, permittivity, source, rectangle; system matrix nonsingular (or no source)", "why_tests_cant": "a relation between all cells of a rectangle, for all devices", "anchors": ["angler/simulation.py:Simulation.solve_fields", "angler/linalg.py:construct_A"]}
{"id": "C62", "title": "The flux probe reports the power of the power balance", "statement": "After a linear solve, flux_probe returns the power through the faces of the probed line as it enters the power balance; in particular probes on the two sides of a lossless source-free region agree.", "quantifier": "every Ez simulation and line inside the grid and outside the layers", "why_tests_cant": "an average over the wrong pair of cells is a small error on fine grids", "anchors": ["angler/simulation.py:Simulation.flux_probe"]}
{"id": "C63", "title": "Strength of the absorbing layer", "statement": "The PML profile attenuates a normally incident vacuum wave by exactly exp(-12) over the round trip, for every thickness, frequency and length unit; create_sfactor samples this profile at the depth of each cell.", "quantifier": "every thickness, frequency, L0, grid", "why_tests_cant": "involves the integral of the profile and all units", "anchors": ["angler/pml.py:sig_w", "angler/pml.py:S", "angler/pml.py:create_sfactor"]}
{"id": "C64", "title": "The length unit is immaterial", "statement": "Describing the same device in a length unit a times larger (L0 multiplied by a; lengths divided by a; current densities multiplied by a^2; Kerr coefficients given in SI) gives the same physics: the constructor accepts or rejects both descriptions alike, add_nl keeps them equivalent, linear solves return and store the same fields converted to the new unit, nonlinear solves (every solver string, threshold, iteration limit, starting field) raise the same exception or return the converted fields with the identical convergence history, and the flux probe reads the same power converted. It holds on grids with at least two cells along each axis; on a one-cell axis it is false.", "quantifier": "all scale factors a > 0, all grids with at least two cells per axis, all permittivities, sources, PML thicknesses, polarisations, frequencies and nonlinear materials for which the systems met are regular, all solver settings", "why_tests_cant": "L0, dl, chi and the PML conductivity enter in a dozen places with different powers; a test fixes one unit (L0 = 1e-6) and a missing power of L0 is invisible there.", "anchors": ["angler/simulation.py: Simulation.__init__, add_nl, solve_fields, solve_fields_nl, compute_nl, flux_probe", "angler/linalg.py: construct_A", "angler/pml.py: S_create, sig_w", "angler/nonlinear_solvers.py"]}
{"id": "C65", "title": "A power scan measures the device at each source amplitude", "statement": "scan_power records, for each of Ns amplitudes with equal ratios from s_min to s_max, the input power of the first mode scaled to that amplitude and, per probe, the probe's reading after the nonlinear solve at that amplitude divided by that power. If the mode is the only source the recorded powers are the squared amplitudes times the power at scale 1, and in a device without effective nonlinearity the transmission read on the nonlinear field is the same at every amplitude.", "quantifier": "all grids, devices, first modes, lists of (pure) probes, numbers of points, positive bounds and solver choices for which the scan returns; regular system matrices for the two scaling laws", "why_tests_cant": "A test scans a handful of amplitudes of one device with one solver; the scaling laws and the pairing of entries with amplitudes are claims about every device, every probe list and every amplitude.", "anchors": ["angler/optimization.py:Optimization.scan_power", "angler/source/mode.py:mode.setup_src", "angler/source/mode.py:mode.compute_normalization", "angler/source/mode.py:mode.insert_mode", "angler/simulation.py:Simulation.solve_fields_nl", "angler/simulation.py:Simulation.flux_probe"]}
{"id": "C66", "title": "A power scan with the documented probe reads the nonlinear field at each amplitude", "statement": "With a probe of the form given in the documentation, lambda simulation: simulation.flux_probe(direction, center, width), the transmissions returned by scan_power are those of the nonlinear field at each amplitude, and they do not depend on what was solved before the scan.", "quantifier": "all grids, devices, nonlinearities, modes, probes and solvers; simulations solved or not solved before the scan", "why_tests_cant": "The reading depends on whether linear fields are stored in the simulation before the scan; a test fixes one history, and the wrong numbers look like plausible transmissions.", "anchors": ["angler/optimization.py:Optimization.scan_power", "angler/simulation.py:Simulation.flux_probe", "angler/nonlinear_solvers.py:born_solve", "angler/nonlinear_solvers.py:newton_solve"]}
{"id": "C67", "title": "A small step of gradient ascent increases the objective", "statement": "Unless the density already is a first-order optimum under its bounds, one iteration of run('gd') and the first iteration of run('adam') with a small enough positive step size strictly increase the objective function of the optimization.", "quantifier": "all grids, sources, design regions, densities in [0,1], projections, objective functions of linear fields with linear adjoint sources; both polarisations; every step size below a problem-dependent bound", "why_tests_cant": "A test runs a few iterations of one device; the claim is about every device and every objective, and the failing cases (Hz) look like an ordinary slow optimization.", "anchors": ["angler/optimization.py:Optimization._solve_objfn_arg_fields", "angler/optimization.py:Optimization.compute_J", "angler/optimization.py:Optimization.compute_dJ", "angler/optimization.py:Optimization.run", "angler/optimization.py:Optimization._run_GD", "angler/optimization.py:Optimization._run_ADAM", "angler/optimization.py:Optimization.plot_it", "angler/optimization.py:Optimization._set_design_region", "angler/gradients.py:grad_linear_Ez", "angler/gradients.py:grad_linear_Hx"]}
{"id": "C68", "title": "Gradient ascent stops exactly at first-order optima", "statement": "For an Ez objective and a filter that is symmetric on the design region, one iteration of run('gd') with positive step size leaves the density unchanged if and only if no admissible direction (within the design region and the bounds 0 and 1) has a positive directional derivative of the objective.", "quantifier": "all grids, sources, masks, densities in [0,1], projections and linear-field Ez objectives; all positive step sizes; all admissible directions", "why_tests_cant": "The statement quantifies over all directions of change of the density and characterises every fixed point of the iteration; a test can only probe single directions at single points.", "anchors": ["angler/optimization.py:Optimization._solve_objfn_arg_fields", "angler/optimization.py:Optimization.compute_J", "angler/optimization.py:Optimization.compute_dJ", "angler/optimization.py:Optimization.run", "angler/optimization.py:Optimization._run_GD", "angler/optimization.py:Optimization.plot_it"]}
{"id": "C69", "title": "check_deriv compares the gradient with difference quotients of the objective", "statement": "check_deriv returns, for each randomly drawn design pixel, the adjoint gradient at that pixel and the difference quotient of the objective in the density of that pixel; the two agree in the limit d_rho -> 0; and the call leaves the optimization such that the next objective value is the one of its own, unperturbed simulation.", "quantifier": "all grids, sources, densities, design regions, filters, linear-field objectives of either polarisation, all lists of draws and all d_rho != 0", "why_tests_cant": "check_deriv is itself the library's test: it draws a few random pixels of one device and prints numbers to be compared by eye. That the comparison is meaningful for every problem, and that the check does not disturb later results, are statements over all problems.", "anchors": ["angler/optimization.py:Optimization.__init__", "angler/optimization.py:Optimization._solve_objfn_arg_fields", "angler/optimization.py:Optimization.check_deriv"]}
{"id": "C70", "title": "scipy's L-BFGS-B receives minus the objective and its exact gradient at the requested point", "statement": "For an Ez objective of linear fields, a filter that is symmetric on the design region and no max_ind_shift: after any history of callbacks, the value handed to fmin_l_bfgs_b for a vector x is minus the objective at a density that equals x on the design pixels up to the relative tolerance 1e-10 and the initial density elsewhere, and the gradient handed to it for x, whether or not the value was asked for first, is the list of partial derivatives of minus the objective at that same density, entry by entry in the order of x.", "quantifier": "all grids, sources, design regions, densities, projections, differentiable objectives; all finite histories of objective, gradient and callback calls; all vectors x", "why_tests_cant": "The optimizer's call history is unbounded and the fields are cached between calls; a sign, ordering or caching error shows up only as slow convergence of one run.", "anchors": ["angler/optimization.py:Optimization._run_LBFGS", "angler/optimization.py:Optimization._set_design_region", "angler/optimization.py:Optimization._get_design_region", "angler/optimization.py:Optimization.__init__", "angler/optimization.py:Optimization._solve_objfn_arg_fields", "angler/optimization.py:Optimization.compute_J", "angler/optimization.py:Optimization.compute_dJ"]}
{"id": "C71", "title": "What was solved before does not matter", "statement": "With fields_current false, compute_J and compute_dJ give the value (or exception) they give for the same device on which nothing has been solved yet, for linear and nonlinear objectives and both polarisations. solve_fields_nl() without a starting field returns the same fields as for such a device when no linear field is stored or the stored one belongs to the present source; after the source was changed it starts from the old field and can return a different solution.", "quantifier": "all simulations reachable by any history of operations, both polarisations, all nonlinearities, all solvers, thresholds and iteration limits, all objectives", "why_tests_cant": "Hidden state (stored fields, Anl, eps_nl) survives arbitrarily long histories; a test compares one history and, for equations with one solution, also finds no difference.", "anchors": ["angler/simulation.py:Simulation.solve_fields_nl", "angler/simulation.py:Simulation._check_inputs", "angler/nonlinear_solvers.py:born_solve", "angler/nonlinear_solvers.py:newton_solve", "angler/nonlinear_solvers.py:nl_eq_and_jac", "angler/optimization.py:Optimization.__init__", "angler/optimization.py:Optimization._solve_objfn_arg_fields", "angler/optimization.py:Optimization.compute_J", "angler/optimization.py:Optimization.compute_dJ"]}
{"id": "C72", "title": "The two axes are treated alike", "statement": "Exchanging the axes of a device (permittivity, source and nonlinear regions transposed, absorbing-layer thicknesses swapped) exchanges the axes of everything computed: linear fields with and without averaging, Kerr fields of every solver with the same convergence history or the same exception, stored dictionaries, accepted and rejected constructor and add_nl calls; and a flux probe across x reads what a probe across y reads at the mirrored point.", "quantifier": "all grid sizes, permittivities, sources, absorbing layers, both polarisations, any list of Kerr nonlinearities, all solvers, thresholds and iteration limits, all starting fields", "why_tests_cant": "x and y are handled by separate lines of code in six functions; a slip in one of them (a sign, dx for dy, a swapped axis of averaging) leaves plausible fields, and a test compares one square device at most.", "anchors": ["angler/derivatives.py:createDws", "angler/pml.py:create_sfactor", "angler/pml.py:S_create", "angler/linalg.py:grid_average", "angler/linalg.py:dL", "angler/linalg.py:construct_A", "angler/simulation.py:Simulation.solve_fields", "angler/simulation.py:Simulation.solve_fields_nl", "angler/simulation.py:Simulation.flux_probe", "angler/nonlinear_solvers.py:born_solve", "angler/nonlinear_solvers.py:newton_solve", "angler/nonlinear_solvers.py:nl_eq_and_jac", "angler/simulation.py:Simulation._check_inputs"]}
{"id": "C73", "title": "Translation along a periodic axis", "statement": "Moving a device (permittivity, source, nonlinear regions) cyclically by any number of cells along axes that carry no absorbing layer moves the linear fields, with and without averaging, and the Kerr fields of every solver by as many cells, with the same convergence history or the same exception; stored dictionaries move too.", "quantifier": "all grid sizes including one cell, all shifts, permittivities, sources, both polarisations, any list of Kerr nonlinearities, all solvers, thresholds and iteration limits, all starting fields", "why_tests_cant": "The wrap-around entries of the difference matrices and of the averaging concern only the border cells; a test with a device in the middle of the grid never sees them.", "anchors": ["angler/derivatives.py:createDws", "angler/pml.py:create_sfactor", "angler/pml.py:S_create", "angler/linalg.py:grid_average", "angler/linalg.py:dL", "angler/linalg.py:construct_A", "angler/simulation.py:Simulation.solve_fields", "angler/nonlinear_solvers.py:born_solve", "angler/nonlinear_solvers.py:newton_solve", "angler/nonlinear_solvers.py:nl_eq_and_jac"]}
{"id": "C74", "title": "Mirror images", "statement": "Reflecting a device (permittivity, source, nonlinear regions) along an axis that carries no absorbing layer reflects its fields: the out-of-plane component and the in-plane component sampled at the cells are reflected about cell 0, the in-plane component sampled between the cells is reflected about the position half a cell off and changes sign; linear and Kerr solves, stored dictionaries included.", "quantifier": "all grid sizes with more than one cell along the axis, all permittivities, sources, absorbing layers along the other axis, linear solves of both polarisations with and without averaging, Kerr solves with any list of nonlinearities, solver, threshold, iteration limit and starting field", "why_tests_cant": "The staggering by half a cell makes the naive expectation (np.flip) wrong, so a test would have to know the exact reflection of each component; a symmetric test device hides an asymmetric stencil. The claim fails for Hz with the default averaging and with absorbing layers, on devices a test would have to choose on purpose.", "anchors": ["angler/derivatives.py:createDws", "angler/pml.py:create_sfactor", "angler/pml.py:S_create", "angler/linalg.py:grid_average", "angler/linalg.py:dL", "angler/linalg.py:construct_A", "angler/linalg.py:solver_direct", "angler/simulation.py:Simulation.solve_fields", "angler/nonlinear_solvers.py:born_solve", "angler/nonlinear_solvers.py:newton_solve", "angler/nonlinear_solvers.py:nl_eq_and_jac"]}
{"id": "C75", "title": "When the linear systems are solvable", "statement": "A device without absorbing layers whose material absorbs (or amplifies) at every cell has a nonsingular system for both polarisations at every frequency and resolution, so each source has exactly one field and solve_fields returns it; the systems frozen at any field by focusing Kerr nonlinearities are nonsingular too. With absorbing layers, an Ez device on a grid coarse enough that the permittivity term outweighs the differences is solvable with an explicit bound on the field, and so are the frozen systems and Newton's linearised systems at every field. Neither loss nor coarseness can be dropped: a lossless device can be in resonance and have no field at all.", "quantifier": "all grid sizes above one cell, all permittivities, frequencies, sources, numbers of absorbing cells (coarse case), lists of focusing nonlinearities, fields at which the Kerr index is frozen", "why_tests_cant": "A singular system appears only at isolated parameters, and scipy/Pardiso return numbers near singularity without an error; solvability for every device of a class cannot be sampled.", "anchors": ["angler/linalg.py:construct_A", "angler/linalg.py:solver_direct", "angler/linalg.py:solver_complex2real", "angler/simulation.py:Simulation.solve_fields", "angler/nonlinear_solvers.py:born_solve", "angler/nonlinear_solvers.py:newton_solve", "angler/nonlinear_solvers.py:nl_eq_and_jac"]}
{"id": "C76", "title": "Convergence of the Born iteration", "statement": "For an Ez device on a coarse grid with focusing Kerr nonlinearities whose source is weak enough (explicit condition), the nonlinear equation has exactly one solution; the field returned by the Born solver after k+1 passes is within rate^k times a fixed constant of it, whatever field the solver starts from; for a source that is not zero and a positive threshold the solver stops below its threshold within a number of passes that does not depend on the starting field; and a run stopped by its threshold is off by at most rate/(1-rate) times threshold times the norm of the field. For strongly driven devices the iteration need not converge: a device is exhibited whose relative change stays above 1/4 for ever.", "quantifier": "all grid sizes above one cell, permittivities, absorbing layers, sources, nonlinearities meeting the stated inequality; all starting fields (given, stored or computed), thresholds, iteration limits", "why_tests_cant": "Convergence is a statement about unboundedly many passes and every starting field; a test sees one run, and a run that stops below the threshold does not show that a solution is near.", "anchors": ["angler/nonlinear_solvers.py:born_solve", "angler/nonlinear_solvers.py:newton_solve", "angler/simulation.py:Simulation.solve_fields_nl"]}
{"id": "C77", "title": "Convergence of Newton's method and of the default nonlinear solve", "statement": "For an Ez device on a coarse grid with a real, nonnegative Kerr coefficient and any solution of its nonlinear equation: a Newton run started within an explicit radius of the solution returns, the error of its iterates is squared at each step (after k+1 steps the returned field is off by at most a constant times 2^-(2^(k+1)-1)), it stops below any positive threshold after a number of steps that does not depend on the start (for a source that is not zero), and there is no other solution within the radius. For weak devices the default call solve_fields_nl() (twenty Born passes, then Newton if the last change is above 1e-10) returns a field within 1e-9 rate sqrt(Nx Ny) R of the one solution.", "quantifier": "all grid sizes above one cell, permittivities, absorbing layers, sources and nonlinearities meeting the stated inequalities, all starting fields within the radius, thresholds, iteration limits", "why_tests_cant": "Quadratic convergence concerns every start in a ball and unboundedly many steps; a wrong term in the Jacobian still lets Newton converge linearly on a test device, so tests comparing the final field miss it.", "anchors": ["angler/nonlinear_solvers.py:newton_solve", "angler/nonlinear_solvers.py:nl_eq_and_jac", "angler/simulation.py:Simulation.solve_fields_nl"]}
{"id": "C78", "title": "A stronger or phase-shifted source", "statement": "Multiplying the source by a complex number u multiplies every field component, returned or stored, by u in a linear solve. For Kerr devices the same holds for u not zero if the Kerr coefficients are divided by |u|^2: with every solver string, threshold, iteration limit and starting field the outcome is the same exception, or u times the fields with the same convergence history. In particular a phase factor in the source only multiplies the fields of the same device. Every probe reads |u|^2 times the power.", "quantifier": "all grid sizes, absorbing layers, both polarisations, permittivities with regular systems, sources, nonlinearities, complex factors, solvers, thresholds, iteration limits, starting fields", "why_tests_cant": "A term with a missing conjugate or a wrong power of the field is invisible for real fields and single amplitudes; the relation involves two whole runs for every factor.", "anchors": ["angler/simulation.py:Simulation.compute_nl", "angler/simulation.py:Simulation.solve_fields", "angler/simulation.py:Simulation.solve_fields_nl", "angler/nonlinear_solvers.py:born_solve", "angler/nonlinear_solvers.py:newton_solve", "angler/nonlinear_solvers.py:nl_eq_and_jac", "angler/nonlinearity.py", "angler/simulation.py:Simulation.flux_probe"]}
{"id": "C79", "title": "Time reversal", "statement": "Without absorbing layers, conjugating the permittivity (loss becomes gain) and reversing the source gives the time-reversed fields: electric components conjugated, magnetic components conjugated with a minus sign, in linear solves and, with unchanged Kerr coefficients, in every nonlinear solve, with the same convergence history; every probe reads the opposite power. With absorbing layers this fails, because the layers absorb in both directions of time: a device is exhibited.", "quantifier": "all grid sizes, both polarisations, permittivities with regular systems, sources, nonlinearities, solvers, thresholds, iteration limits, starting fields, probes", "why_tests_cant": "The relation couples all components of two runs; a wrong sign of an in-plane component or of the imaginary unit in the right-hand side shows up only in the pair, never in the out-of-plane field of one run.", "anchors": ["angler/simulation.py:Simulation.solve_fields", "angler/simulation.py:Simulation.solve_fields_nl", "angler/linalg.py:construct_A", "angler/derivatives.py:createDws", "angler/pml.py:S", "angler/pml.py:create_sfactor", "angler/nonlinear_solvers.py:born_solve", "angler/nonlinear_solvers.py:newton_solve", "angler/nonlinear_solvers.py:nl_eq_and_jac", "angler/simulation.py:Simulation.flux_probe"]}
{"id": "C80", "title": "Continuing an optimisation with a second call of run", "statement": "run('gd', Nsteps = n + m) does exactly what run('gd', n) followed by run('gd', m) on the same object does: same densities, source, objective log and caches, and the same exception in the same state if one is raised. For 'adam' this holds when beta1 = beta2 = 0; with the default decay rates it is false, because every call starts with fresh moments and a fresh step counter: a device is exhibited where one call with two iterations ends at density 1 and two calls with one iteration at density 0.", "quantifier": "all grid sizes, objectives, filters, projections, numbers of iterations, step sizes, optimiser states, exceptions", "why_tests_cant": "The claim relates whole runs of arbitrary length from arbitrary states, including runs that end in an exception; leftover state from the first call (cached fields, logs, moments) matters only for particular objectives and lengths.", "anchors": ["angler/optimization.py:Optimization.run", "angler/optimization.py:Optimization._run_GD", "angler/optimization.py:Optimization._run_ADAM", "angler/optimization.py:Optimization._step_adam", "angler/optimization.py:Optimization._update_rho"]}
{"id": "C81", "title": "Sensitivity of the fields to errors of the permittivity", "statement": "For Ez devices on coarse grids (the spectral radius of the discrete curl-curl below omega^2 eps0 times the smallest |permittivity|) sources of at most S drive fields of at most omega S / margin, and assigning a permittivity that differs by at most delta changes Ez by at most omega^2 eps0 L0 delta / margin times that bound, Hx and Hy by 2/(omega mu0 L0 dl) times as much; for weakly nonlinear Kerr devices the exact Kerr field moves by at most omega^2 eps0 L0 (delta + kappa' R^2) R / (margin (1 - rate)). Without the condition this fails: near a resonance an arbitrarily small change of the permittivity changes the field by more than any bound.", "quantifier": "all grid sizes, absorbing layers, complex permittivities, sources, errors, Kerr nonlinearities satisfying the stated conditions", "why_tests_cant": "A uniform bound over all permittivities, sources and sizes cannot be sampled, and the devices for which it fails are a thin set near resonances.", "anchors": ["angler/simulation.py:Simulation.eps_r", "angler/simulation.py:Simulation.solve_fields", "angler/linalg.py:construct_A", "angler/linalg.py:solver_direct", "angler/pml.py:create_sfactor", "angler/nonlinear_solvers.py:born_solve"]}
{"id": "C82", "title": "Gradients from approximately converged Kerr fields", "statement": "compute_dJ evaluates the adjoint of a Kerr device with the field the solver returned and with the matrices Anl, dnl_de of the pass before it. At an exact, regular Kerr solution with correct, continuous autograd partials the gradient so computed depends continuously on both: for every accuracy there is a distance such that stored fields within it of the exact solution give a gradient within the accuracy of the exact one at every pixel, hence (symmetric filter) of the derivative of the objective along exact solutions. In particular, on weakly nonlinear devices a tight enough threshold and enough iterations of the Born solver make the computed gradient as accurate as desired.", "quantifier": "all grids, objectives of linear Ez/Hx/Hy and nonlinear Ez arguments, densities, filters, sources, Kerr nonlinearities, stored fields, thresholds and iteration limits under the stated conditions", "why_tests_cant": "Tests compare with finite differences at one accuracy; that the mixture of two iterates in one adjoint solve has the right limit for all devices is a statement about limits.", "anchors": ["angler/optimization.py:Optimization.compute_dJ", "angler/adjoint.py:adjoint_kerr_Ez", "angler/gradients.py:grad_kerr_Ez", "angler/nonlinear_solvers.py:born_solve", "angler/simulation.py:Simulation.compute_nl"]}
{"id": "C83", "title": "The Krylov solver", "statement": "For every root finder that only returns points where the function is at most tol in each entry, the Ez field newton_krylov_solve returns satisfies the Kerr equation with residual at most tol whatever the start, and on weakly nonlinear devices it is within tol/(margin (1 - q)) of the exact Kerr field; conv_threshold and max_num_iter have no influence except on the length of the all-zero convergence array; Hz always ends in ValueError. The other two arrays it returns are not the magnetic fields: unless the field is zero they violate Faraday's law on every device.", "quantifier": "all root finders meeting the contract, devices, starts, stored fields, thresholds and iteration limits", "why_tests_cant": "The root finder is an external library; the guarantee has to hold for any behaviour its documentation allows.", "anchors": ["angler/nonlinear_solvers.py:newton_krylov_solve", "angler/nonlinear_solvers.py:nl_eq_and_jac", "angler/simulation.py:Simulation.compute_nl"]}
{"id": "C84", "title": "Runs of the optimiser are projected gradient ascent and Adam on the objective", "statement": "For a linear Ez objective whose devices are solvable for all densities between 0 and 1, started at a density between 0 and 1 with the permittivity of that density, run('gd') with any number of steps and any step size never fails, ends at the iterate of projected gradient ascent (gradient of the objective on the design pixels, cut off at 0 and 1) with the permittivity of that density, and records exactly the objective of each density visited; run('adam') does the same with the bias-corrected Adam directions of all gradients so far. Designs set up by init_design_region('full'/'halfway'/'empty') without a filter on a background of permittivity 1 or eps_m meet the condition on the start; without it the first value recorded need not be the objective of the starting density.", "quantifier": "all devices, objectives, design regions, symmetric filters, starting densities, step sizes, decay rates and numbers of steps", "why_tests_cant": "A test can compare a few steps on a few devices with finite differences; it cannot show that every run is the mathematical iteration for any number of steps.", "anchors": ["angler/optimization.py:Optimization.run", "angler/optimization.py:Optimization._run_GD", "angler/optimization.py:Optimization._run_ADAM", "angler/optimization.py:Optimization._step_adam", "angler/optimization.py:Optimization._update_rho", "angler/simulation.py:Simulation.init_design_region"]}
{"id": "C85", "title": "Gradient ascent with small steps converges to first-order optima", "statement": "For a linear Ez objective that is a twice continuously differentiable function of the fields, on devices solvable for all densities, there is a step size below which run('gd') from a fitting start never records a smaller value than before: each recorded value exceeds the previous one by at least the squared change of the density over twice the step size, the recorded values converge, the smallest of the first n squared density changes is O(1/n), the densities have accumulation points, each of them is a first-order optimum under the bounds, and the distance of the density to the set of first-order optima tends to zero. With large steps this is false: a device is exhibited on which every large step size makes the design alternate between empty and full for ever.", "quantifier": "all devices, smooth objectives, design regions, symmetric filters, fitting starts, small step sizes, and all numbers of steps", "why_tests_cant": "It is a statement about the limit of infinitely many steps and about the existence of a safe step size.", "anchors": ["angler/optimization.py:Optimization._run_GD", "angler/optimization.py:Optimization._update_rho", "angler/optimization.py:Optimization.compute_J", "angler/optimization.py:Optimization.compute_dJ", "angler/filter.py:rho2eps"]}
{"id": "C86", "title": "The first n steps of Adam climb when the step size is small, and first-order optima are kept", "statement": "For a linear Ez objective that is a continuously differentiable function of the fields, with any decay rates in [0,1) and a start that is not a first-order optimum under the bounds, there is for every n a step size below which run('adam') with n steps increases the objective in each step, bounds included. A run of gradient ascent or Adam that starts at a first-order optimum never moves and records the same value in each step, and a gradient-ascent step with positive step size that does not move was taken at a first-order optimum. Without small steps the claim is false: with the default decay rates a device is exhibited on which every large step size makes the seventeenth step of Adam throw away the whole gain.", "quantifier": "all devices, smooth objectives, design regions, symmetric filters, starts, decay rates, numbers of steps and small step sizes", "why_tests_cant": "The safe step size is only known to exist; tests fix one step size, and never visit an exact optimum.", "anchors": ["angler/optimization.py:Optimization._run_ADAM", "angler/optimization.py:Optimization._step_adam", "angler/optimization.py:Optimization._update_rho", "angler/optimization.py:Optimization._run_GD"]}
{"id": "C87", "title": "From the user's inputs to the recorded values", "statement": "A script that makes a Simulation, sets its source, initialises the design region (full, halfway or empty), makes an Objective of Ez, Hx, Hy fields and an Optimization (no filter, projection centred at 1/2) and calls run('gd') or run('adam'), with a background made of the two materials and devices without resonances: the script succeeds, every device between the materials has exactly one solution of the discrete Maxwell equations, and for any function F with the values of the user's function at these fields the run ends at the n-th iterate of projected gradient ascent (or Adam) on F from the start asked for, leaves the permittivity of that density and records the values of F along the way. For twice continuously differentiable functions and small step sizes the values never decrease and converge, and long runs end near first-order optima. The constructors accept exactly positive length units and frequencies, the six field names, and as many of them as the function has arguments. With a third material in the background the run changes pixels outside the design region.", "quantifier": "all inputs of the script, source arrays, numbers of steps, step sizes and decay rates", "why_tests_cant": "It ties the recorded numbers to the solution of Maxwell's equations and the calculus gradient for every device; a test sees one device and compares floating-point numbers computed by the same code.", "anchors": ["angler/optimization.py:Optimization.__init__", "angler/optimization.py:Optimization.run", "angler/simulation.py:Simulation.__init__", "angler/simulation.py:Simulation.init_design_region", "angler/objective.py:Objective.__init__", "angler/objective.py:obj_arg.__init__"]}
{"id": "C88", "title": "Optimising weakly nonlinear devices works with nearly exact values and gradients", "statement": "For an objective of the nonlinear Ez field of a weakly nonlinear device, the objective evaluated on the exact Kerr fields is a well-defined function F of the density (on and slightly beyond the box [0,1]). All runs of the optimiser succeed, whatever the number of steps: every pass of gradient ascent and of Adam moves the density by a direction built from gradients that differ from the derivatives of F at the current density by at most an explicit tolerance proportional to the 1e-10 threshold of the nonlinear solver, the recorded values differ from F at the densities passed through by at most such a tolerance, and the same holds for every value, gradient and recorded value that L-BFGS sees for whatever in-bounds calls it makes. check_deriv returns gradient entries within tolerance of the derivatives of F and difference quotients that differ from those of F by at most twice the tolerance of the values divided by the increment.", "quantifier": "for all grids, absorbing layers, permittivity ranges, sources, filters symmetric on the design region, objectives with bounded Lipschitz derivatives on the fields that occur, all devices that satisfy the weak-nonlinearity bound at every density near the box with contraction factor at most 1/2, all numbers of steps, step sizes, decay rates in [0,1), all sequences of L-BFGS calls within the bounds, all draws and all nonzero increments of check_deriv smaller than the room around the box", "why_tests_cant": "A test can compare a gradient with a difference quotient at one density of one device; that every pass of every run of every method works with gradients of the exact nonlinear objective up to a bound in terms of the solver threshold quantifies over all devices, runs and L-BFGS behaviours, and the exact fields are not computable by the code under test.", "anchors": ["angler/optimization.py:Optimization.compute_J", "angler/optimization.py:Optimization.compute_dJ", "angler/optimization.py:Optimization._run_GD", "angler/optimization.py:Optimization._run_ADAM", "angler/optimization.py:Optimization._run_LBFGS", "angler/optimization.py:Optimization.check_deriv", "angler/simulation.py:Simulation.solve_fields_nl", "angler/nonlinear_solvers.py:born_solve", "angler/nonlinear_solvers.py:newton_solve", "angler/adjoint.py:adjoint_kerr_Ez"]}
{"id": "C89", "title": "Plots show the stored data", "statement": "plt_abs, plt_re, plt_diff and plt_eps draw at row y and column x the modulus or real part of the stored field, the difference of the moduli of the linear and nonlinear fields, or the modulus of the permittivity at pixel (x, y mod Ny). Without given limits the colour range covers every drawn value and its upper end is attained; plt_diff's normalised values are at most 1, positive exactly where the linear field is larger and zero exactly where the moduli agree; without solved fields a ValueError or TypeError is raised. Every iteration of a run logs its objective together with the amplitude of the source with which it was computed, plt_objs draws iteration numbers from 1 against these values divided by amplitude or amplitude squared, and for objectives quadratic in linear fields the power-normalised curve does not depend on the scale of the source. plot_it draws one panel for each requested plot. plot_transmissions draws, for each probe of a power scan, the transmission against the input source amplitude.", "quantifier": "for all grids, fields, permittivities, tilings, limits, logs, runs, sources and scale factors, and all lists of plot names", "why_tests_cant": "A test can look at one figure; orientation, tiling, colour limits and the pairing of values and amplitudes hold for every array and every run, and the failures (plt_objs without axes, the default plot_what, a single plot, Hz polarisation) are for every state.", "anchors": ["angler/plot.py:plt_base", "angler/plot.py:plt_base_eps", "angler/plot.py:Temp_plt", "angler/simulation.py:Simulation.plt_abs", "angler/simulation.py:Simulation.plt_re", "angler/simulation.py:Simulation.plt_diff", "angler/simulation.py:Simulation.plt_eps", "angler/optimization.py:Optimization.plt_objs", "angler/optimization.py:Optimization.plot_it", "angler/optimization.py:Optimization._set_source_amplitude", "angler/optimization.py:Optimization.plot_transmissions"]}
{"id": "C90", "title": "The fields in time: animation, Maxwell's equations, powers", "statement": "A stored complex field F stands for the real field Re(F exp(iωt)). Frame k of plt_base_ani with Nframes >= 2 frames shows this field at ωt = 2πk/(Nframes-1), pixel (x, y) at row y and column x: the frames run forward through exactly one period, the last equals the first, every value lies within the symmetric colour limits ±max|F|, and with at least four frames the frames of one period average to zero and their squares to |F|²/2; one frame is a ZeroDivisionError. At every time and every cell outside the absorbing layers the real fields of a linear solve satisfy the time-domain Maxwell equations on the staggered grid (μ ∂t H = -curl E, ε' ∂t E + σ E = curl H - J with conductivity σ = -ω ε''). The value of flux_probe is the mean over one period of the instantaneous power through the line, and the supplied and absorbed powers of the power balance are the means of -J E and σ E².", "quantifier": "for all grids, fields, numbers of frames, times, cells outside the layers, sources, (lossy or active) permittivities, probe lines inside the grid; nonsingular system matrix or no source for the equations; averaging=True (or an unaffected permittivity) for Hz", "why_tests_cant": "A test sees finitely many frames or times of one simulation; the equations hold at every real time t and the means are integrals over a continuum, for every device.", "anchors": ["angler/plot.py:plt_base_ani", "angler/simulation.py:Simulation.solve_fields", "angler/simulation.py:Simulation.flux_probe", "angler/simulation.py:Simulation.plt_abs", "angler/pml.py:create_sfactor"]}
{"id": "C91", "title": "A mode source in a straight waveguide excites a field with the mode's profile", "statement": "In a straight waveguide (permittivity constant along the propagation axis) the current profile written by mode.insert_mode is a guided mode of the cross-section with a propagation constant b = β², and the fields returned by solve_fields are products of this transverse profile with a one-dimensional function of the propagation coordinate: E_z and the transverse magnetic field carry the profile itself, the longitudinal magnetic field its difference. The one-dimensional functions solve the transmission-line equations with constant b, a unit source at the line of the mode and the absorbing layers of the propagation axis; away from source and layers they are sums of a forward and a backward wave q^i, with q = exp(±iθ), (2/h) sin(θ/2) = β (phase constant at least β, above it by a term of second order) for guided modes and real decaying q for b < 0.", "quantifier": "for all grids, cross-sections (real permittivity), frequencies, steps, amplitudes, positions of the source, layers along the axis, exact linear solvers and eigen-solvers that return eigenvectors, axis x or y, both polarisations and all widths of the source line", "why_tests_cant": "A test would compare one waveguide with one computed profile up to tolerance; here the product form is exact for every cross-section and every order of mode, which no sampling of devices can show.", "anchors": ["angler/source/mode.py:mode.insert_mode", "angler/simulation.py:Simulation.solve_fields", "angler/linalg.py:construct_A", "angler/linalg.py:grid_average", "angler/pml.py:create_sfactor"]}
{"id": "C92", "title": "Uniform media: plane waves, resonances and convergence to the Helmholtz equation", "statement": "In a uniform medium without absorbing layers the plane waves of the periodic grid are eigenvectors of the system matrix, with the defect of the grid's dispersion relation ω²με = (4/h²)(sin²(kx h/2) + sin²(ky h/2)), divided by μ (Ez) or ε (Hz), as eigenvalue; the determinant is the product over all plane waves, so the linear system is singular exactly at the resonances of the grid and never in a lossy or active medium. The field returned by solve_fields is the Fourier sum of the source with each coefficient multiplied by iωκ/defect. The grid's dispersion relation differs from ω²με = kx² + ky² by at most h²(kx⁴+ky⁴)/12, and for a band-limited current sampled on the grid the returned field equals the solution of the continuous Helmholtz equation at the grid points up to h² times a constant that does not depend on the grid.", "quantifier": "for all grid sizes >= 2, spacings, frequencies, length units, complex permittivities e != 0, polarisations, sources (finite sums of plane waves for convergence), exact solvers; nonsingular system matrix for the fields", "why_tests_cant": "A convergence test observes a rate on a few grids; the bound here holds with an explicit constant on every grid, and singularity is characterised for every frequency and grid size.", "anchors": ["angler/linalg.py:construct_A", "angler/derivatives.py:createDws", "angler/simulation.py:Simulation.solve_fields", "angler/linalg.py:solver_direct"]}
{"id": "C93", "title": "Optimisation commutes with, and keeps, the symmetries of the device", "statement": "For linear Ez objectives, take a problem and its image: axes exchanged; moved along axes without absorbing layer; or mirrored in an axis without absorbing layer; the device, source, design region, filter, start and objective being images of each other. Runs of 'gd' and 'adam' of any length, step size and decay rates then finish on both, record the same objective values, and end at densities that are images of each other. Hence a problem that is its own image keeps a symmetric density for ever. The filter built by get_W commutes with exchanging the axes for every radius >= 1 when both axes have absorbing layers; but with a periodic y axis and radius 2 it does not commute with the mirror image, because of its wrong wrap-around.", "quantifier": "all grid sizes, devices, sources, design regions, objectives with equal values on image fields, starting densities in [0,1], step sizes, decay rates in [0,1), numbers of steps; exact solvers, devices solvable for all densities in [0,1]", "why_tests_cant": "A symmetric start in floating point shows symmetric designs for one device and a few iterations; the statement is about all symmetric devices and every number of steps, and about pairs of runs on different devices.", "anchors": ["angler/optimization.py:Optimization.run", "angler/optimization.py:Optimization._run_GD", "angler/optimization.py:Optimization._run_ADAM", "angler/optimization.py:Optimization.compute_dJ", "angler/filter.py:get_W", "angler/filter.py:wrap"]}
{"id": "C94", "title": "One-dimensional simulations: strips and single rows of cells", "statement": "Let the permittivity and the source depend on x only, with no absorbing layers along y, at least two cells along x and a nonsingular system matrix. If the grid is at least two cells wide along y, solve_fields returns fields that do not depend on y, the in-plane component along x is zero, the other two components satisfy Maxwell's equations in one dimension for the given permittivity, permeability, source and absorbing layers (polarisation Ez for either value of averaging, Hz with averaging on), and two such strips of different widths return the same rows. If the grid is one cell wide (a one-dimensional eps_r, as in the test test_1D), this is false for every nonzero source, because createDws returns the identity instead of zero for an axis of one cell: with Ez the fields solve the equations for the permittivity eps + 1/(omega^2 mu) and Hx = -Ez/(i omega mu) is not zero; with Hz they solve the equations for the permeability mu + 1/(omega^2 eps) and Ex = Hz/(i omega eps) is not zero.", "quantifier": "for all valid simulations of any length, all widths at least two (resp. one), all permittivities and sources depending on x only (permittivity and its neighbour averages nonzero for Hz), all frequencies, length scales, cell sizes and absorbing layers along x, and all exact solvers", "why_tests_cant": "test_1D only checks that a one-dimensional simulation runs; the error in the equation it solves is a shift of the permittivity by 1/(omega^2 mu), which no test of finitely many shapes or of the absence of exceptions shows, and the equality of strips of all widths quantifies over infinitely many grids.", "anchors": ["angler/derivatives.py:createDws", "angler/simulation.py:Simulation.solve_fields", "angler/simulation.py:Simulation.__init__", "angler/linalg.py:construct_A"]}
{"id": "C95", "title": "Figures of finished devices (data/device_saver.py)", "statement": "On a Device set up by the calls of its docstring (constructor, set_parameters, set_geometry, generate_data), the stored transmissions are the powers of the linear and of the nonlinear solution of the given simulation through the output lines of the geometry, divided by the stored input power W_in: T_lin and T_nl for two ports; for three ports a matrix S with one row per port (upper, lower) and the columns linear, nonlinear; for orthogonal ports a matrix with one column per port (upper, right) and the rows linear, nonlinear, i.e. transposed. Ez and Ez_nl are these solutions. generate_data sets its flag exactly when it returns, and raises when set_parameters or set_geometry was not called or no mode set W_in; the two setters commute for equal arguments and the later call wins otherwise; on an Hz device set_parameters raises AttributeError. The quality factor is 400 (Nf-1)/n for an n <= Nf or infinite, so it is never below 400 (Nf-1)/Nf. The plotting axes have spacing dl Nx/(Nx-1), not dl. Without nonlinearity the index shift is zero and T_nl = T_lin. After _set_source_amplitude, which multiplies the source by c = sqrt(m/M) - 0.01 and keeps W_in, the reported linear transmission is c^2 times that before.", "quantifier": "for all simulations, sources, permittivities, nonlinearities, optimisations, lengths l, d, H, pixel sizes, margins, numbers of samples, scan ranges, solvers and exceptions raised on the way", "why_tests_cant": "there is no test of device_saver.py; that the reported numbers are the powers of the solutions through the right lines, normalised by a power which may be stale, is a statement about every device, and the floor of the quality factor about every spectrum.", "anchors": ["data/device_saver.py:Device.__init__", "data/device_saver.py:Device.set_parameters", "data/device_saver.py:Device.set_geometry", "data/device_saver.py:Device.generate_data", "data/device_saver.py:Device.calc_transmissions", "data/device_saver.py:Device._calc_trans_two", "data/device_saver.py:Device._calc_trans_three", "data/device_saver.py:Device._calc_trans_ortho", "data/device_saver.py:Device.freq_scan", "data/device_saver.py:Device.power_scan", "angler/simulation.py:Simulation.flux_probe", "angler/optimization.py:Optimization._set_source_amplitude"]}
{"id": "C96", "title": "Spectra of devices (data/spectrum_plotter.py)", "statement": "get_spectrum raises on every device: AttributeError without a geometry, UnboundLocalError for three ports, NameError for orthogonal ports, and for two ports because its low-power probe reads linear fields which the assignment of eps_r has cleared and which a nonlinear solve from a given starting field never computes. scan_frequency with a probe of the nonlinear fields returns one entry per frequency: the power of the nonlinear solution of the device retuned to that frequency (operator rebuilt, same permittivity, source and nonlinearity, equidistant frequencies around that of the design) through the output line, divided by the stored input power; without nonlinearity this is the power of the linear solution at that frequency.", "quantifier": "for all devices with any attributes missing, all simulations of either polarisation, all probes, numbers of samples and relative widths of the scan, and all solvers and backends", "why_tests_cant": "no test calls spectrum_plotter.py, and a test on one device could not show that no device whatsoever makes get_spectrum return.", "anchors": ["data/spectrum_plotter.py:get_spectrum", "data/spectrum_plotter.py:scan_frequency", "angler/simulation.py:Simulation.eps_r", "angler/simulation.py:Simulation.solve_fields_nl", "angler/nonlinear_solvers.py:born_solve", "angler/nonlinear_solvers.py:newton_solve"]}
{"id": "C97", "title": "Absorbing layers remove resonances", "statement": "In a uniform passive medium with absorbing layers along both axes the linear system is nonsingular at every frequency, resolution and polarisation, so every source has exactly one field and solve_fields returns it. With layers along one axis only, the system is singular exactly when a plane wave that never meets the layers satisfies the dispersion relation of the grid. A straight guide closed by layers at its two ends is singular exactly at the cut-off frequencies of its modes (Ez: passive profiles, Hz: lossless profiles). A single row of cells with layers at its ends is never singular, whatever profile it carries (Ez: passive with nonnegative real part, Hz: lossless and positive).", "quantifier": "all grid sizes, cell sizes, frequencies, numbers of layer cells (at least one where layers are required), sources, both polarisations, all passive permittivities resp. profiles", "why_tests_cant": "The tests run a handful of devices at one frequency each; whether the matrix can become singular at some other frequency, size or profile is a statement about all of them.", "anchors": ["angler/pml.py:create_sfactor", "angler/pml.py:S_create", "angler/linalg.py:construct_A", "angler/derivatives.py:createDws", "angler/simulation.py:Simulation.solve_fields"]}
{"id": "C98", "title": "A device is in resonance at finitely many frequencies", "statement": "For every material, cell size, layer thickness and polarisation the linear system of a device is singular at no more than eight frequencies per cell; at every other frequency each source has exactly one field and solve_fields returns it. The same holds for the systems met by the nonlinear solvers with the Kerr index frozen at a given field. At a fixed frequency no more uniform changes of the permittivity than there are cells make an Ez device singular.", "quantifier": "all grid sizes of at least two cells per axis, all complex permittivities whose values (Hz: averages) are not zero, all numbers of layer cells, cell sizes, length units, lists of nonlinearities and fields", "why_tests_cant": "A test sees single frequencies; it cannot show that all but finitely many of a continuum are harmless, nor bound their number.", "anchors": ["angler/linalg.py:construct_A", "angler/pml.py:create_sfactor", "angler/pml.py:S", "angler/simulation.py:Simulation.solve_fields", "angler/nonlinear_solvers.py:born_solve"]}
{"id": "C99", "title": "A Kerr device can have several fields, and a nonlinear solve returns the one it was started at", "statement": "solve_fields_nl started at an exact nonzero Kerr field whose frozen system is nonsingular returns that field, for every solver ('born', 'newton', 'hybrid'), threshold and iteration limit. In a uniform Kerr medium the amplitudes of uniform fields (with or without layers) and of plane waves (without layers) are exactly the solutions of a cubic equation, at most three for a nonzero source. There are devices with three: every uniform lossless medium with a Kerr coefficient of the opposite sign to its permittivity, on every grid with absorbing layers at every frequency, and focusing dielectrics driven just below a resonance. On these the result of solve_fields_nl depends on Estart.", "quantifier": "all grid sizes of at least two cells per axis, frequencies, cell sizes, layers, permittivities, Kerr coefficients, solvers, thresholds, iteration limits and backends", "why_tests_cant": "The tests compare solvers on one weakly nonlinear device from one start, where the field is unique; several fields of one device cannot show up there.", "anchors": ["angler/simulation.py:Simulation.solve_fields_nl", "angler/nonlinear_solvers.py:born_solve", "angler/nonlinear_solvers.py:newton_solve", "angler/nonlinear_solvers.py:nl_eq_and_jac"]}
{"id": "C100", "title": "Metals screen the fields and the gradients", "statement": "In a metal outside the absorbing layers (real part of the permittivity at most -m; for Hz real permittivity there and in the four neighbours) and free of sources the simulated field loses at least the factor q = 4/(4 + omega^2 mu0 eps0 L0^2 m dl^2) < 1 per cell of depth: if B bounds the field outside the metal, the field at depth n is at most q^n B. The adjoint field of Ez simulations is screened by the same factor, with absorbing layers elsewhere, so that without a filter the gradient at a pixel of depth n is at most q^(2n) times the field and adjoint bounds and the local factors. A device without layers made of metal only has exactly one field for every source at every frequency.", "quantifier": "every valid simulation of at least two cells per axis, nonsingular (proved for devices of metal), both polarisations, every set of metal cells, every depth, every bound, every exact linear solver", "why_tests_cant": "a statement about every metal device, mesh, frequency and depth, with an explicit rate", "anchors": ["angler/linalg.py:construct_A", "angler/linalg.py:grid_average", "angler/simulation.py:Simulation.solve_fields", "angler/adjoint.py:adjoint_linear_Ez", "angler/gradients.py:grad_linear_Ez"]}
{"id": "C101", "title": "Inexact linear solvers", "statement": "Let the linear solver leave a relative residual of at most tau on nonsingular systems. Then the computed field is within tau*omega*max|src|/sigma of the exact one when the system matrix enlarges every vector by at least sigma (for Ez devices of metal sigma = omega^2 eps0 L0 m, on every mesh). For every nonsingular device and every delta > 0 there is a tau that makes all three stored fields within delta of the exact ones for every such solver; for Ez optimisations with continuously differentiable objectives the same holds for the objective and for every entry of the gradient, so that without a filter the computed gradient is within delta of the derivative of the exact objective. No tau serves all meshes: for every tau > 0 and C some nonsingular device and some solver within tau give an error of at least C times the field at every pixel.", "quantifier": "every nonsingular simulation, both polarisations, every solver within the tolerance, every delta; every linear Ez objective of Ez, Hx, Hy with continuous partial derivatives", "why_tests_cant": "quantifies over all solvers of a given accuracy and all devices", "anchors": ["angler/linalg.py:solver_direct", "angler/simulation.py:Simulation.solve_fields", "angler/adjoint.py:adjoint_linear_Ez", "angler/gradients.py:grad_linear_Ez", "angler/optimization.py:Optimization.compute_dJ", "angler/optimization.py:Optimization.compute_J"]}
{"id": "C102", "title": "The filter limits how fast a design can change", "statement": "For every density between 0 and 1 the filtered densities of two neighbouring design pixels whose filter neighbourhood lies inside the visited pixels differ by at most R^2/coneSum(R) <= 3R/(2R^2+1), and a straight edge attains R^2/coneSum(R). Over a box of such design pixels the filtered density is Lipschitz in the pixel distance with that constant, so that a transition from a to b takes at least (b-a)(2R^2+1)/(3R) pixels; the permittivity computed by filter and projection is Lipschitz with the constant times |eps_m-1| beta/(tanh(beta eta)+tanh(beta(1-eta))). At the border of the visited pixels the bound is false (witness): the columns of W are not normalised there.", "quantifier": "all grids, PML sizes, radii, design masks, densities in [0,1], pairs of pixels, projection parameters with beta > 0", "why_tests_cant": "worst case over all densities; the constant and its attainment are for every radius", "anchors": ["angler/filter.py:get_W", "angler/filter.py:rho2rhot", "angler/filter.py:rhot2rhob", "angler/filter.py:rho2eps"]}
{"id": "C103", "title": "The figures of the paper (data/plot_generator.py)", "statement": "The figure of a two-port device generated as in the docstring of Device shows, in the middle of 100 rows of padding, the permittivity and the magnitudes of the linear and the nonlinear solution divided by the square root of the input power, with the same colour limits on both field panels; its power curve is the transmission of the output port. Its columns lie dl*Nx/(Nx-1) apart and its rows dl, so rows are drawn up to one pixel below their stored coordinates. The figure of a device with orthogonal ports shows it upside down (position (x,y) shows the pixel at (x,-y)) and the curve called 'bottom port' is the transmission of the port at the upper edge, which is drawn at the bottom. The figure of a three-port device always raises TypeError; the script for the table of contents draws no device; without a positive input power no finite figure is drawn.", "quantifier": "every generated Ez device, every grid with at least 2 x 2 pixels, every positive input power; every device for the failures", "why_tests_cant": "statement about every device and every pixel, including which port a legend refers to", "anchors": ["data/plot_generator.py:plot_Device", "data/plot_generator.py:plot_two_port", "data/plot_generator.py:plot_three_port", "data/plot_generator.py:plot_ortho_port", "data/plot_generator.py:pad_array", "data/plot_generator.py:pad_list", "data/TOC_generator.py:plot_Device", "data/TOC_generator.py:plot_ortho_port", "data/device_saver.py:Device.set_parameters"]}
{"id": "C104", "title": "Laser-driven accelerators (Accelerator notebooks)", "statement": "The objective of Accelerator.ipynb is the mean over one period of the field Re(Ey exp(i omega t)) that an electron of speed beta*c meets in the middle row, divided by E0, and autograd's derivative of it is right; it is bounded by mean|Ey|/E0 and independent of the laser's power. A structure that does not vary along the beam gives no acceleration if beta*lambda0 is a whole number of cells, and a spurious one otherwise. Moving a structure along the beam changes only the phase of the complex gain. The gradient that the code computes for an Ey objective in row i0 is the gradient for the same objective read in row i0+1, and the two objectives differ. In every structure of accelerator_multi with gaps of at least four cells all electron rows exist and run in vacuum outside the design region, and the objective of Accelerator_multi_channel.ipynb is the mean gain of the channels over the largest field, lies in [-1,1] and does not depend on the field strength.", "quantifier": "every grid, field, device, beta, wavelength, number of channels", "why_tests_cant": "identities and bounds over all fields, periods and structures", "anchors": ["Notebooks/Accelerator.ipynb:J", "Notebooks/Accelerator_multi_channel.ipynb:J", "angler/structures.py:accelerator", "angler/structures.py:accelerator_multi", "angler/gradients.py:grad_linear_Ey"]}
{"id": "C105", "title": "Objectives of the port and splitter notebooks", "statement": "The objectives of 2_port, 3_port, T_port, Splitter and Splitter_4 are the stated combinations of the powers sum(w*|Ez|^2) weighted by the (normalised) probe profiles, and autograd's derivative of each is right. Normalising by the straight waveguide gives that waveguide the value 1, and fails with non-finite weights exactly if its own overlap vanishes. The switch objectives vanish without a nonlinearity and lie in [-1,1] if no port set receives more than the input, with 1 attained only by a perfect switch; the splitter objectives are at most (T1+...+Tn)^n with equality exactly for an even split. No objective depends on the source's strength once normalised (for the switches, when chi3*|source|^2 is kept). A device symmetric about the horizontal axis splits evenly. The adjoint gradient of the splitter objectives is the true gradient.", "quantifier": "every grid, field, probe, number of ports, device, source strength", "why_tests_cant": "identities, optimality and invariance over all fields and devices", "anchors": ["Notebooks/2_port.ipynb:J", "Notebooks/3_port.ipynb:J", "Notebooks/T_port.ipynb:J", "Notebooks/Splitter.ipynb:J", "Notebooks/Splitter_4.ipynb:J"]}
{"id": "C106", "title": "Kerr self-phase modulation at low power (Nonlinear_system notebook)", "statement": "If the Kerr effect of the linear field E1 is at most a fraction q <= 1/40 (measured against the stability constant of the device), the nonlinear equations have exactly one solution of size at most 2|E1|, it is E1 plus the field radiated by the Kerr polarisation of E1 up to 180 q^2 |E1|, and newton (any start of size at most 2|E1|, any threshold, at least one step), born and hybrid return a field within that distance. The notebook's scan over source amplitudes therefore never fails, and the transmission relative to the linear one, and its phase, change in proportion to the power up to its square. width_eff lies between one cell and the number of cells carrying field, does not depend on the amplitude and counts the cells of a flat profile. A guided wave solves the nonlinear equations exactly if its profile is a mode of the discrete Kerr waveguide; the shift of its phase obeys an exact identity, and at low power its ratio to the notebook's 'analytic' line is (share of the core) * (3e8/c) * sqrt(eps_m) / (sin^2(phi) cos(phi) / (omega dl / c)^2). It is not one: in bulk silicon the analytic line is more than three times too high, since the notebook's n2 lacks a factor 1/sqrt(eps_m).", "quantifier": "every device, grid, source, region of the nonlinearity, list of amplitudes, threshold, start; every profile; every guided mode", "why_tests_cant": "error bounds and limits over all devices and amplitudes; the notebook compares two lines by eye on a logarithmic plot", "anchors": ["Notebooks/Nonlinear_system.ipynb:T_vec", "Notebooks/Nonlinear_system.ipynb:width_eff", "Notebooks/Nonlinear_system.ipynb:n2", "Notebooks/Nonlinear_system.ipynb:gamma_spm", "angler/nonlinear_solvers.py:newton_solve", "angler/nonlinear_solvers.py:born_solve", "angler/simulation.py:solve_fields_nl", "angler/simulation.py:flux_probe"]}
{"id": "C107", "title": "Density maps in floating point", "statement": "Evaluated with every operation rounded (monotone, odd rounding with relative error u; monotone, odd tanh with relative error v; no overflow or underflow), rhot2rhob never decreases in the filtered density, gives exactly 0 at 0 and exactly 1 at 1, and lies in [0,1] without any rounding excess; rhob2eps lies in [1,eps_m] and meets both ends exactly, and eps2rho takes the ends back exactly; the projected density is within u + 4((1+u)(v+((1+u)^2-1)beta)+u)/den of the exact one, 1e-13 for the defaults in double precision; the permittivity is within (d+u)(eps_m-1)+u eps_m. A row of the filter of n pixels is within ((1+u)^(n+1)-1) of the sum of its absolute terms, sums in any order of additions likewise with the depth of the order. The rounded filtered density of densities in [0,1] can exceed 1 (witness in double precision) but by at most (1+u)^(n+1)-1, and with the default eta and beta the projection takes such an excess back to exactly 1: it saturates from 0.7 on, where the exact projection is still below 1.", "quantifier": "every rounding, tanh, density, eta in (0,1), beta > 0, eps_m > 1, list of weights, order of summation", "why_tests_cant": "exact bounds for all doubles; tests compare with tolerances", "anchors": ["angler/filter.py:rho2rhot", "angler/filter.py:rhot2rhob", "angler/filter.py:rhob2eps", "angler/filter.py:eps2rho"]}
{"id": "C108", "title": "Simulations and the permittivity arrays they share", "statement": "In every program (sequence of array creations, in-place writes, constructor calls, eps_r assignments, init_design_region, solves, deep copies and optimiser updates on any number of simulations): a simulation is affected only by statements addressed to it or writing its array; the system matrix of every simulation is at all times that of the permittivity it reports. The second part is false when an array in use is written in place, since the constructor and the setter keep the caller's array: an Ez simulation is then inconsistent exactly if the write changes something, and goes on returning the fields of the old device; Hz returns the old magnetic field with an electric field of old displacement and new permittivity; init_design_region('halfway') does this to every other simulation sharing the array. Proved for programs without such writes; after any program at all sim.eps_r = sim.eps_r restores consistency; deep copies are immune.", "quantifier": "every program of any length, any number of simulations and arrays, every grid", "why_tests_cant": "all interleavings of statements and all sharing patterns", "anchors": ["angler/simulation.py:Simulation.__init__", "angler/simulation.py:Simulation.eps_r", "angler/simulation.py:Simulation.init_design_region", "angler/simulation.py:Simulation.solve_fields", "angler/optimization.py:Optimization.check_deriv", "angler/optimization.py:Optimization._set_design_region"]}
{"id": "C109", "title": "The system matrix in floating point", "statement": "With every floating-point operation of the assembly of the Ez system matrix rounded (constants, spacings, PML conductivities and stretch factors, difference operators, sparse products and sums): the computed difference operators map constants to exactly 0, with or without absorbing layers; without layers the computed matrix is exactly symmetric, and exactly real for a real permittivity; every computed entry is within ((1+t)^126-1) times the sum of the absolute values of its terms of the exact entry, with t the relative error of one complex operation (1.2e-13 in doubles); if the exact matrix enlarges every vector by sigma and the errors are below sigma, the computed matrix is nonsingular and its field has the relative error g/(sigma-g); for every nonsingular device the exact field is reached within any tolerance at high enough precision.", "quantifier": "every rounding function with a relative error bound and odd symmetry (unbounded exponents), every grid, permittivity, frequency, spacing and PML", "why_tests_cant": "all rounding modes and precisions, all grids and permittivities; a test sees single roundings on single grids", "anchors": ["angler/linalg.py:construct_A", "angler/pml.py:create_sfactor", "angler/pml.py:create_sfactor_f", "angler/pml.py:create_sfactor_b", "angler/pml.py:sig_w", "angler/pml.py:S", "angler/pml.py:S_create", "angler/derivatives.py:createDws", "angler/constants.py:ETA_0"]}
{"id": "C110", "title": "The start of an accelerator optimisation", "statement": "For a structure made by accelerator (gap of at least four cells, spacing of at least one cell) nothing depends on y, the notebook's source row lies between the absorbing layer and the middle row, and both rows are vacuum outside the design region. Run from the structure through Simulation, source, init_design_region('halfway'), Objective and Optimization (R=None) to the first call of compute_J and compute_dJ: if beta*lambda0 is a whole number of cells and the system is nonsingular, the first objective is exactly 0 and the first gradient is in every row the real part of one wave c*exp(2 pi i j/Ny) travelling with the electrons, with mean zero, so the amount of material in a row does not matter to first order. Among the Ny positions of any device along the beam the objective never exceeds |gain|/E0, reaches |gain|/E0*cos(pi/Ny) in one of them, and has mean zero over all.", "quantifier": "every beta, gap, lambda0, L, spc, dl, eps_m, omega, L0, eta, projection strength, PML width, amplitude, exact solver; every device and grid for the positions", "why_tests_cant": "exact statements over all structures and grids; a run shows one structure and a value near zero", "anchors": ["Notebooks/Accelerator.ipynb:J", "angler/structures.py:accelerator", "angler/simulation.py:Simulation.init_design_region", "angler/optimization.py:Optimization.compute_J", "angler/optimization.py:Optimization.compute_dJ", "angler/gradients.py:grad_linear_Ey"]}
{"id": "C111", "title": "The Hz system matrix in floating point", "statement": "With every floating-point operation of the assembly of the Hz system matrix rounded (constants, averages of the permittivity, reciprocals, stretched difference operators, sparse products and sums): without absorbing layers the computed matrix is exactly symmetric, and exactly real for a real permittivity; if sums of neighbouring permittivities lose at most a factor K by cancellation, every computed entry is within ((1+t)^(6K+128)-1) times the sum of the absolute values of its terms of the exact entry (K = 1 for positive permittivities, 1.2e-13 in doubles); if the exact matrix enlarges every vector by sigma and the errors g are below sigma, the computed matrix is nonsingular and its field has the relative error g/(sigma-g); for every nonsingular device without vanishing averages the exact field is reached within any tolerance at high enough precision; and the bound on cancellation is needed: however small the errors, an average of metal and glass that is not zero may be computed as zero.", "quantifier": "every rounding function with a relative error bound and odd symmetry (unbounded exponents), every grid, permittivity, frequency, spacing, PML and both settings of averaging", "why_tests_cant": "all rounding modes and precisions, all grids and permittivities; a test sees single roundings on single grids and never the cancelling averages", "anchors": ["angler/linalg.py:construct_A", "angler/linalg.py:grid_average", "angler/pml.py:S_create", "angler/pml.py:create_sfactor", "angler/derivatives.py:createDws", "angler/simulation.py:Simulation.solve_fields"]}
{"id": "C112", "title": "The Born iteration with inexact linear solvers", "statement": "For weakly driven Kerr devices solved with a linear solver of relative residual at most t: after k+1 passes from any field the Born solver's field is within q^k(2+t)R + tR/(1-q) of the unique solution of the nonlinear equation (q = (1+t/2) times the exact contraction rate, R the bound of the field), so the error settles at the accuracy of the solves; a run that stops below its threshold from a field in the ball is within (q*threshold*norm + tR)/(1-q) of the solution; for every positive threshold there are an accuracy and a number of passes with which the solver stops below it from every field, whatever the solver; but for every accuracy t < 1 and every grid there are a weakly driven device, on which exact solves converge, and a solver within t for which the relative change never falls below t, so that no threshold up to t is ever met.", "quantifier": "every weakly driven Kerr device, grid, absorbing layers, linear solver within the stated accuracy, starting field, threshold and number of passes", "why_tests_cant": "all linear solvers with residuals of the stated size, all starting fields and unbounded numbers of passes; a test sees one solver and finite runs", "anchors": ["angler/nonlinear_solvers.py:born_solve", "angler/linalg.py:solver_direct", "angler/simulation.py:Simulation.solve_fields_nl", "angler/simulation.py:Simulation.compute_nl"]}
{"id": "C113", "title": "The averaging option of the Hz-polarisation gradients", "statement": "grad_linear_Hz/Ex/Ey with averaging=True (averaged permittivities and an averaged design region): without the keyword they are the gradients used by compute_dJ; in uniform surroundings the option changes nothing; the averaged Ex (Ey) gradient is that of the Hz objective reached through the field formula with the permittivity averaged over the two pixels across the y (x) edge; the averaged gradient is the exact derivative where material, field and adjoint field vary linearly across the filter neighbourhood; in uniform material an unfiltered design pixel at the left border of the region gets half the gradient; outside the region the averaged gradient vanishes if the left neighbour is outside as well. The option does not make the gradient exact (a device on every grid on which it is the negative of the derivative at a given pixel, although the system matrix does use averaged permittivities), and it makes gradients non-zero outside the design region.", "quantifier": "every optimisation, simulation, objective derivative, grid, filter, density and pixel", "why_tests_cant": "the keyword is never set by the package, and the failures depend on the fields at a pixel and on its position relative to the design region; the agreement is for all devices and fields", "anchors": ["angler/gradients.py:grad_linear_Hz", "angler/gradients.py:grad_linear_Ex", "angler/gradients.py:grad_linear_Ey", "angler/adjoint.py:adjoint_linear_Hz", "angler/linalg.py:grid_average"]}
{"id": "C114", "title": "Newton's method with inexact linear solvers", "statement": "For coarse Ez devices with a real Kerr coefficient, near a solution Z, with linear solvers of relative residual at most t (t times the slope of the residual at most theta/2 margins): Newton's solver returns; after k+1 steps the returned field is within a constant times r(1/2+theta)^(k+1) of Z plus the error t*omega*S/margin of the single linear solve that follows the iteration; for theta < 1/2 it stops below every positive threshold after a number of steps independent of the start and of the solver. Every solution of a driven device has a neighbourhood and one accuracy with which all positive thresholds are reached, whereas the Born iteration stalls at the accuracy of the solves (C112).", "quantifier": "every valid coarse device and solution, every linear solver of the given accuracy, every start in the neighbourhood, threshold and number of steps", "why_tests_cant": "the rounding errors of one linear solver library are one of infinitely many admissible solvers; a test sees neither adversarial residuals nor all thresholds", "anchors": ["angler/nonlinear_solvers.py:newton_solve", "angler/nonlinear_solvers.py:nl_eq_and_jac", "angler/linalg.py:solver_complex2real", "angler/linalg.py:solver_direct", "angler/simulation.py:solve_fields_nl"]}
{"id": "C115", "title": "Derivative checks with inexact linear solvers", "statement": "For Ez problems, a step d_rho that meets no resonance and any delta > 0 there is an accuracy of the linear solves with which both numbers of every pair that check_deriv reports, for whatever draws, are within delta of those of the exact solver. No accuracy is enough for all steps: on every grid, for every nonzero source, every tau > 0 and every pixel some solver of relative residual tau makes the reported numerical derivative exceed every bound as d_rho tends to 0, while the reported analytical one does not depend on d_rho and the exact solver's two numbers agree in the limit.", "quantifier": "every Ez problem, step, list of draws, accuracy and linear solver; for the negative part every grid, nonzero source, accuracy and pixel", "why_tests_cant": "tests run check_deriv with one solver at a few steps; neither the limit of small steps nor all solvers of an accuracy can be sampled", "anchors": ["angler/optimization.py:check_deriv", "angler/optimization.py:compute_dJ", "angler/optimization.py:compute_J", "angler/linalg.py:solver_direct"]}
{"id": "C116", "title": "The arguments of calls", "statement": "A Python call is accepted exactly if its positional arguments fit the first parameters, every keyword names a later parameter and every parameter left out has a default; then each parameter is bound accordingly, otherwise TypeError is raised. The constructor call of the optimisation notebooks, and the three_port calls of the notebooks and of test_utils.py, bind every value to the parameter meant. This is false of other calls of the repository: the gif scripts and two tests construct Optimization with the keyword J, plot_three_port leaves out an argument of three_port and run leaves out eps_m of eps2rho, so all of these raise TypeError for every value; test_gradient.py gives dl, l, spc where l, spc, dl are expected, so that the structure it tests has no waveguides and a design region of two pixels.", "quantifier": "every signature without repeated names, every list of positional and keyword arguments, all values", "why_tests_cant": "a test calls functions with one list of arguments; the tests concerned here cannot notice that they themselves are the wrong calls", "anchors": ["angler/optimization.py:Optimization.__init__", "angler/optimization.py:Optimization.run", "angler/structures.py:three_port", "angler/filter.py:eps2rho", "data/gif_generator_Tport.py", "data/gif_generator_splitter.py", "data/plot_generator.py:plot_three_port", "tests/test_gradient.py", "tests/test_utils.py"]}
{"id": "C117", "title": "The geometry of the structure functions", "statement": "two_port makes a straight waveguide with a design region symmetric in x. accelerator_multi with n channels (accelerator being n = 1) makes a structure that is uniform along the beam, mirror symmetric in x and filled exactly on its design region; for positive gap and L its empty pixels are exactly those within half a gap of one of the n centres k(gap + L), |k| <= (n-1)/2, and those beyond the outermost slabs; with spc >= dl/4 no material is in the absorbing layers. N_port is mirror symmetric in y and ortho_port in x; this is false: N_port shifts the input waveguide by 0.01 and ortho_port widens the vertical waveguide by half a cell on one side, and structures exist where this shows; it holds for the design region and the outputs of N_port, and for both functions if no row or column lies in the margins concerned.", "quantifier": "every set of dimensions, spacing, number of outputs or channels, and NPML", "why_tests_cant": "the dimensions are real numbers and the numbers of channels and outputs are unbounded", "anchors": ["angler/structures.py:two_port", "angler/structures.py:N_port", "angler/structures.py:ortho_port", "angler/structures.py:accelerator", "angler/structures.py:accelerator_multi"]}
{"id": "C118", "title": "What the unit tests can find", "statement": "test_born_newton compares simulation.fields['Ez'] after each of the two nonlinear solves, which is the linear field of the first source both times and in every pass: the test passes on every Ez device with every list of sources, whatever the linear solver returns, and for any two methods in place of Newton's and Born's, right or wrong (one returning zero fields for instance), that return and keep the stored linear field. test_gradient_selector always fails, because the gradient selected for a linear Hz argument is not that of Ez. test_J passes exactly for random draws with different sums.", "quantifier": "every grid, Ez device, list of sources, linear solver and pair of nonlinear methods; every pair of draws", "why_tests_cant": "the claims are about what the tests themselves can and cannot distinguish", "anchors": ["angler/simulation.py:Simulation.solve_fields_nl", "angler/nonlinear_solvers.py:newton_solve", "angler/nonlinear_solvers.py:born_solve", "angler/objective.py:obj_arg.__init__", "tests/test_nonlinear_solvers.py:Test_NLSolve.test_born_newton", "tests/test_objective.py:TestGradient.test_gradient_selector", "tests/test_objective.py:TestGradient.test_J"]}
{"id": "C119", "title": "solve_fields_nl with solver_nl='krylov'", "statement": "After a Krylov solve that returns, every nonlinear flux probe raises IndexError, since the arrays stored in fields_nl are one-dimensional, while linear probes keep their values if a start was given or a linear Ez field was stored, and otherwise, whatever the outcome, read the fields of solve_fields(). A Krylov solve that raises leaves the nonlinear fields of earlier solves in place, and the probes answer as before. A later solve of an Ez device with any other solver returns what it would have returned without the Krylov solve, successful or not, and repairs the nonlinear probes.", "quantifier": "every root finder, device, dictionary of stored fields, start, setting and later solver; every line of a probe", "why_tests_cant": "no test uses the branch, and the claims compare all continuations with and without the call", "anchors": ["angler/simulation.py:Simulation.solve_fields_nl", "angler/simulation.py:Simulation.flux_probe", "angler/nonlinear_solvers.py:newton_krylov_solve"]}
{"id": "C120", "title": "Optimisations with inexact linear solvers", "statement": "For Ez objectives of linear fields with continuous derivatives, whose systems are nonsingular for all densities between 0 and 1: for every number of steps, step size and delta > 0 there is an accuracy of the linear solves such that run('gd') with any solver of that accuracy ends with densities and permittivities within delta of those of projected gradient ascent on the exact objective and records objective values within delta of those along that path. The same holds for run('adam') with decay rates in [0, 1) and the path of Adam on the exact objective. For twice continuously differentiable objectives and small steps, long enough runs of gradient ascent with accurate enough solvers end within epsilon of a first-order optimum of the exact objective, and no recorded value is more than epsilon below the one before it.", "quantifier": "every Ez problem, start, number of steps, step size, decay rates, tolerance and every solver whose relative residuals are below the accuracy", "why_tests_cant": "tests run one solver on one problem for a few steps; the claim is about all solvers of a given accuracy and accumulates errors over any number of steps", "anchors": ["angler/optimization.py:Optimization.run", "angler/optimization.py:Optimization._run_GD", "angler/optimization.py:Optimization._run_ADAM", "angler/optimization.py:Optimization._step_adam", "angler/linalg.py:solver_direct"]}
{"id": "C121", "title": "Gradients of Kerr devices with inexact linear solvers", "statement": "compute_dJ of a Kerr device (objectives of linear Ez/Hx/Hy and nonlinear Ez arguments) solves adjoint systems built from two iterates of the nonlinear solver. At an exact, regular Kerr solution with correct, continuous autograd partials, for every epsilon > 0 there are a distance and an accuracy of the linear solves such that stored nonlinear fields within that distance of the solution, with linear fields and adjoint solves of that accuracy, give a gradient within epsilon of the exact one at every pixel, hence (symmetric filter) of the derivative of the objective along exact solutions. On weakly nonlinear devices there are an accuracy, a threshold and a number of iterations such that solve_fields_nl with the Born solver followed by compute_dJ, all with any solver of that accuracy, gives the derivative within epsilon. On coarse devices with a real, nonnegative Kerr coefficient the same holds of Newton's solver started in a neighbourhood of any solution, which does not depend on epsilon. If the device is weakly nonlinear at all densities between 0 and 1, one accuracy, threshold and iteration limit make the Born field and any continuous objective of it exact within epsilon at every density.", "quantifier": "all grids, objectives, densities, filters, sources and Kerr nonlinearities under the stated conditions, every tolerance, every linear solver whose relative residuals are below the accuracy, every smaller threshold and larger iteration limit", "why_tests_cant": "tests run one solver at machine accuracy on one device; errors of the inner solves enter the fields, the matrix of the adjoint system and its solution, for all solvers at once", "anchors": ["angler/optimization.py:Optimization.compute_dJ", "angler/adjoint.py:adjoint_kerr_Ez", "angler/gradients.py:grad_kerr_Ez", "angler/nonlinear_solvers.py:born_solve", "angler/nonlinear_solvers.py:newton_solve", "angler/simulation.py:Simulation.solve_fields_nl", "angler/linalg.py:solver_complex2real", "angler/linalg.py:solver_direct"]}
{"id": "C122", "title": "One accuracy of the linear solves for all densities; values handed to L-BFGS-B", "statement": "For Ez objectives of linear fields with continuous derivatives, whose systems are nonsingular for all densities between 0 and 1: for every delta > 0 there is one accuracy of the linear solves such that, at every density in the box and with every solver of that accuracy, compute_J and compute_dJ return the exact objective within delta and its partial derivatives at the design pixels within delta. Hence, whatever calls fmin_l_bfgs_b has made with vectors within its bounds and however many, _objfn(y) and _grad(y) return the negated value and negated derivatives of the exact objective within delta, at one density that agrees with y up to the tolerance of _set_design_region. run('LBFGS') then succeeds whatever fmin_l_bfgs_b does within the bounds: the final density is the vector it returns, up to the same tolerance, and each callback records the exact objective at the vector of the call before it within delta.", "quantifier": "every Ez problem under the stated conditions, every tolerance, every density in the box, every solver whose relative residuals are below the accuracy, every sequence of calls of the two closures with vectors within the bounds", "why_tests_cant": "tests evaluate one solver at a few densities; the accuracy must work for the continuum of densities and for all call sequences of the optimiser", "anchors": ["angler/optimization.py:Optimization._run_LBFGS", "angler/optimization.py:Optimization._set_design_region", "angler/optimization.py:Optimization.compute_J", "angler/optimization.py:Optimization.compute_dJ", "angler/linalg.py:solver_direct"]}

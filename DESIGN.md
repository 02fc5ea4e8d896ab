# Formal model of fancompute/angler in Lean 4

## 1. What is checked

The Python package `/repo/angler` is modelled function by function as Lean definitions under `lean/Verif/Model/`; each definition
cites file and lines.  The claims of `properties.jsonl` are theorems `Cnn_…` in `lean/Verif/Props/`.  Specifications that a reader
can judge without the model are named `Spec.…` (`lean/Verif/Spec/` or at the top of the file that uses them).  `lean/Verif/Lemmas/`
holds helper lemmas and the concrete devices ("witnesses") used in examples and refutations.

All theorems quantify over every grid size, permittivity, source, PML thickness, history, iteration count and so on; nothing is a
bounded check.  A claim that is false of the code is kept in full in `properties.jsonl`, its negation is proved with a concrete
witness (names `…_false`, `…_fails`, …), and the part that is true is proved under a name ending in `_partial`.

## 2. Trusted base

* The Lean 4.33.0 kernel and Mathlib as installed.
* Axioms: every theorem depends on at most `propext`, `Classical.choice`, `Quot.sound`.  The project declares no axiom and uses no
  `sorry`, `native_decide`, `bv_decide`, `implemented_by` or `unsafe`.  (Checked with `#print axioms` on every `Cnn_…` theorem.)
* The reading of the Python source: that the definitions in `Model/` say what the cited lines do, including the documented behaviour
  of the numpy/scipy functions they call.
* The meaning of the specifications `Spec.…`.

Nothing is assumed about the external solvers except what a theorem states as a hypothesis.  The usual one is `Env.Exact`: for a
square matrix with nonzero determinant, the direct solver returns a solution.

## 3. How Python is modelled

* **Numbers** are exact reals and complex numbers.  Rounding, overflow and precision are not modelled, except relative rounding errors (no underflow or overflow) in `Model/Rounded` (C107) and `Model/RoundedMatrix` (C109) (not modelled are in particular the `complex64`
  that a source may have, and `dtype` conversions in general).
* **Division by zero** is never left to Lean's `x/0 = 0`.  Where control flow depends on the result, it is a `PyFloat`
  (`fin r | inf | ninf | nan` with IEEE comparisons: convergence ratios, `_set_design_region`'s ratio, the source amplitude).
  Where numpy would go on with `inf`/`nan` arrays, the model returns the exception-like value `nonFinite`.  A saturable Kerr
  nonlinearity takes its limit as `EpsMax = {m // m ≠ 1}`, so the denominator `eps_max - 1` is never zero.
  The one exception is documented at `Model/Mode.lean` `modeOperator`: an infinite matrix entry that only the external
  eigen-solver sees.
* **Arrays.** A `(Nx, Ny)` array is `Grid Nx Ny α = Fin Nx → Fin Ny → α`.  `reshape((-1,))` is `flatten` (C order, `k = i*Ny + j`).
  Slices whose size is only known at run time (`flux_probe`, `insert_mode`) follow Python's slice rules (negative indices, clamping)
  and numpy's broadcasting rules, including the exceptions (`sliceIdx`, `slice2`, `bsum`, `assign2`).
* **Sparse matrices** are `Matrix (Fin n) (Fin n) ℂ`; `diags`, `kron`, `spdiags`, COO→CSR conversion with its bounds check are modelled
  entry by entry.
* **Exceptions** are values of `PyErr` (the class, not the message).  A method that changes an object is a function
  `State → Except PyErr α × State`, so the state left behind by an exception is visible to the theorems.
* **Object identity.** Methods of `Optimization` that take a `simulation` distinguish "the object `self.simulation`" from another
  object (`Model/Optimization.lean`).  Sharing of permittivity arrays is modelled by a heap in `Model/Heap.lean`.
* **External functions** are parameters: the direct solver and the choice of backend (`Env`), the eigen-solver (`Eigs`; two calls may
  be given two different `Eigs`, because ARPACK starts from a random vector), `fmin_l_bfgs_b` (an arbitrary sequence of callback calls
  and an arbitrary returned vector), `np.random.random` (an argument), autograd (`ObjFn.partials`; theorems that need it to be right
  say so), user-written probes and objectives.

### Modelled

| source | model |
|---|---|
| `constants.py`, `derivatives.py`, `pml.py`, `linalg.py` | `Constants`, `Derivatives`, `Pml`, `Linalg`, `Grid` |
| `simulation.py` (constructor, setters, solves, flux probe, design region, nonlinearity) | `Simulation`, `Flux`, `DesignRegion`, `Heap`, `Reshape` |
| `nonlinearity.py`, `nonlinear_solvers.py` | `Nonlinearity`, `NonlinearSolvers` |
| `source/mode.py` | `Mode` |
| `filter.py`, `utils.py` (with `Binarizer`) | `Filter`, `Utils`, `Binarizer` |
| `structures.py` | `Structures` |
| `objective.py`, `adjoint.py`, `gradients.py` | `Objective`, `Adjoint`, `Gradients` |
| `optimization.py` | `Optimization`, `OptInit`, `OptRun`, `ScanPower` |
| `plot.py` and the plotting methods of `simulation.py`, `optimization.py` | `Plots`, `Animation` |
| `data/device_saver.py`, `data/spectrum_plotter.py` | `Device` |
| `data/plot_generator.py`, `data/TOC_generator.py` | `PaperFigures` |
| `Notebooks/Accelerator.ipynb`, `Notebooks/Accelerator_multi_channel.ipynb` (sources and objectives) | `Accelerator` |
| `Notebooks/2_port.ipynb`, `3_port.ipynb`, `T_port.ipynb`, `Splitter.ipynb`, `Splitter_4.ipynb` (probe normalisation and objectives) | `PortObjectives` |
| `Notebooks/Nonlinear_system.ipynb` (transmissions, scan of the source amplitude, effective width, analytic phase shift) | `NonlinearNotebook` |
| `angler/filter.py` density maps, every operation rounded | `Rounded` |
| the assembly of the `Ez` system matrix (`constants.py`, `derivatives.py`, `pml.py`, `linalg.py`), every operation rounded | `RoundedMatrix` |
| `tests/test_nonlinear_solvers.py`, `tests/test_objective.py` (the assertions) | `UnitTests` |
| binding of call arguments in the notebooks and data scripts | `Calls` |
| the branch `solver_nl='krylov'` of `solve_fields_nl` (scipy's root finder is a parameter) | `Krylov`, `KrylovBranch` |
| programs over several simulations, arrays by reference (`simulation.py:48,100,317-319`) | `Heap`, `Programs` |

### Not modelled

Floating-point rounding (outside `Model/Rounded` and `Model/RoundedMatrix`), memory, time and timing output; what matplotlib does with the data handed to it (`Model/Plots` has the data, colour
limits and exceptions of `plt_*` and `plot_it`, `Model/Animation` the frames of `plt_base_ani` and the curves of `plot_transmissions`), and the file-system effects of `_check_temp_plt`; progress bars and printed text; the internals of the external solvers; in `/repo/data`, the scripts `gif_generator_*.py` (of which only the constructor call is modelled: it raises `TypeError`, C116) and `get_stats.py`, and of `device_saver.py` and `spectrum_plotter.py` the saving and plotting
(`Model/Device` has the class `Device`, `get_spectrum` and `scan_frequency`); type errors from arguments of a wrong Python type, except where a
theorem mentions them.

## 4. How the theorems were tested

Edited copies of the model ("wrong programs") were built outside `/verif`; `seeded/LOG.jsonl` has one line per attempt: the
definition edited, the edit, the claim it breaks, the theorems that failed, and the theorems tightened because of it.
`theorems_failed` lists the declarations Lean rejected directly, `claims_lost` the property theorems that are among them or use
them.

## 5. State of each claim

`proved`: the statement as given.  `partial`: part proved, the rest refuted or missing as noted.

| id | claim | status | files in `Props/` | remarks |
|---|---|---|---|---|
| C01 | Projection keeps densities physical | proved | Projection | exact real arithmetic |
| C02 | The projection derivative is the derivative of the projection | proved | FilterMore, Projection | HasDerivAt for all densities, eta, beta |
| C03 | beta -> 0 means no projection, beta -> infinity means a hard threshold | proved | Projection | limits as Filter.Tendsto |
| C04 | Density and permittivity are inverse parametrisations | proved | Projection, Utils | filter.py functions and the duplicates in utils.py |
| C05 | The density filter leaves pixels outside the design region alone | proved | Filter | for any matrix get_W returns |
| C06 | The density filter is an average | partial | Filter | False near the margin: C06_border_pixels_lost (filtered density 0), C06_amplifies (constant 1 filtered to more than 4; columns are normalised instead of rows). Proved when every pixel within R of the design region is visited by the loops, NPML >= 1. |
| C07 | The density filter wraps around in periodic directions | partial | Filter, FilterMore | False for R >= 2 because wrap(i,N) is wrong: C07_periodic_x_raises (ValueError), C07_periodic_y_wrong (wrong neighbour). Proved for R = 1. |
| C08 | Finite-difference operators act as periodic forward / backward differences on the grid | partial | Derivatives | False on an axis with a single cell (createDws returns the identity, so the derivative of a constant is not 0): C08_singleton_axis_fails. Proved for more than one cell. |
| C09 | Forward and backward differences are negative transposes | proved | Derivatives | difference operators with PML factors stripped; consequence for the Laplacian |
| C10 | PML stretch factors are absorbing and never singular | proved | Pml | pointwise factors and the four S matrices |
| C11 | The PML has the requested thickness on both sides | partial | Pml | False: the low end has NPML+1 absorbing cells, the high end NPML-1 (forward): C11_layers_differ. The exact set of absorbing cells is proved. |
| C12 | Reciprocity | proved | Maxwell | matrix form and through solve_fields |
| C13 | solve_fields returns a solution of the discrete Maxwell equations (Ez) | proved | Maxwell | operator form for all grids; difference-quotient form for more than one cell per axis |
| C14 | solve_fields returns a solution of the discrete Maxwell equations (Hz) | partial | Maxwell | False for the default averaging=False on a non-uniform permittivity: C14_default_averaging_fails. Proved for averaging=True or when averaging leaves the permittivity unchanged. |
| C15 | Fields are linear in the source | proved | Maxwell | linearity of all three returned components; zero source gives zero fields |
| C16 | The complex-to-real solver solves the coupled system | partial | Complex2Real | False for the scipy fallback (NameError): C16_scipy_raises. Proved for Pardiso. |
| C17 | Assigning eps_r invalidates stored fields and rebuilds the system | proved | SimState | histories = lists of public operations |
| C18 | Only components of the simulation's polarisation are ever stored | proved | SimState | over all histories of public operations |
| C19 | Nonlinear solves do not disturb the linear solution | proved | SimState | all solvers, also when they raise |
| C20 | Constructor validation | proved | SimState | constructor raises exactly on the invalid inputs |
| C21 | init_design_region touches only the design region | partial | DesignRegion | Values: proved for every style with lossless outside pixels (C21_values_partial). The full claim is false: random styles drop the imaginary part outside the region (C21_random_drops_loss). Aliasing: the other styles never write the caller's arrays; 'halfway' returns the caller's eps_r and writes into it (C21_halfway_writes_callers_array). |
| C22 | Kerr permittivity shift | proved | Kerr | realness claimed where the permittivity is real |
| C23 | The Newton Jacobian is the derivative of the nonlinear equation | partial | Kerr | False for eps_scale with complex permittivity: C23_complex_scaled_fails. Proved whenever the Kerr coefficients are real. |
| C24 | Fixed points of the Born and Newton iterations are exact nonlinear solutions | partial | Nonlinear | Ez proved (Born and Newton). False for Hz: C24_Hz_fixed_point_not_maxwell (permittivity shift added to the magnetic equation). |
| C25 | A converged nonlinear solve satisfies the nonlinear equation to the reported tolerance | proved | NonlinearSolve | all thresholds and limits; also an explicit bound in terms of the threshold |
| C26 | Nonlinear solver bookkeeping | proved | NonlinearSolve, Rejects | Born and Newton. C26_zero_source: with no source Born makes every pass, recording nan or inf. |
| C27 | The hybrid solver switches to Newton exactly when Born did not converge | partial | NonlinearSolve | False for thresholds above 1e-10 (C27_threshold_fails: early stop counted as converged); a nan change returns Born (C27_zero_source). Exact characterisation for every threshold: C27_hybrid_exact. |
| C28 | Without nonlinearity the nonlinear solve equals the linear solve | proved | NonlinearSolve | any start, threshold, limit; born and hybrid always return, newton with Pardiso |
| C29 | The adjoint gradient is the exact gradient (linear Ez) | partial | GradientEz | Exact at every design pixel without a filter, and with get_W when the design region lies inside the area get_W visits; false for design pixels near that area's border: C29_false_near_border (gradient multiplies by W instead of its transpose). |
| C30 | The adjoint gradient is exact for Hx and Hy objectives | partial | GradientBorder, GradientEz | As C29, for any mixture of linear Ez, Hx, Hy arguments: exact at every design pixel without a filter, and with get_W when the design region lies inside the area get_W visits; false for design pixels near that area's border, for Hx alone and for Hy alone: C30_false_near_border. |
| C31 | The adjoint gradient is exact for the Kerr-nonlinear Ez field | partial | GradientKerr, KerrBorder | Exact at every design pixel without a filter, and with get_W when the design region lies inside the area get_W visits, along the (proved) unique local branch of exact Kerr solutions; false for design pixels near that area's border: C31_false_near_border. Mixtures with linear Ez, Hx, Hy arguments included; nonlinear Hx/Hy arguments raise NameError (C34). |
| C32 | The adjoint gradient is exact for Hz-polarisation objectives | partial | GradientHz | False: C32_false gives, on every grid and at every pixel, a system whose returned gradient is exactly minus the (nonzero) derivative. Partial: exact where material is locally uniform and forward and adjoint fields are locally linear. |
| C33 | The gradient vanishes outside the design region | proved | GradientOutside | every gradient function, any other simulation argument, any filter radius and NPML |
| C34 | Objective arguments and gradients are matched up | partial | Objective | Constructor, matching of partials/gradients and compute_J proved for all inputs. The last clause is false: C34_kerr_gradients_missing proves that any nonlinear argument other than Ez makes compute_dJ raise in every state; C34_gradient_supported_partial covers the seven remaining kinds. |
| C35 | compute_J returns the objective of the simulation it is given | partial | Caching | Negations: the cache ignores the simulation argument and later edits. Partial: correct when fields_current is False, for linear objectives. |
| C36 | Optimisation keeps the device physical | partial | OptRun | C36_densities: from densities in [0,1] every state reached by run('gd') and run('adam') keeps them there (C36_densities_after_step: from any start after one completed step). Permittivity bound proved for filters that keep [0,1] (C36_permittivity_partial: no filter, or get_W with the design region well inside); C36_false: fails for a filter made by get_W itself. |
| C37 | Optimisation never changes pixels outside the design region | partial | OptRun | Density and permittivity outside the design region unchanged by any run of any method when the permittivity there is the projected density (C37_outside_partial), in particular for air and solid material (C37_binary_outside_partial). C37_clipped and C37_gray are negations: other outside material is clipped to eps_m or re-projected by the first step. |
| C38 | Per-iteration logs stay aligned | proved | RunLogs | Any sequence of runs, any method, including runs that raise: objfn_list and src_amplitudes grow together and a completed run adds the stated number of entries. |
| C39 | Adam moments are bias corrected | proved | Adam | Adam moments after n iterations are the bias-corrected weighted averages of all gradients; every executed iteration applies the textbook step; constant-gradient corollary. |
| C40 | Design vector extraction and insertion are inverse | proved | Lbfgs | get/set round trip of the design vector; wrong lengths incl. numpy broadcasting (C40_wrong_length, C40_single_value, C40_single_pixel); the state left by run_LBFGS is the vector returned by the (arbitrary) external minimiser. |
| C41 | During L-BFGS the permittivity is the image of the density | partial | Lbfgs | eps = projection of rho is an invariant of every run that starts with it (C41_consistent_partial) and holds after any accepted move (C41_after_move_partial). C41_stale_start: not established by the constructor. |
| C42 | FWHM is the width of the half-maximum peak at the centre frequency | partial | Scan | Contiguous-run width proved when the centre sample is above half maximum; C42_false: otherwise samples below the centre are still counted. |
| C43 | Scans leave the simulation alone | proved | Caching, CheckDerivState | scan_frequency leaves the whole simulation unchanged. check_deriv leaves source, frequency, density; permittivity becomes the re-projected density, the fields are solved there, and the simulation does not depend on the points or the step. Also when they raise. |
| C44 | Source amplitude control | partial | Amplitude | By the square law the predicted shift is within the bound iff m >= 2.5e-5 M (both directions proved). C44_false: a call after which the shift measured by the code itself exceeds the bound. |
| C45 | Density binariser | proved | Binarizer | All permittivities between the materials in the design region, 0/1 region with a design pixel, eps_m > 1. |
| C46 | Exponential binariser | proved | Binarizer | All permittivities between the materials in the design region, 0/1 region with a design pixel, eps_m > 1. |
| C47 | Smoothness binariser | partial | Binarizer | In [0,1] proved; C47_false: the factor equals the density factor and cannot see arrangement (the convolution kernel is a shift). |
| C48 | A binarised objective can be optimised | partial | Binarizer | C48_false: no argument list lets a binarised function be constructed and evaluated as Objective (signature has 2 parameters, args[2] is read). Direct calls work (C48_call_partial). |
| C49 | Region painting is a union | proved | Structures | apply_regions on lists of regions; all six structure functions (three_port, two_port, N_port, ortho_port, accelerator, accelerator_multi). |
| C50 | Structures are symmetric and centred | partial | Structures | Coordinates symmetric for N >= 2 with spacing N*dl/(N-1); spacing dl refuted (C50_spacing_false), a single point is not centred (C50_single_false). two_port symmetric for all parameters; three_port symmetric for an even number of rows, refuted for odd (C50_three_port_false). |
| C51 | flux_probe integrates the Poynting flux on the requested line | partial | Flux, Rejects | Lines inside the grid, both normals and polarisations, linear and nonlinear fields, centres counted from the end at least three columns in. Refuted: last column (always 0), centres -1 and -2 (always 0), lines ending at the last row (ValueError), lines starting below row 0 (0). |
| C52 | Power is quadratic in amplitude and insensitive to global phase | proved | Flux | All centres and widths, including those that raise. |
| C53 | Mode sources are written only on the mode line and scale with the requested amplitude | proved | Mode, Rejects | Eigen-solver external (a function of operator, count and guess); idempotence includes W_in. C53_raises: an unknown direction raises ValueError. |
| C54 | Input power normalisation | partial | Mode | Centres c >= 2 on either axis: W_in is the flux through the mirrored line of the field in the straight waveguide; sources already present off the line also radiate. Refuted for centres <= 1, negative ones included (W_in = 0). |
| C55 | grid_average is an average | proved | Utils | both axes, periodic wrap |
| C56 | Grid spacing consistency | partial | Spacing | Exact spacing after any history of assignments; equals dl iff the current shape is the constructor's (C56_false otherwise). |
| C57 | Utility functions are usable | partial | Utils | utils.deps_drho_bar is wrong unless eps_m is 2 (or 0), drho_bar_drho and n2_from_chi3 raise NameError: C57_utils_broken. |
| C58 | run starts from any simulation | partial | RunLogs | Negation: without an initialised density run raises for every method (C58_uninitialised_fails). With a density, ValueError exactly for the unknown methods, before anything is solved or logged (C58_methods_partial). |
| C59 | A frequency scan evaluates the objective at the stated frequencies | proved | Scan | Values and completion, against a separately constructed simulation. |
| C60 | Mode sources do not depend on the eigen-solver's phase | partial | Mode | Real modes and phases with nonzero real part; refuted for the phase i (zero source). |
| C61 | Power balance of the solved fields | proved | Power | Exact discrete Poynting theorem for the returned fields, any rectangle outside the PML; Hz for averaging=True or averaging-invariant permittivity (default averaging=False does not return a solution, see C14). Linear solves only. |
| C62 | The flux probe reports the power of the power balance | partial | Power | False as stated (C62_probe_false: two probes around a lossless source-free column report different powers of the wrong sign). Proved: probe = true power + dl-second-order term, both directions, Ez. |
| C63 | Strength of the absorbing layer | proved | PmlProfile | Continuum attenuation of the profile plus exact sampled values; says nothing about the discrete reflection (see C11). |
| C64 | The length unit is immaterial | proved | Units | Proved on grids with at least two cells per axis, assuming the matrices met are nonsingular (examples show such devices exist); C64_one_cell_false refutes it on one-cell axes, where the derivative matrices are the identity. |
| C65 | A power scan measures the device at each source amplitude | proved | ScanPower | Probes are arbitrary callables that do not modify the copy they are given (flux probes in the scaling theorems). Numbers are exact; s_min, s_max > 0. |
| C66 | A power scan with the documented probe reads the nonlinear field at each amplitude | partial | ScanPower | False as documented: flux_probe's default nl=False reads the linear fields, which are the stale ones if the simulation was solved before (C66_stale_false, C66_false) and the linear solution otherwise (C66_fresh_false). Proved part: probes with nl=True. |
| C67 | A small step of gradient ascent increases the objective | partial | Ascent, AscentHz, AscentKerr | Proved for Ez objectives of linear fields with a filter that is symmetric on the design region (C67_gd_ascent_partial, C67_adam_ascent_partial: first iteration of adam; C86 treats the first n iterations of adam). Refuted for Hz (C67_Hz_false): on every grid with at least 3x3 cells there is an Hz problem in which every small step of run('gd') lowers the objective, because of the wrong Hz gradient (see C32). Refuted, as an exact statement, for nonlinear fields (C67_Kerr_false): the code evaluates the objective after finitely many solver passes but differentiates the solution of the nonlinear equation; in the witness the two differ by a relative 1e-24, so this would not be seen in floating point (C82 says the computed gradient is close to the exact one once the fields are). |
| C68 | Gradient ascent stops exactly at first-order optima | proved | Ascent | Both directions proved; example shows a density that is stationary and one that is not. |
| C69 | check_deriv compares the gradient with difference quotients of the objective | partial | AscentKerr, CheckDeriv | The reported pairs and their agreement in the limit are proved for Ez objectives with a filter that is symmetric on the design region. Refuted: at the border of the filter (C69_false_near_border), for Hz objectives (C69_Hz_false), for objectives of nonlinear fields (C69_Kerr_false: exact statement, opposite signs but of relative size 1e-24, see C67), and the side effect: after check_deriv the next compute_J of the untouched simulation is off by exactly (last numerical derivative)*d_rho (C69_stale_cache). |
| C70 | scipy's L-BFGS-B receives minus the objective and its exact gradient at the requested point | proved | LbfgsValues | The gradient part is stated where the system matrix at the stored density is regular. Objectives whose gradient is wrong in the first place (Hz, asymmetric filter) are covered by C29, C32. |
| C71 | What was solved before does not matter | partial | History | compute_J and compute_dJ with fields_current false are independent of the history (C71_compute_J, C71_compute_dJ; hypotheses shown reachable by C71_pristine_is_new). solve_fields_nl() without Estart: proved when no linear field is stored or the stored one belongs to the present source; after assigning a new source it is false, C71_stale_start_false. |
| C72 | The two axes are treated alike | proved | Transpose | Holds without exception, including axes with one cell; regularity of the systems solved is a hypothesis (met by the examples). |
| C73 | Translation along a periodic axis | proved | Translate | Shift only along axes without absorbing layer; regularity of the systems solved is a hypothesis (met by the examples). |
| C74 | Mirror images | partial | Mirror | Proved: Ez with either averaging, Hz with averaging=True, along x and along y; Kerr solves of Ez devices (every solver) along both axes. Refuted by witnesses: Hz with the default averaging=False (C74_default_averaging_false; Kerr solves of Hz devices always use that default) and absorbing layers along the axis (C74_absorber_false). |
| C75 | When the linear systems are solvable | proved | Solvable | Loss everywhere without layers (both polarisations), coarse grids with layers (Ez). C75_resonance delimits the claim: without loss and coarseness a device can have no field. |
| C76 | Convergence of the Born iteration | proved | BornConverges | The iteration converges under the explicit weakness condition; C76_strong_diverges shows that some such condition is needed. |
| C77 | Convergence of Newton's method and of the default nonlinear solve | proved | NewtonConverges | Pardiso installed (without it Newton raises, C16/C26). The constants are explicit; the radius is not claimed to be optimal. |
| C78 | A stronger or phase-shifted source | proved | Gauge | All parts. Hypotheses: exact external solvers, regular systems (C75 gives devices where they are). The convergence history is that of the model's exact arithmetic. |
| C79 | Time reversal | proved | Reversal | All parts; C79_absorber_false is the negation with absorbing layers. Hypotheses: exact external solvers, regular systems. |
| C80 | Continuing an optimisation with a second call of run | partial | Resume | 'gd' proved for all runs, including those that raise. 'adam': proved for beta1 = beta2 = 0 (C80_adam_memoryless_partial) and false for the default rates (C80_adam_restarts). 'lbfgs' is scipy's and not covered. |
| C81 | Sensitivity of the fields to errors of the permittivity | proved | Tolerance | C81_field_bound, C81_tolerance, C81_kerr for coarse devices with any layers; C81_resonant exhibits devices near resonance for which no bound holds. |
| C82 | Gradients from approximately converged Kerr fields | proved | GradientApprox | Continuity of compute_dJ at exact regular Kerr solutions for stored fields and for the stored nonlinear state separately (C82_gradient_continuous), with C31 the limit is the derivative (C82_gradient_near_derivative); applied to the Born solver on weak Kerr devices with threshold and iteration limit as parameters (C82_born). compute_dJ itself always calls the default solver; the Born statement is about fields stored by an explicit call. |
| C83 | The Krylov solver | proved | Krylov | Residual, error bound, ignored settings and Hz proved; the arrays returned as Hx and Hy are the electric field (C83_false_magnetic proves they never satisfy Faraday's law), as a comment in the source concedes. |
| C84 | Runs of the optimiser are projected gradient ascent and Adam on the objective | proved | AscentPath, AscentStart | Run refined to the mathematical iteration by induction over the number of steps; F is the objective as compute_J evaluates it (Spec.IsObjective), the gradient is the derivative of F. Linear Ez objectives with max_ind_shift unset. C84_start: which initialisations meet the condition on the start; C84_false_start: the first recorded value of a random start differs from the objective of its density. |
| C85 | Gradient ascent with small steps converges to first-order optima | proved | AscentConverge | Proved through C84: the code's iteration is projected gradient ascent on F, F is C2 on the box (Cramer's rule), so its gradient is Lipschitz there. The safe step size exists but is not computed by the code; C85_false_large_steps shows that some bound is needed. |
| C86 | The first n steps of Adam climb when the step size is small, and first-order optima are kept | proved | AdamAscent | Proved through C84 and the smoothness of the objective (Cramer's rule): as the step size tends to zero each of the first n Adam steps tends to the first one. For a fixed step size and unboundedly many steps the claim is false (C86_false_large_steps). |
| C87 | From the user's inputs to the recorded values | proved | Workflow | Stated from the inputs alone (Spec.Device, Spec.Inputs): the specification uses the discrete Maxwell equations, the projection formula and calculus derivatives, not the matrices or the stored state. C87_false_background is the reason for the two-material condition; C84_false_start for the three starts. Resonance-free devices are a hypothesis (C75 gives it on coarse grids, used in the example). |
| C88 | Optimising weakly nonlinear devices works with nearly exact values and gradients | proved | KerrRun | For Ez devices satisfying the weak-nonlinearity bound of C76 at every density near the box with contraction factor at most 1/2, default solver settings ('hybrid', threshold 1e-10) and max_ind_shift None; tolerances are the explicit fieldTol and gradTol; F is proved to exist. |
| C89 | Plots show the stored data | partial | PlotScan, Plots | plt_* and the logs: proved in full (C89_run_logs for gradient ascent, C89_logged for one iteration of every method). Partial for plot_it (C89_plot_it_partial) and plot_transmissions (C89_plot_transmissions_partial): false as stated, with C89_plot_it_default_empty (the default ('eps') is a string and draws nothing), C89_plot_it_single (a one-element tuple raises TypeError), C89_plot_it_Hz (Hz simulations raise TypeError), C89_plt_objs_needs_axes (plt_objs without axes always raises) and C89_plot_transmissions_false (the abscissa is the number of the point, not the amplitude) as negations. |
| C90 | The fields in time: animation, Maxwell's equations, powers | proved | TimeDomain | Proved in full, for linear solves. Also shown: the axes of the animation are laid out for the transposed shape, so they fit the frames only on square grids (C90_layout_square_only). |
| C91 | A mode source in a straight waveguide excites a field with the mode's profile | partial | Guided, GuidedLimits | Proved for Ez with a source line across the whole (periodic) cross-section and no layers on the transverse axis, both axes; waves and wave number along the axis. Missing and refuted with witnesses: a line that does not span the cross-section (C91_narrow_false); Hz along x, where the mode operator averages the permittivity along the wrong axis (C91_Hz_x_false); Hz along y, where the right current would be the profile divided by the permittivity (C91_Hz_y_false). Layers on the transverse axis are not seen by the mode operator and are excluded. The eigen-solver is a hypothesis (Spec.ModeSolver: eigenvectors, real up to a common factor). |
| C92 | Uniform media: plane waves, resonances and convergence to the Helmholtz equation | proved | Uniform | Both polarisations (for Hz the averaging of a uniform permittivity has no effect). Convergence for band-limited currents (finite sums of plane waves); the continuous field is exhibited and shown to solve the Helmholtz equation with explicit derivatives. |
| C93 | Optimisation commutes with, and keeps, the symmetries of the device | proved | Symmetric | Images: exchanged axes (C93_turned), motions (C93_moved), mirrors along x and y (C93_mirrored, C93_mirrored_y), for gd and Adam; symmetric problems keep symmetric densities (C93_kept, C93_kept_turned). get_W commutes with exchanging the axes (C93_filter_turned); with a periodic y axis and R = 2 it breaks the mirror symmetry (C93_filter_mirror_false). Mirrors across an absorbing layer are excluded: there even single solves differ (C74). |
| C94 | One-dimensional simulations: strips and single rows of cells | partial | OneD | Wide strips (at least two cells along y) proved for both polarisations (C94_wide_*_partial) and for two widths (C94_width_partial). The same claim for one cell across is refuted for every device with a nonzero source (C94_single_*_false); C94_single_Ez/Hz give the equations such devices do satisfy. |
| C95 | Figures of finished devices (data/device_saver.py) | proved | Device | Exact powers, exact reals. The docstring's claim that the figures describe the device is false after _set_source_amplitude (C95_stale_W_in), for the axes (C95_axes) and for broad resonances (C95_Q): these are proved as they are. |
| C96 | Spectra of devices (data/spectrum_plotter.py) | proved | Spectrum | get_spectrum never returns, on any device; scan_frequency characterised for the probes that work. |
| C97 | Absorbing layers remove resonances | proved | Resonance | Layers on both axes, on one axis, guides along x and y, single rows. Energy argument on each axis and common eigenvectors; devices with material varying in both directions are covered by C98 only. |
| C98 | A device is in resonance at finitely many frequencies | proved | Frequencies | Determinant as a polynomial of the frequency after clearing the stretch factors of each cell; nonzero because large frequencies are solvable (C75). |
| C99 | A Kerr device can have several fields, and a nonlinear solve returns the one it was started at | proved | Several | Exact fields are fixed points of all solvers; explicit devices with three of them (uniform media). How many fields a general device has is not covered. |
| C100 | Metals screen the fields and the gradients | proved | Metal | Maximum principle of the discrete equations in cells of negative permittivity; decay by induction on the depth; adjoint field through the diagonal scaling that makes the system matrix symmetric. The gradient part is for Ez without a filter (grad_linear_Ez). |
| C101 | Inexact linear solvers | proved | Inexact | Replaces the assumption of exact solvers (Env.Exact) by a bound on the residual (Env.Within) for linear Ez and Hz fields and for Ez objectives and gradients; C101_not_uniform shows that the accuracy must depend on the device. Rounding errors elsewhere (assembly, NumPy sums) are not covered. |
| C102 | The filter limits how fast a design can change | proved | FeatureSize | Proved for core pixels (distance 2R from the PML), sharp constant; the border is excluded and a counterexample there is proved (C102_border_false). |
| C103 | The figures of the paper (data/plot_generator.py) | proved | PaperFigures | Data handed to matplotlib; rendering, annotations and the drawing of the empty structure are not modelled, and the imports of plot_generator.py (packages fdfdpy and structures) are taken to succeed. |
| C104 | Laser-driven accelerators (Accelerator notebooks) | proved | Accelerator | The value, the autograd derivative, bound, scaling, phase of the complex gain and the channels of accelerator_multi are proved for all inputs; C104_gradient_row says which objective the code's Ey gradient belongs to and C104_gradient_row_false that it is not the one asked for. |
| C105 | Objectives of the port and splitter notebooks | proved | PortObjectives | symmetric splitting is proved without absorbing layers in y, as the reflection theorem C74 is (its negation with layers is proved there) |
| C106 | Kerr self-phase modulation at low power (Nonlinear_system notebook) | proved | SelfPhase, SelfPhaseLine | Low-power solutions (C106_field), what newton, born and hybrid return (C106_newton, C106_born_hybrid), the notebook's scan (C106_transmission, C106_scan), effective width (C106_width), exact nonlinear guided waves, their power and phase shift (C106_mode, C106_power, C106_mode_shift, C106_mode_slope), the ratio to the notebook's analytic line (C106_line) and the proof that it is not one (C106_line_false). The size of the stability constant is not computed; C106_stable gives one for every regular device. The existence of nonlinear guided modes beyond plane waves is a hypothesis of C106_mode_slope. |
| C107 | Density maps in floating point | proved | Rounded | Spec.double is binary64 with ties to even and unlimited exponents; its tanh is correctly rounded, which libm's need not be. The general theorems ask only that tanh be monotone, odd and accurate to a relative error v. That the filter keeps rounded densities below 1 is false (C107_filter_false). Other modules keep exact numbers. |
| C108 | Simulations and the permittivity arrays they share | partial | Sharing | False when an array in use is written in place: C108_stale_iff, C108_halfway_iff (both exact criteria, Ez), C108_solves_old, C108_solves_old_Hz. Proved for programs without such writes (C108_consistent_partial); frame, copies and repair for every program (C108_frame, C108_copy, C108_repair). Permittivity arrays are complex and two-dimensional; sources and fields are values. |
| C109 | The system matrix in floating point | proved | Assembly | Ez polarisation; exponents are unbounded (no underflow/overflow); the complex reciprocal and the fourth power are library operations with an error bound. Doubles are an instance (C109_double). |
| C110 | The start of an accelerator optimisation | proved | AcceleratorStart | Structure, source placement, first value and first gradient of Accelerator.ipynb in one theorem (exact solver, R=None, period a whole number of cells). The wave form of the gradient is C110_gradient; a period that is not a whole number of cells is covered by the negation in C104_unpatterned. |
| C111 | The Hz system matrix in floating point | proved | AssemblyHz | Proved for every rounding function with a relative error bound (exponent range unbounded); C111_cancel shows that the bound on cancellation cannot be dropped. |
| C112 | The Born iteration with inexact linear solvers | proved | BornInexact | C112_floor (error after k+1 passes), C112_threshold (what stopping guarantees), C112_converges (an accuracy for every threshold), C112_stall (negation: thresholds up to the accuracy may never be met). The linear solver is any function whose relative residual in the maximum norm is at most t on nonsingular systems; other operations exact. |
| C113 | The averaging option of the Hz-polarisation gradients | partial | GradientsAvg | Partial: exactness (C113_exact_partial) and vanishing outside the design region (C113_outside_partial) hold only under the stated conditions; C113_false and C113_outside_false prove the negations. C113_default, C113_agree, C113_source and C113_border hold in general. |
| C114 | Newton's method with inexact linear solvers | proved | NewtonInexact | Env.WithinR bounds the relative residual (sup norm) of the real solver used by solver_complex2real; Env.Within that of the complex one. C114_error: the field returned (with the final linear pass). C114_converges: the threshold is reached with a fixed accuracy. C114_accuracy: such a neighbourhood and accuracy always exist. The solvers are arbitrary functions with that residual; rounding of the assembly itself is C109/C111. |
| C115 | Derivative checks with inexact linear solvers | proved | CheckInexact | C115_fixed_step: fixed d_rho, both reported numbers converge with the accuracy of the solver, uniformly over draws and solvers. C115_small_steps: for every tau > 0 a solver within tau whose numerical derivative diverges as d_rho -> 0. |
| C116 | The arguments of calls | partial | Calls | Proved: the characterisation of accepted calls, and the calls of the notebooks. The full statement (every call in the repository binds as meant) is false; C116_J_false, C116_missing_false, C116_no_waveguides and C116_test_structure prove what happens instead. |
| C117 | The geometry of the structure functions | partial | Geometry | two_port and the accelerators: proved. N_port and ortho_port: symmetric when no row or column lies in the margins of the offsets; otherwise false (C117_N_port_false, C117_ortho_port_false). |
| C118 | What the unit tests can find | proved | UnitTests | test_born_newton for any two methods and any linear solver; test_gradient_selector; test_J. numpy's assert_allclose is modelled for finite arrays. |
| C119 | solve_fields_nl with solver_nl='krylov' | proved | KrylovBranch | scipy's root finder is a parameter; what matplotlib does with one-dimensional arrays is not modelled. |
| C120 | Optimisations with inexact linear solvers | proved | RunInexact | The accuracy depends on the problem, the number of steps and the tolerance (compactness argument, no explicit bound). Partial derivatives of the objective are trusted to be what autograd returns (Spec.Autograd), as in C84; linear fields, Ez polarisation, no source control. |
| C121 | Gradients of Kerr devices with inexact linear solvers | proved | KerrInexact | C121_gradient, C121_derivative: limits of the mixed adjoint gradient as fields and all linear solves become accurate; C121_born, C121_newton: end to end for weak Kerr devices and for coarse devices near any solution (pardiso backend for Newton); C121_uniform: Born fields and objective values with constants that serve every density between 0 and 1. Examples: point source on any grid, total nonlinear intensity, a linear solver that is never exact. |
| C122 | One accuracy of the linear solves for all densities; values handed to L-BFGS-B | proved | LbfgsInexact | C122_uniform: compactness of the box and joint continuity in density and solves; C122_lbfgs, C122_run: invariant over all call sequences; the closures evaluate at one density near y, and callbacks record the value there. |

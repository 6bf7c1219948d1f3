{"id": "C01", "title": "The run ends exactly at the first step that reaches the end condition", "statement": "sim.time_stepping.start() performs time steps until t >= t_end (USE_T_END) or it >= it_end (otherwise) and no further: every step that is executed starts strictly before the end, the final state satisfies the end condition, `it` is the number of executed steps plus its start value and `t` is the start time plus the sum of the time increments used. A run whose increments stay above a positive bound terminates.", "quantifier": "every initial (t, it), every end condition and every history of time increments chosen along the run", "why_tests_cant": "the number of steps and the sequence of adaptive increments are unbounded; a test fixes one of them", "anchors": ["fluidsim/base/time_stepping/base.py: TimeSteppingBase0.main_loop, one_time_step, is_simul_completed", "fluidsim/base/time_stepping/base.py: start"]}
{"id": "C02", "title": "A stop request finishes the current step and starts no other one", "statement": "When the elapsed wall-clock time exceeds max_elapsed, or a stop signal has been received, the step in progress is completed (outputs, computation, t and it updated consistently) and no further step begins; without such a request the run is unaffected.", "quantifier": "every schedule of clock readings and signal deliveries relative to the steps", "why_tests_cant": "a signal can arrive between any two instructions of any step; tests deliver it at one place", "anchors": ["fluidsim/base/time_stepping/base.py: one_time_step, main_loop", "fluidsim/base/solvers/base.py: SimulBase.__init__ (signal handler)"]}
{"id": "C03", "title": "Adaptive time increments respect the stability bound", "statement": "With USE_CFL the increment used for a step never exceeds 1.02 times min(deltat_max, CFL number over the maximal advection frequency of the present state (and, with eta, the wave limit)); it is positive; and it is left unchanged when it is already within 2% of that value.", "quantifier": "every field values, grid spacings, CFL coefficients and every history of previous increments", "why_tests_cant": "the bound quantifies over all velocity fields and over the hysteresis history", "anchors": ["fluidsim/base/time_stepping/base.py: _compute_time_increment_CLF_ux, _uxuy, _uxuyuz, _uxuyeta, _compute_time_increment_CLF_from_tmp", "fluidsim/solvers/ns2d/strat/time_stepping.py"]}
{"id": "C04", "title": "Each Runge-Kutta/Euler scheme is the textbook scheme on the integrating-factor equation", "statement": "For every nonlinear tendency function, one step of Euler, RK2, RK2_trapezoid or RK4 as executed with in-place buffers and precomputed linear coefficients returns exactly what the classical explicit Euler, midpoint, trapezoid (Heun) or RK4 scheme returns when applied to the integrating-factor transformed equation w' = e^{f t} N(e^{-f t} w), transformed back.", "quantifier": "every state, every (nonlinear) tendency function, every frequency array f, every increment", "why_tests_cant": "the tendency is an arbitrary function; buffer aliasing bugs only show for particular tendencies", "anchors": ["fluidsim/base/time_stepping/pseudo_spect.py: _time_step_Euler, _time_step_RK2, _time_step_RK2_trapezoid, _time_step_RK4, step_like_RK2, step_Euler"]}
{"id": "C05", "title": "Linear terms are integrated exactly, for any sequence of increments", "statement": "When the nonlinear tendencies vanish, after any number of steps with any (adaptive) increments every Fourier coefficient equals its initial value times exp(-f * elapsed time), whatever the scheme; in particular the result does not depend on how the elapsed time was divided and the modulus never grows when Re f >= 0.", "quantifier": "every sequence of increments (any length), every frequency, every scheme", "why_tests_cant": "unbounded number of steps and free choice of the increments", "anchors": ["fluidsim/base/time_stepping/pseudo_spect.py: ExactLinearCoefs, _time_step_*", "fluidsim/base/time_stepping/simple.py: ExactLinearCoefs"]}
{"id": "C06", "title": "Cached exact-linear coefficients are always those of the present increment", "statement": "Every pair of coefficients handed to a scheme equals exp(-f dt), exp(-f dt/2) for the increment dt used by that step, however the increment has varied before.", "quantifier": "every history of increments and of calls", "why_tests_cant": "cache staleness depends on histories of unbounded length", "anchors": ["fluidsim/base/time_stepping/pseudo_spect.py: ExactLinearCoefs.get_updated_coefs, compute, get_coefs"]}
{"id": "C07", "title": "The truncation removes every aliasing error of quadratic products", "statement": "If only modes kept by the truncation are non-zero, each kept mode of a product computed on the grid equals the exact (unaliased) convolution, for a quadratic nonlinearity with coef_dealiasing = 2/3.", "quantifier": "every grid size and every pair of truncated fields", "why_tests_cant": "quantifies over all grid sizes and all triads of wavenumbers", "anchors": ["fluidsim/operators/operators1d.py: OperatorsPseudoSpectral1D.__init__, dealiasing", "fluidsim/operators/operators2d.py: dealiasing, __init__", "fluidsim/operators/operators3d.py: dealiasing_variable, dealiasing_setofvar", "fluidsim/operators/base.py: _reinit_truncation"]}
{"id": "C08", "title": "Averaging with the phase-shifted tendencies cancels the single aliases", "statement": "With the shift by half a grid cell (or two shifts that differ by half a cell) the average used by the phase-shift schemes contains every exact triad with weight one and every triad aliased along exactly one direction (or an odd number of them) with weight zero.", "quantifier": "every grid size, every wavenumber triad and every random shift", "why_tests_cant": "all triads, all shifts", "anchors": ["fluidsim/base/time_stepping/pseudo_spect.py: mean_with_phaseshift, _get_phaseshift, _get_phaseshift_random, _time_step_RK2_phaseshift*, _time_step_Euler_phaseshift*"]}
{"id": "C09", "title": "The random phase-shift pair used by a step is a consistent pair", "statement": "The two phase shifts returned for one step always belong to one pair generated together (shifts differing by half a cell in each direction), also in the steps in which a pair of the pool is regenerated.", "quantifier": "every history of steps and every random draw", "why_tests_cant": "the inconsistent case happens with small probability along long histories", "anchors": ["fluidsim/base/time_stepping/pseudo_spect.py: _init_phaseshift_random, _get_phaseshift_random"]}
{"id": "C10", "title": "State initialisation from keyword arrays sets exactly the given variables", "statement": "init_statephys_from / init_statespect_from set the given variables to the given arrays and all other state variables to zero, the two representations of the state are consistent afterwards, and an unknown key raises ValueError.", "quantifier": "every set of keys and every arrays", "why_tests_cant": "all key subsets and all previous contents of the state", "anchors": ["fluidsim/base/state.py: StateBase.init_statephys_from, StatePseudoSpectral.init_statespect_from, init_statephys_from", "fluidsim/base/setofvariables.py"]}
{"id": "C11", "title": "Solver-specific initialisation never silently drops a field", "statement": "For each solver that overrides init_statespect_from, a call with keyword fields either stores (or converts) every given field in the state or raises an exception; it never returns normally having ignored a given field.", "quantifier": "every set of keyword fields accepted by Python", "why_tests_cant": "all combinations of keys; tests exercise the documented ones only", "anchors": ["fluidsim/solvers/ns2d/strat/state.py: init_statespect_from", "fluidsim/solvers/ns2d/state.py: init_statespect_from", "fluidsim/solvers/sw1l/state.py: init_statespect_from, init_from_qafft", "fluidsim/solvers/plate2d/state.py: init_statespect_from", "fluidsim/solvers/ns3d/state.py: init_statespect_from"]}
{"id": "C12", "title": "Computed variables reflect the current step", "statement": "state.get_var(key)/compute(key) returns the value of the variable for the present state whenever the iteration number has changed since it was cached or the cache was cleared; within one iteration a repeated call returns the same array; an unknown key raises ValueError (or zeros with RAISE_ERROR=False).", "quantifier": "every interleaving of steps, reads, clears and state writes", "why_tests_cant": "cache staleness depends on arbitrary interleavings", "anchors": ["fluidsim/base/state.py: StateBase.get_var, clear_computed, compute", "fluidsim/solvers/ns2d/state.py: compute"]}
{"id": "C13", "title": "Merging parameters never changes an existing value", "statement": "params |= other keeps every attribute already present (at every depth), adds every attribute and child of `other` that is missing, adds nothing else, is idempotent, and raises TypeError for something that is not a parameter container.", "quantifier": "every pair of parameter trees (any depth)", "why_tests_cant": "trees of unbounded depth and width", "anchors": ["lib/fluidsim_core/params.py: Parameters.__ior__", "fluidsim/base/params.py: merge_params"]}
{"id": "C14", "title": "Loading old parameter files upgrades them without touching other parameters", "statement": "fix_old_params renames/moves exactly the deprecated entries, leaves all other entries unchanged and is idempotent.", "quantifier": "every old or new parameter tree", "why_tests_cant": "all trees", "anchors": ["fluidsim/base/params.py: fix_old_params"]}
{"id": "C15", "title": "Periodic outputs are neither lost nor duplicated", "statement": "For an output with period_save p > 0 two successive saves are at least p apart (difference test) or fall in different period bins (floor test); a save happens at the first step at which the test is fulfilled; at most one save happens per call; with p = 0 nothing is saved. Hence over a run of length T there are at most T/p + 1 saves, and at least one in each interval of length p + dt_max.", "quantifier": "every sequence of step times", "why_tests_cant": "adaptive time steps give unbounded families of time sequences", "anchors": ["fluidsim/base/output/base.py: SpecificOutput._online_save, _has_to_online_save", "fluidsim/base/output/spatial_means.py: __call__", "fluidsim/base/output/print_stdout.py: _online_print", "fluidsim/base/output/phys_fields.py: _online_save"]}
{"id": "C16", "title": "Appended time series stay aligned", "statement": "After any sequence of creations and appends, the file holds for each key as many records as times, record i was computed at times[i], and earlier records are never modified, including after a restart that re-opens the file.", "quantifier": "every sequence of saves and restarts", "why_tests_cant": "histories of unbounded length with restarts at arbitrary points", "anchors": ["fluidsim/base/output/base.py: _create_file_from_dict_arrays, _add_dict_arrays_to_file, _add_dict_arrays_to_open_file, _init_files", "fluidsim/base/output/time_signals_fft.py: _init_files, _online_save"]}
{"id": "C17", "title": "Saved fields are never overwritten and are found again by time", "statement": "Saving physical fields at different iterations never overwrites an existing file of another iteration; file names of one run sort lexicographically in time order; the time can be recovered from the name up to the written precision.", "quantifier": "every sequence of save times, every t_end and period", "why_tests_cant": "depends on widths and roundings over unbounded time ranges", "anchors": ["fluidsim/base/output/phys_fields.py: PhysFieldsBase.save, time_from_path"]}
{"id": "C18", "title": "Selecting a state file by time returns the right file", "statement": "name_file_from_time_approx(path, t) returns an existing file whose time is at minimal distance from t among all files; with 'last' the file of maximal time; with None the last file; and fails when there is none. Same for the closest time in spectra/time series selection.", "quantifier": "every set of files and every requested time", "why_tests_cant": "all file sets and all times", "anchors": ["fluidsim/util/util.py: name_file_from_time_approx", "lib/fluidsim_core/output/phys_fields.py: get_closest_time_file"]}
{"id": "C19", "title": "Interpolated fields are convex combinations of the two bracketing files", "statement": "get_field_to_plot(time, interpolate_time=True) returns the linear interpolation in time between the two consecutive saved fields that bracket `time`, equal to the saved field at a saved time, and weights sum to one.", "quantifier": "every increasing list of saved times, every requested time", "why_tests_cant": "all time lists", "anchors": ["lib/fluidsim_core/output/phys_fields.py: SetOfPhysFieldFilesBase.get_field_to_plot"]}
{"id": "C20", "title": "Each new run gets its own directory", "statement": "A run that saves and asks for a new directory ends up with a directory that it created itself: no two concurrently launched simulations share path_run, for every interleaving of their existence tests and mkdir calls.", "quantifier": "every number of processes and every interleaving", "why_tests_cant": "race conditions", "anchors": ["lib/fluidsim_core/output/base.py: OutputCore._init_path_run"]}
{"id": "C21", "title": "Moving the results at the end of a run never destroys results", "statement": "end_of_simul moves the run directory to its final place under a name that does not exist yet (suffix _1, _2, ...), so that no existing directory is replaced, all files of the run are still there, and output.path_run is the new place.", "quantifier": "every file system content", "why_tests_cant": "all sets of pre-existing names", "anchors": ["fluidsim/base/output/base.py: OutputBase.end_of_simul"]}
{"id": "C22", "title": "At most one process advances a run directory", "statement": "The lock file is_being_advanced.lock protects a run directory: while a process advances a simulation the lock exists, a second process cannot advance the same directory, and the lock disappears when (and only when) its owner finishes or is killed by a catchable signal.", "quantifier": "every interleaving of processes and signals", "why_tests_cant": "race conditions and signal timing", "anchors": ["fluidsim/base/solvers/base.py: SimulBase.__init__, __exit__, release_lock", "fluidsim/base/output/base.py: end_of_simul"]}
{"id": "C23", "title": "Restart parameters: the new end is the requested one", "statement": "fluidsim-restart with --t_end T (or --it-end I, or --add-to-t_end / --add-to-it_end) produces parameters whose end condition is the requested one (or old one plus the increment), and refuses to start a run whose end is not after the start file.", "quantifier": "every parameter set, options, and file times", "why_tests_cant": "all combinations of options and values", "anchors": ["fluidsim/util/scripts/restart.py: _set_params_time_stepping, _check_params_time_stepping", "lib/fluidsim_core/scripts/restart.py: RestarterABC.restart"]}
{"id": "C24", "title": "Changing the resolution keeps every resolvable Fourier mode at its wavenumber", "statement": "Loading a state into a grid of another resolution copies each mode representable on both grids to the position of the same wavenumber and sets the others to zero.", "quantifier": "every pair of grid sizes and every mode", "why_tests_cant": "all grid sizes", "anchors": ["fluidsim/base/init_fields.py: fill_field_fft_2d, fill_field_fft_3d", "fluidsim/util/mini_oper_modif_resol.py: fill_field_fft_3d"]}
{"id": "C25", "title": "Array index and wavenumber maps are inverse of each other", "statement": "The conversions between array index and adimensional wavenumber, and between (ix,iy,iz) and storage order (i0,i1,i2), are mutually inverse on their ranges for every size (and for every dimension order).", "quantifier": "every size, index and dimension order", "why_tests_cant": "all sizes", "anchors": ["fluidsim/operators/operators3d.py: _kadim_from_ik, _ik_from_kadim, _ik_from_ikc, i012_from_ixyz, ixyz_from_i012"]}
{"id": "C26", "title": "Coarse arrays are put and taken back without loss", "statement": "Putting a coarse spectral array into the full one and taking the coarse part back returns the same coarse modes (except the dropped Nyquist modes); the other modes of the full array are untouched/zero; forcing computed on the coarse grid acts at the same wavenumbers.", "quantifier": "every coarse and fine sizes", "why_tests_cant": "all sizes", "anchors": ["fluidsim/operators/operators2d.py: put_coarse_array_in_array_fft, coarse_seq_from_fft_loc", "fluidsim/operators/operators3d.py: put_coarse_array_in_array_fft, coarse_seq_from_fft_loc"]}
{"id": "C27", "title": "Looking up a wavenumber returns the process and index that hold it", "statement": "where_is_wavenumber returns the rank and local index of the closest wavenumber, for every distribution of the modes over processes.", "quantifier": "every number of processes and block layout", "why_tests_cant": "all layouts", "anchors": ["fluidsim/operators/operators2d.py: where_is_wavenumber", "fluidsim/operators/operators3d.py: where_is_wavenumber"]}
{"id": "C28", "title": "The projection makes a vector field divergence-free and only removes the gradient part", "statement": "The projection used by the ns3d solvers gives, for each wavenumber, a vector orthogonal to k, leaves divergence-free fields unchanged, is idempotent, and removes only a multiple of k (what project_kradial3d returns). After every time step, with every scheme and every projection option, the velocity is divergence free, lies on the chosen manifold, is zero at the truncated modes, and with no_vz_kz0 has no vertical component at kz=0.", "quantifier": "every wavenumber, field, scheme and number of steps", "why_tests_cant": "all fields and all histories", "anchors": ["fluidsim/operators/operators3d.py: project_kradial3d", "fluidsim/solvers/ns3d/solver.py: _init_projection, project_state_spect", "fluidsim/solvers/ns3d/time_stepping.py: one_time_step_computation"]}
{"id": "C29", "title": "Poloidal/toroidal decomposition is exact", "statement": "For a divergence-free field, the poloidal and toroidal projections are orthogonal idempotents whose sum (plus shear modes) is the field; converting to the poloidal or toroidal scalar and back gives the same projected field.", "quantifier": "every wavenumber and field", "why_tests_cant": "all fields", "anchors": ["fluidsim/operators/operators3d.py: project_poloidal, project_toroidal, vpfft_from_vecfft, vecfft_from_vpfft, vtfft_from_vecfft, vecfft_from_vtfft, urudfft_from_vxvyfft"]}
{"id": "C30", "title": "Laplacians and inverse Laplacians cancel", "statement": "invlaplacian_fft(laplacian_fft(a, order), order) = a up to the mean mode for every even order for which the operator has the arrays (the documented ones are 2, 4, 8), with both sign conventions; laplacian_fft is the power order/2 of the second-derivative symbol; odd orders raise ValueError.", "quantifier": "every even order, wavenumber and field", "why_tests_cant": "all orders and fields", "anchors": ["fluidsim/operators/operators2d.py: laplacian_fft, invlaplacian_fft"]}
{"id": "C31", "title": "Normalised forcing injects exactly the prescribed rate", "statement": "For every raw forcing and every state for which the quadratic equation has a real root, the forcing normalised with the 2nd degree equation makes the energy input over one step (sum of |v + dt f|^2 minus sum of |v|^2)/(2 dt) equal to forcing_rate, for every choice of root; and the selection option picks the documented root.", "quantifier": "every field, raw forcing, increment and rate", "why_tests_cant": "all fields", "anchors": ["fluidsim/base/forcing/specific.py: NormalizedForcing.normalize_forcingc_2nd_degree_eq, coef_normalization_from_abc"]}
{"id": "C32", "title": "Proportional forcing injects exactly the prescribed rate", "statement": "One forced step of type Proportional increases the forced quadratic quantity by rate * dt, for any state with non-zero energy in the forced band, and forces only the band.", "quantifier": "every field", "why_tests_cant": "all fields", "anchors": ["fluidsim/base/forcing/specific.py: Proportional.forcingc_from_fieldc"]}
{"id": "C33", "title": "The forcing of one time is computed once", "statement": "forcing.compute() changes the forcing at most once per simulation time: repeated calls at the same time (e.g. at the end of the simulation) leave the forcing unchanged, and a call at a later time recomputes it.", "quantifier": "every sequence of calls", "why_tests_cant": "histories", "anchors": ["fluidsim/base/forcing/base.py: ForcingBase.compute"]}
{"id": "C34", "title": "Time-correlated random forcing is continuous and survives a restart", "statement": "The raw forcing is a continuous function of time (also across the changes of the random fields), always a convex combination of the two current random fields, equals them at the ends of the interval; and a run restarted from the saved forcing state continues with the same forcing as the uninterrupted run.", "quantifier": "every sequence of step times and every restart point", "why_tests_cant": "all histories and restart points", "anchors": ["fluidsim/base/forcing/specific.py: TimeCorrelatedRandomPseudoSpectral.compute_forcingc_raw, forcingc_raw_each_time, __init__"]}
{"id": "C35", "title": "The periodic milestone motion is a genuine motion", "statement": "PeriodicUniform: position and velocity are continuous and periodic in time, the velocity is the derivative of the position, the speed never exceeds the prescribed one, and the position stays within the prescribed length.", "quantifier": "every time and all parameters", "why_tests_cant": "all real times", "anchors": ["fluidsim/base/forcing/milestone.py: PeriodicUniform.get_locations, get_speeds"]}
{"id": "C36", "title": "Only modes inside the requested region are forced", "statement": "The set of forced modes is exactly the set of non-Nyquist modes satisfying the documented inequalities (shell kmin <= k <= kmax, or box/angular sector for the anisotropic forcing). The figure of plot_forcing_region shows this region and these modes.", "quantifier": "every wavenumber and parameters", "why_tests_cant": "all modes", "anchors": ["fluidsim/base/forcing/specific.py: _compute_cond_no_forcing", "fluidsim/base/forcing/anisotropic.py: _compute_cond_no_forcing"]}
{"id": "C37", "title": "Nonlinear terms of the 3D solver conserve energy", "statement": "Without forcing and viscosity, the tendencies of ns3d returned by tendencies_nonlin do no work on any divergence-free truncated state (Re sum conj(v).F = 0), with rotation or not.", "quantifier": "every truncated divergence-free field", "why_tests_cant": "all fields", "anchors": ["fluidsim/solvers/ns3d/solver.py: Simul.tendencies_nonlin", "fluidsim/solvers/ns3d/time_stepping.py"]}
{"id": "C38", "title": "Nonlinear terms of the 2D solver conserve energy and enstrophy", "statement": "For an alias-free truncation, the tendencies of ns2d conserve sum |rot|^2 and sum |rot|^2/K^2, with the beta term too.", "quantifier": "every truncated field and every truncation closed under negation", "why_tests_cant": "all fields", "anchors": ["fluidsim/solvers/ns2d/solver.py: tendencies_nonlin, compute_Frot"]}
{"id": "C39", "title": "Shallow-water variables and normal modes are equivalent", "statement": "Conversions between (ux, uy, eta) and (q, ap, am) are mutually inverse for each non-zero wavenumber, the mean mode is preserved, and initialisation from (q, a) gives the sum of the initialisations from q and from a.", "quantifier": "every wavenumber, f, c2 > 0 and fields", "why_tests_cant": "all fields", "anchors": ["fluidsim/solvers/sw1l/operators.py: qapamfft_from_uxuyetafft, uxuyetafft_from_qapamfft", "fluidsim/solvers/sw1l/state.py: init_from_qafft", "fluidsim/solvers/sw1l/exactlin/state.py: compute"]}
{"id": "C40", "title": "Internal-wave modes of the stratified 2D solver are eigenmodes", "statement": "ap and am computed by the state evolve linearly as exp(-+ i omega t) with omega the dispersion relation; initialising from ap (am) gives a state with am = 0 (ap = 0) and the same ap; linear exchanges between kinetic and potential energy conserve the total energy.", "quantifier": "every wavenumber, N and fields", "why_tests_cant": "all fields", "anchors": ["fluidsim/solvers/ns2d/strat/state.py: compute, compute_rotbfft_from_apfft, compute_rotbfft_from_amfft", "fluidsim/solvers/ns2d/strat/solver.py: compute_dispersion_relation, tendencies_nonlin_ns2dstrat, check_energy_conservation"]}
{"id": "C41", "title": "The plate solver conserves its energy", "statement": "For an alias-free truncation the tendencies of plate2d conserve kinetic + flexion + extension energy.", "quantifier": "every truncated field", "why_tests_cant": "all fields", "anchors": ["fluidsim/solvers/plate2d/solver.py: tendencies_nonlin, test_tendencies_nonlin", "fluidsim/solvers/plate2d/operators.py: monge_ampere_from_fft"]}
{"id": "C42", "title": "The 0d models have the documented fixed points and invariants", "statement": "Lorenz and predator-prey tendencies vanish exactly at the advertised fixed points, the predator-prey potential is constant along exact solutions, and the printed potential variation is the variation since the last print.", "quantifier": "every parameter and state", "why_tests_cant": "all parameters", "anchors": ["fluidsim/solvers/models0d/lorenz/solver.py", "fluidsim/solvers/models0d/predaprey/solver.py", "fluidsim/solvers/models0d/predaprey/output"]}
{"id": "C43", "title": "Finite-difference operators are consistent and the Crank-Nicolson step solves its equation", "statement": "The first-derivative matrix is antisymmetric and exact on constants and (in the interior) on quadratics, the second-derivative matrix is symmetric, exact on constants and cubics, both conserve the sum over the periodic grid; the implicit step solves (1 - dt/2 L) S' = (1 + dt/2 L) S + dt N and conserves the mean.", "quantifier": "every grid size and field", "why_tests_cant": "all grid sizes and fields", "anchors": ["fluidsim/operators/op_finitediff1d.py", "fluidsim/operators/op_finitediff2d.py", "fluidsim/base/time_stepping/finite_diff.py"]}
{"id": "C44", "title": "Dissipation never injects energy", "statement": "The damping frequency used for each mode is the documented sum of nu_alpha k^alpha terms, is real and non-negative for non-negative coefficients, and vanishes on the mean mode unless hypo-viscosity is used.", "quantifier": "every wavenumber and viscosities", "why_tests_cant": "all coefficients", "anchors": ["fluidsim/base/solvers/pseudo_spect.py: compute_freq_diss", "fluidsim/solvers/plate2d/solver.py: compute_freq_diss"]}
{"id": "C45", "title": "Initial-field normalisation reaches the requested value", "statement": "With preprocess init_field_const_energy/enstrophy etc. the normalised state has exactly the requested energy/enstrophy; and preprocessing does not alter the time of a restarted simulation.", "quantifier": "every state of non-zero energy", "why_tests_cant": "all fields", "anchors": ["fluidsim/base/preprocess/pseudo_spect.py: normalize_init_fields, set_viscosity"]}
{"id": "C46", "title": "Parallel reductions equal the sequential result", "statement": "mean_space and the horizontal means computed over any distribution of the array over processes equal the mean of the whole array.", "quantifier": "every distribution of the data", "why_tests_cant": "all layouts", "anchors": ["fluidsim/operators/base.py: mean_space", "fluidsim/base/output/horiz_means.py: _compute_hmean"]}
{"id": "C47", "title": "Extending a solver class does not modify the original class", "statement": "extend_simul_class returns a new class whose default parameters/classes include the extensions and leaves the original class (and previously extended classes) unchanged.", "quantifier": "every sequence of extensions", "why_tests_cant": "histories", "anchors": ["lib/fluidsim_core/extend_simul.py: extend_simul_class"]}
{"id": "C48", "title": "Separations used for increments are strictly increasing; sampled shells are distinct", "statement": "The integer separations of the increments output are strictly increasing, and the wavenumber shells of time_signals_fft are distinct and all sample slots are filled.", "quantifier": "every initial list of rounded values", "why_tests_cant": "all grid sizes", "anchors": ["fluidsim/base/output/increments.py: Increments.__init__", "fluidsim/base/output/time_signals_fft.py: _init_save"]}
{"id": "C49", "title": "max_elapsed given as text means that number of seconds", "statement": "A max_elapsed string 'HH:MM:SS' is converted to 3600*HH+60*MM+SS seconds.", "quantifier": "every string", "why_tests_cant": "all strings", "anchors": ["fluidsim/base/time_stepping/base.py: TimeSteppingBase0.__init__"]}
{"id": "C50", "title": "Opening a locked file retries a bounded number of times", "statement": "open_patient returns the file as soon as one attempt within the allowed ones succeeds and otherwise raises the error of the last attempt; the number of attempts is bounded.", "quantifier": "every pattern of failures", "why_tests_cant": "all failure patterns", "anchors": ["fluidsim/util/util.py: open_patient"]}
{"id": "C51", "title": "The skew-symmetric Burgers form conserves energy even without dealiasing", "statement": "The tendencies of burgers1d.skew_sym do no work on the state, for every (possibly aliased) state.", "quantifier": "every state", "why_tests_cant": "all fields", "anchors": ["fluidsim/solvers/burgers1d/skew_sym/solver.py: tendencies_nonlin"]}
{"id": "C52", "title": "The Smagorinsky term is the documented divergence of 2 nu_T S", "statement": "The turbulence-model term added to the tendencies is div(2 nu_T S) with nu_T = C Delta^2 sqrt(2 Sij Sij) and Delta = Lx/nx (the documented model), and it never injects kinetic energy.", "quantifier": "every field", "why_tests_cant": "all fields", "anchors": ["fluidsim/base/turb_model/smagorinsky.py: get_forcing", "fluidsim/base/turb_model/stress_tensor.py"]}
{"id": "C53", "title": "Tendencies do not depend on the array that receives them", "statement": "sim.tendencies_nonlin(state, old=array) returns the same tendencies when array is the state array itself (the way the phase-shifted schemes call it) as when it is another array.", "quantifier": "every state of every solver", "why_tests_cant": "all states, both call conventions", "anchors": ["fluidsim/solvers/*/solver.py: tendencies_nonlin", "fluidsim/base/time_stepping/pseudo_spect.py: _time_step_RK2_phaseshift_random, _time_step_RK2_phaseshift_exact"]}
{"id": "C54", "title": "The modified shallow-water equations conserve the quadratic energy", "statement": "The tendencies of sw1l.modified do no work in the quadratic energy 1/2 <u^2 + c2 eta^2>, for every real state and every alias-free truncation.", "quantifier": "every state, f, c2, grid and alias-free truncation", "why_tests_cant": "all fields", "anchors": ["fluidsim/solvers/sw1l/modified/solver.py: tendencies_nonlin"]}
{"id": "C55", "title": "Tendencies of a given state depend on that state only", "statement": "sw1l.onlywaves: tendencies_nonlin(state_spect) is a function of state_spect (not of the current state of the simulation) and is the wave part of the tendencies of sw1l.exactlin for the same waves.", "quantifier": "every pair (given state, current state), every f", "why_tests_cant": "all states", "anchors": ["fluidsim/solvers/sw1l/onlywaves/solver.py: tendencies_nonlin", "fluidsim/solvers/sw1l/onlywaves/state.py"]}
{"id": "C56", "title": "sw1l and sw1l.exactlin integrate the same equations", "statement": "The right-hand side integrated by sw1l.exactlin (nonlinear tendencies minus complex frequency times mode) is the conversion to normal modes of the tendencies of sw1l; sw1l conserves the mass.", "quantifier": "every state without mean potential vorticity, every f >= 0, c2, grid and truncation", "why_tests_cant": "all states", "anchors": ["fluidsim/solvers/sw1l/solver.py: tendencies_nonlin", "fluidsim/solvers/sw1l/exactlin/solver.py: tendencies_nonlin, compute_freq_complex"]}
{"id": "C57", "title": "Tendencies are the truncated right-hand sides of the documented equations", "statement": "For every state and every truncation that leaves no aliasing, the tendencies computed by ns2d, ns2d.strat, ns2d.bouss, ns3d, ns3d.strat, sw1l, burgers1d and plate2d are, coefficient by coefficient, the exact right-hand sides of the documented equations (with the exact products of Fourier series) restricted to the resolved modes.", "quantifier": "every state, grid, domain and alias-free truncation", "why_tests_cant": "all fields", "anchors": ["fluidsim/solvers/*/solver.py: tendencies_nonlin"]}
{"id": "C58", "title": "The spectral energy budgets are the rates of change of the energies of the modes", "statement": "The transfers, conversions and dissipations saved by output.spect_energy_budg (ns2d, ns2d.strat, ns3d, ns3d.strat) add up, mode by mode, to the time derivative of the energy of the mode when the state evolves with the tendencies and the dissipation of the solver; the transfers sum to zero; the plotted fluxes are what the bins on one side of a wavenumber receive from the other side.", "quantifier": "every state, grid, alias-free truncation, Coriolis parameter, projection and viscosity", "why_tests_cant": "all fields", "anchors": ["fluidsim/solvers/ns2d/output/spect_energy_budget.py: compute", "fluidsim/solvers/ns2d/strat/output/spect_energy_budget.py: compute", "fluidsim/solvers/ns3d/output/spect_energy_budget.py: compute, compute_fluxes_mean", "fluidsim/solvers/ns3d/strat/output/spect_energy_budget.py: compute", "fluidsim/base/output/spect_energy_budget.py: cumsum_inv"]}
{"id": "C59", "title": "The spatial means are the means of the documented quantities and close the budgets", "statement": "The numbers saved by output.spatial_means are what their names say: energies and enstrophy are the means over the grid of the squares of the fields; deltat * P_tot is exactly what a forcing constant in the time step gives in one step; along the forced and dissipated equations of the solver the rate of change of the saved energies is P1 - eps_tot; the partial energies (shear modes, rotational, divergent, elastic) and the conversions have their documented meaning.", "quantifier": "every state, forcing, time step, grid, alias-free truncation and viscosity, for ns2d, ns2d.strat, ns3d, ns3d.strat, plate2d, sw1l and sw1l.modified", "why_tests_cant": "all fields", "anchors": ["fluidsim/solvers/ns2d/output/spatial_means.py: _save_one_time", "fluidsim/solvers/ns2d/strat/output/spatial_means.py: _save_one_time", "fluidsim/solvers/ns3d/output/spatial_means.py: _save_one_time", "fluidsim/solvers/ns3d/strat/output/spatial_means.py: _save_one_time", "fluidsim/solvers/plate2d/output/spatial_means.py: _save_one_time", "fluidsim/solvers/sw1l/output/spatial_means.py: SpatialMeansMSW1L, SpatialMeansSW1L"]}
{"id": "C60", "title": "Loading the spatial means gives back what has been saved", "statement": "output.spatial_means.load() returns, for each saved time and each quantity, the number written by the simulation (rounded to the written digits), in the order of the times, whatever the number of saved times, also when the file is read while a record is being written or after an interruption or a restart; time_first_saved and time_last_saved return the first and the last saved times; compute_time_means averages over the records with times between tstatio and tmax.", "quantifier": "every sequence of saved states, every combination of the options forcing.enable, nu_4, nu_8, every interruption of a record, every restart, for ns2d, ns2d.strat, ns3d, ns3d.strat, plate2d and the JSON file of sw1l", "why_tests_cant": "all histories of saves and crash points", "anchors": ["fluidsim/base/output/spatial_means.py: SpatialMeansBase, SpatialMeansJSON", "fluidsim/solvers/ns2d/output/spatial_means.py: load", "fluidsim/solvers/ns2d/strat/output/spatial_means.py: load", "fluidsim/solvers/ns3d/output/spatial_means.py: load", "fluidsim/solvers/ns3d/strat/output/spatial_means.py: load", "fluidsim/solvers/plate2d/output/spatial_means.py: load"]}
{"id": "C61", "title": "The files of the 3D spectra hold the announced records and the loaded values are means of consistent spectra", "statement": "In a run directory of ns3d or ns3d.strat, spectra1d.h5 and spectra3d.h5 hold all the records of all the processes, in order, and spectra_kzkh.h5 one record out of params.output.spectra.kzkh_periodicity, whatever the number of saves and restarts and wherever processes are killed, and a restart never fails because of these files; load1d_mean, load3d_mean and load_kzkh_mean return the averages of all the saved spectra over the records between tmin and tmax; in each bin E is the sum of the spectra of the three components and of Khr, Khd and vz, and its sum is the energy; compute_isotropy_velocities is between 0 and 3 and is 1 in the isotropic case; compute_length_scales gives lengths l2 <= l1 within the range of the energetic wavelengths.", "quantifier": "every number of saves, every sequence of restarts, every kill point between writings, every period; every state, every list of saved times and every non-negative spectrum", "why_tests_cant": "all histories of saves, restarts and kills, and all states", "anchors": ["fluidsim/base/output/spectra3d.py: BaseSpectra, Spectra", "fluidsim/solvers/ns3d/output/spectra.py: SpectraNS3D.compute", "fluidsim/solvers/ns3d/strat/output/spectra.py: SpectraNS3DStrat.compute", "fluidsim/base/output/base.py: SpecificOutput._add_dict_arrays_to_file, _create_file_from_dict_arrays"]}
{"id": "C62", "title": "The time series of the probes are loaded as recorded and the spatiotemporal and temporal spectra are normalised sums of them", "statement": "load_time_series(tmin, tmax) of sim.output.spatiotemporal_spectra and temporal_spectra returns exactly the recorded times between tmin and tmax and puts the recorded values of each mode at the cell of its own wavenumbers, for any number of processes and files and any order of the axes; the spectra computed from them are normalised (their integral is the time mean of the squared modulus), no frequency and no mode is lost or counted twice when the frequencies are folded, when the modes are summed and when they are put into (kz, kh) bins, compute_temporal_spectra and save_spectra_kzkhomega agree, the empirical frequency is the mean frequency, and a file of spectra is only reused for the parameters it has been computed for.", "quantifier": "every recorded history (times, number of processes, files per process), every region and axis order, every tmin and tmax; every series, number of times and spectrum; every set of files", "why_tests_cant": "all recorded histories, intervals, series and directories", "anchors": ["fluidsim/base/output/spatiotemporal_spectra.py: SpatioTemporalSpectra3D.load_time_series, _compute_spectrum, SpatioTemporalSpectraNS.save_spectra_kzkhomega, compute_temporal_spectra, compute_omega_emp_vs_kzkh, filter_tmins_paths, get_arange_minmax", "fluidsim/base/output/temporal_spectra.py: TemporalSpectra3D.load_time_series, compute_spectra", "fluidsim/solvers/ns3d/output/spatiotemporal_spectra.py: compute_spectrum_kzkhomega, _sum_wavenumber3D", "fluidsim/solvers/ns2d/output/spatiotemporal_spectra.py"]}
{"id": "C63", "title": "The prescribed forces (moving objects, Taylor-Green, Kolmogorov flow, wave makers) are the documented ones", "statement": "With params.forcing.type equal to milestone, taylor_green, kolmogorov_flow (and its normalised variant) or watu_coriolis, the force which acts on the flow is the documented one: the objects are equally spaced in the periodic domain, follow the prescribed motion, are seen through the boundaries and relax the velocity towards their own without overshoot for the time steps the code allows; the Taylor-Green force is periodic and divergence-free; the Kolmogorov flow forces exactly the wavenumber ik in the requested direction and component; the velocities of the wave makers are periodic and between the samples of the signals, their masks are between 0 and 1; a coarse grid is never finer than the grid of the simulation.", "quantifier": "every size of the domain and of the objects, every number of objects, every point, every time, every velocity; every grid, wavenumber and amplitude; every signal and period", "why_tests_cant": "all positions, times, velocities, grids and signals", "anchors": ["fluidsim/base/forcing/milestone.py: ForcingMilestone", "fluidsim/base/forcing/kolmogorov.py: KolmogorovFlow, KolmogorovFlowNormalized", "fluidsim/solvers/ns3d/forcing/__init__.py: ForcingTaylorGreen", "fluidsim/solvers/ns3d/forcing/milestone.py: ForcingMilestone3D", "fluidsim/solvers/ns3d/forcing/watu.py: ForcingInternalWavesWatuCoriolis"]}
{"id": "C64", "title": "The initial fields are the documented ones", "statement": "With params.init_fields.type the state before the first time step is the documented one: for noise, whatever the random draw, the velocity has the requested maximum, the requested cutoff scale, no mean and no divergence, and no mode removed by the truncation; constant, cosine, gaussian, jet, dipole, wave, grid of vortices and linear mode give the field they name, in the physical and in the spectral state; with from_file the simulation starts from the arrays, the time and the iteration of the file, and a file of another resolution or domain is refused; an unknown type is refused.", "quantifier": "every random draw, grid, truncation, domain and parameter of the initial fields; every file", "why_tests_cant": "all random draws, all files and all combinations of sizes and parameters", "anchors": ["fluidsim/base/init_fields.py: InitFieldsBase, InitFieldsFromFile, InitFieldsConstant, InitFieldsNoise", "fluidsim/solvers/ns2d/init_fields.py: InitFieldsNoise, InitFieldsJet, InitFieldsDipole", "fluidsim/solvers/ns3d/init_fields.py: InitFieldsNoise", "fluidsim/solvers/plate2d/init_fields.py: InitFieldsNoise", "fluidsim/solvers/sw1l/init_fields.py: InitFieldsWave, InitFieldsVortexGrid", "fluidsim/solvers/ns2d/strat/init_fields.py: InitFieldsLinearMode", "fluidsim/solvers/ad1d/init_fields.py: InitFieldsCos, InitFieldsGaussian"]}
{"id": "C65", "title": "The spectra of the 2D solvers are complete, consistent with the energies and loaded as means", "statement": "With output.spectra and output.spectra_multidim of the 2D solvers, each file has once and in order the records of all the saves, over restarts and kills; the spectra are non-negative and their sums times the width of the bins are the energies of the spatial means; the kinetic energy is the sum of those of the components, the energies of the geostrophic, divergent and ageostrophic parts and of the normal modes of shallow water have for sum the energy; the loading functions return the means of the records between the two times with their wavenumbers, and the figures show these means, at the wavenumbers of the axes.", "quantifier": "every history of starts, saves and kills; every state, grid and truncation; every file with increasing times and every pair of times", "why_tests_cant": "all histories with kills at any point, all fields and all sets of times", "anchors": ["fluidsim/base/output/spectra.py: Spectra", "fluidsim/base/output/spectra_multidim.py: SpectraMultiDim", "fluidsim/solvers/ns2d/output/spectra.py: SpectraNS2D", "fluidsim/solvers/ns2d/strat/output/spectra.py: SpectraNS2DStrat", "fluidsim/solvers/ns2d/strat/output/spectra_multidim.py: SpectraMultiDimNS2DStrat", "fluidsim/solvers/plate2d/output/spectra.py: SpectraPlate2D", "fluidsim/solvers/sw1l/output/spectra.py: SpectraSW1L, SpectraSW1LNormalMode", "fluidsim/solvers/sw1l/output/base.py: compute_lin_energies_fft", "fluidsim/solvers/sw1l/output/normal_mode.py: NormalModeBase"]}
{"id": "C66", "title": "The log file of a simulation can be loaded: numbers, times, durations, first and last times", "statement": "With output.print_stdout, what is printed is appended to stdout.txt over restarts. print_stdout.load() gives the iteration, time, time step and energies printed in each information; _load_times (used for the clock-time plots) gives for each estimated duration the time, the previous time and the final time announced, from which the clock time spent is recovered; times_start_last_from_path gives the first and last times, and get_last_estimated_remaining_duration the last duration printed; a log whose last message is incomplete can still be loaded.", "quantifier": "every sequence of messages over any number of restarts, every set of printed values, every duration, every point where the last message is cut", "why_tests_cant": "all logs, all durations and all cuts of the last message", "anchors": ["fluidsim/base/output/print_stdout.py: PrintStdOutBase", "fluidsim/solvers/ns2d/output/print_stdout.py: PrintStdOutNS2D.load", "fluidsim/solvers/ns3d/output/print_stdout.py: PrintStdOutNS3D.load", "fluidsim/solvers/ns2d/strat/output/print_stdout.py: load", "fluidsim/solvers/sw1l/output/print_stdout.py: load", "fluidsim/util/util.py: times_start_last_from_path, get_last_estimated_remaining_duration"]}
{"id": "C67", "title": "Probability density functions and structure functions: normalised, independent of the processes, close to the true moments", "statement": "oper.pdf_normalized(field) returns a density on equal intervals between the extrema of the field: each value is counted in exactly one interval, the integral is one and the result does not depend on the distribution of the field over the processes. The saved increments give, for each separation, the pdf of all the differences at this separation; a structure function computed with it differs from the mean of the power of the differences by at most the order times the largest value to the order minus one times half a bin. The pdf averaged over a time range by load_pdf_from_file is a density, pdf_u is the pdf of the modulus of u - <u>, and the third order structure functions of sw1l are means over all the pairs of points.", "quantifier": "every field, number of bins, distribution over the processes, separation, order and time range", "why_tests_cant": "all fields and all distributions over the processes; the failures depend on records with different ranges or on the number of processes", "anchors": ["fluidsim/operators/operators2d.py: pdf_normalized, compute_increments_dim1", "fluidsim/base/output/increments.py: Increments.compute, load_pdf_from_file, strfunc_from_pdf", "fluidsim/base/output/prob_dens_func.py: ProbaDensityFunc.compute", "fluidsim/solvers/sw1l/output/increments.py: IncrementsSW1L.compute"]}
{"id": "C68", "title": "The cached mean values of a simulation are the present mean values", "statement": "get_mean_values(tmin, tmax, use_cache, customize) returns the mean values of the simulation for the range the arguments mean (None, a number, \"t_start+x\", \"t_last-x\"; any other text is a ValueError). Whatever the history of the directory (simulation going on, calls with other ranges and functions, calls killed), a result read from the cache is the one which would be computed now, and use_cache=False repairs the cache. I_dissipation is between 0 and 3/2, 1 for an isotropic field, and is computed over the range. get_dataframe_from_paths has one row per path in order.", "quantifier": "every history of a directory (growth of the files, calls, interruptions at any character), every range, every function customize, every spectrum of dissipation", "why_tests_cant": "all the histories of calls and of growth, all the crash points of the writing of the cache; the failures need a specific order of events", "anchors": ["lib/fluidsim_core/output/dataframe_from_paths.py: DataframeMaker.get_mean_values_from_path, get_dataframe_from_paths", "fluidsim/base/output/base.py: get_mean_values, _compute_mean_values", "fluidsim/solvers/ns3d/output/spatial_means.py: get_dimless_numbers_averaged, _compute_indices_tmin_tmax", "fluidsim/solvers/ns3d/output/spect_energy_budget.py: load_mean, compute_isotropy_dissipation"]}
{"id": "C69", "title": "The linear solvers solve their equations; the units of plate2d convert solutions into solutions", "statement": "ad1d.pseudo_spect advects: whatever the schemes and increments, the field after a time T is the initial field (truncated, damped mode by mode) translated by U T. waves2d solves its documented wave equations and keeps its fields real. The Converter of plate2d has inverse conversions, keeps w = dz/dt, converts solutions of the non-dimensional equations into solutions of the equations of the plate, and its C is the one of the dispersion relation omega = C k^2.", "quantifier": "every initial state, sequence of steps with any schemes and increments, wavenumber, plate", "why_tests_cant": "all sequences of steps and all the plates; no test of the repository compares waves2d with its equations or uses the converter", "anchors": ["fluidsim/solvers/ad1d/pseudo_spect/solver.py: tendencies_nonlin, compute_freq_complex", "fluidsim/solvers/waves2d/solver.py: tendencies_nonlin, compute_freq_complex", "fluidsim/solvers/plate2d/dimensional.py: Converter"]}
{"id": "C70", "title": "Cross-sections, plots and time averages show the data they announce", "statement": "A section of a field by index or by coordinate is the plane of that index, or the plane of the grid closest to that coordinate, from the state and from the files alike; the axes, the labels and the vectors of the figure correspond to the rows and columns of the section; texts which are not equations are refused. plot chooses a variable which can be plotted, and takes it from the state or from the files at the requested time. plot_mean averages the files of the interval with equal weights.", "quantifier": "every field, grid, equation, sequence of changes of the equation, list of files and times, interval", "why_tests_cant": "all shapes, coordinates and lists of times; the tests of the repository only check that the functions run", "anchors": ["fluidsim/base/output/phys_fields.py: get_field_to_plot_from_state, get_field_to_plot, get_key_field_to_plot, _get_axis_data, SetOfPhysFieldFiles._get_field_to_plot_from_file", "fluidsim/base/output/phys_fields3d.py: set_equation_crosssection, plot, plot_mean", "fluidsim/base/output/phys_fields2d.py: plot, _init_online_plot", "fluidsim/base/output/phys_fields1d.py: plot", "fluidsim/operators/operators3d.py: get_grid1d_seq"]}
{"id": "C71", "title": "The movies show the times they announce and the player stays in the movie", "statement": "An accepted movie of the physical fields has at least two frames, from tmin every dt_equations and before tmax, none outside of the files; with regularly spaced files the default movie is accepted and shows every file except the last; times after the last file and inverted intervals are refused; every frame number shows a time of the movie; repeat=n shows each time n times; whatever the sequence of clicks and ticks the player stays in the movie, plays the frames one by one, pauses on the last one and wraps; the arrows are normalised as asked.", "quantifier": "every list of times of files, tmin, tmax, dt_equations, number of repetitions, sequence of events of the player", "why_tests_cant": "all lists of times and all histories of the player; the repository only runs a few movies", "anchors": ["lib/fluidsim_core/output/movies.py: _init_ani_times, init_animation, _animate, InteractivePlayer", "fluidsim/base/output/movies.py: MoviesBasePhysFields1D, MoviesBasePhysFields2D, update_animation", "fluidsim/base/output/spectra.py: MoviesSpectra", "fluidsim/base/output/phys_fields2d.py: _quiver_plot"]}
{"id": "C72", "title": "The launcher of simulations forced by waves sets the parameters its arguments announce", "statement": "The parameters created from the arguments of the script describe an isotropic grid, a forced region around the wavenumber whose horizontal part has nh_forcing horizontal steps and whose waves have the frequency F N, a correlation time equal to their period, a time step following the waves, the viscosity and hyperviscosity given or implied by the buoyancy Reynolds numbers, and by default a hyperviscosity whose dissipative wavenumber is the largest dealiased one, or none if the Kolmogorov scale is resolved; wrong arguments are refused; the options which only print or plot never start a simulation nor save.", "quantifier": "every set of arguments of the script", "why_tests_cant": "the arguments are real numbers and the formulas hold for all of them; the tests run five command lines", "anchors": ["fluidsim/util/scripts/turb_trandom_anisotropic.py: create_parser, create_params, main", "fluidsim/solvers/ns3d/solver.py: _init_projection", "fluidsim/base/forcing/specific.py: SpecificForcingPseudoSpectralCoarse"]}
{"id": "C73", "title": "The forcings of the shallow-water and plate solvers inject the requested rate of energy", "statement": "With the forcings waves, waves_vortices and potential of sw1l, the mean input of quadratic energy (kinetic and available potential) during one step equals forcing_rate whatever the state of the flow, waves acting on the ageostrophic variable only and potential on the displacement only; the keys which a forcing cannot use are refused; the forcings of the solver come with the default variable written for them.", "quantifier": "every state of the flow, raw random forcing, parameter f and c2, weight of the modes, time step, accepted root, and every list of forcing classes", "why_tests_cant": "the normalisation is a quadratic equation in a random forcing and in the state; a test checks one draw and no test of sw1l measures the rate of the whole state", "anchors": ["fluidsim/solvers/sw1l/forcing.py: ForcingSW1L, Waves, WavesVortices, Potential", "fluidsim/solvers/sw1l/state.py: init_statespect_from, init_from_qafft", "fluidsim/solvers/plate2d/forcing.py", "fluidsim/base/forcing/base.py: ForcingBasePseudoSpectral._complete_info_solver"]}
{"id": "C74", "title": "The spectral energy budgets of the shallow-water solvers balance", "statement": "The transfers saved by the spectral energy budget of a shallow-water simulation give, mode by mode, the rate of change of the energy of the flow: for sw1l.modified the kinetic energy changes with transfer_EK and conv_A, the potential energy with transfer_EA minus conv_A; the transfers only move energy between wavenumbers, so they sum to zero; the decomposition over normal modes loses nothing: the modes sum to the flow and the groups of interactions to the transfers; the averages of the plots are over the requested records.", "quantifier": "every real flow, every resolution and set of modes without aliasing, every f, c2, dissipation, and every history of records", "why_tests_cant": "a test can check one flow on one grid; the identities are between sums of products of all pairs of modes of any state", "anchors": ["fluidsim/solvers/sw1l/output/spect_energy_budget.py: SpectralEnergyBudgetMSW1L, SpectralEnergyBudgetSW1L, SpectralEnergyBudgetSW1LModified", "fluidsim/solvers/sw1l/output/normal_mode.py: NormalModeDecomposition, NormalModeDecompositionModified, NormalModeBase", "fluidsim/base/output/spect_energy_budget.py: fnonlinfft_from_uxuy_funcfft"]}
{"id": "C75", "title": "The saved correlations of frequencies are the documented averages", "statement": "The arrays corr4 and corr2 of a plate2d simulation are the averages, over all the points of all the processes and over all the complete windows of nb_times_compute fields, of the products w(w1) w(w2) w(w3)* w(w4)* with w2 = w3 + w4 - w1 and w(w3) w(w4)* of the Fourier transforms in time; each window has the same weight, whatever the interruptions and the restarts; the number of averages and the frequencies written in the file are the right ones; the normalised correlations do not depend on the amplitude of the field.", "quantifier": "every field history, number of processes, number of times, frequencies, period of the records, and every sequence of iterations, crashes and restarts", "why_tests_cant": "a test checks that the functions run for one small simulation; the claims are on sums over all frequencies and all windows of any history, and on any crash point", "anchors": ["fluidsim/solvers/plate2d/output/correlations_freq.py: compute_correl4_seq, compute_correl2_seq, compute_correl4, compute_correl2, CorrelationsFreq"]}
{"id": "C76", "title": "Figures of hexahedral files show the asked plane, with matching points, colours and arrows", "statement": "For files of hexahedral elements, a plane cut shows all the elements met by the plane and in each of them the layer closest to it, the same layer for all the fields; the cells cover the elements without gaps and contain their points; the colour scale has the limits of the field; the value under the cursor is the colour of the cell drawn there; the arrows are velocities of the points from which they start; the keys designate the documented variables; between two files the field is interpolated linearly in time.", "quantifier": "every list of elements (deformed or not) with any numbers of points, every plane, key, cursor position and pair of files", "why_tests_cant": "a test draws one small file with one cut at z = 0 and no assertion on the drawn values", "anchors": ["lib/fluidsim_core/hexa_files.py: get_edges_2d, HexaField, SetOfPhysFieldFiles; lib/fluidsim_core/output/phys_fields.py: update_times, get_field_to_plot; lib/fluidsim_core/output/movies.py: MoviesBasePhysFieldsHexa"]}
{"id": "C77", "title": "The variables of the states are the documented functions of the flow, whatever was read before", "statement": "In the solvers sw1l, sw1l.exactlin, sw1l.onlywaves, sw1l.modified, ns2d, ns2d.bouss, ns2d.strat, ns3d, ns3d.strat, ns3d.bouss and plate2d, reading a variable of the state (velocity, vorticity, divergence, potential vorticity, ageostrophic part, fluxes, local Froude number, waves, poloidal and toroidal components, Airy function, in physical or spectral space) gives the documented function of the flow, and does not depend on the variables read before in the same iteration; the variables announced by has_vars can be read.", "quantifier": "every state, every parameter, every variable name and every sequence of previous readings in one iteration", "why_tests_cant": "tests read a few variables once in one order and compare no value; the cache hides or reveals missing branches depending on the order", "anchors": ["fluidsim/solvers/sw1l/state.py: StateSW1L; fluidsim/solvers/sw1l/exactlin/state.py: StateSW1LExactLin; fluidsim/solvers/sw1l/onlywaves/state.py: StateSW1LWaves; fluidsim/solvers/sw1l/modified/state.py: StateSW1LModified; fluidsim/solvers/ns2d/state.py: StateNS2D; fluidsim/solvers/ns2d/bouss/state.py; fluidsim/solvers/ns2d/strat/state.py; fluidsim/solvers/ns3d/state.py: StateNS3D; fluidsim/solvers/ns3d/strat/state.py; fluidsim/solvers/plate2d/state.py: StatePlate2D; fluidsim/base/state.py: get_var, has_vars"]}
{"id": "C78", "title": "The description written for Paraview refers to existing data with the right times and positions", "statement": "The xmf file written for the files of physical fields of a simulation contains one grid for each file, with its time (to half a billionth), the shape of its datasets and the positions of its points; each variable of each file is a scalar referring to the dataset of this variable in this file; the vectors are the names whose components are all variables, and refer to existing datasets; the grids are in the order of the times.", "quantifier": "every non-empty list of files of physical fields of one simulation, with any resolution, lengths, variables and times", "why_tests_cant": "no test reads the xmf file; a test could only look at one list of files", "anchors": ["fluidsim/base/output/__init__.py: create_description_xmf_file"]}
{"id": "C79", "title": "The tool which changes the resolution keeps the functions contained in the file", "statement": "For a file of physical fields, the new file written with another resolution contains for each variable the same function of space on the new grid when its Fourier modes are resolved by the two grids; so the values at common points and the means are unchanged; the result for a variable does not depend on the other variables of the file; files of different resolutions are written in different directories.", "quantifier": "every pair of grids, every list of variables, every real function resolved by the grids", "why_tests_cant": "a test can compare one field on one pair of grids", "anchors": ["fluidsim/util/util.py: StatePhysLike, modif_resolution_from_dir_memory_efficient; fluidsim/util/mini_oper_modif_resol.py: MiniOperModifResol, fill_field_fft_3d; fluidsim/base/init_fields.py: fill_field_fft_2d"]}
{"id": "C80", "title": "A saved state is loaded identically, whatever the processes, and states of other grids are refused", "statement": "A state saved in a file by a simulation with any distribution of the points over the processes (gathered or written with parallel HDF5) and loaded with params.init_fields.type = 'from_file' in a simulation of the same grid with any other distribution gives exactly the same needed variables, time, iteration and spectral state; a file with another number of points or another length is refused with ValueError; a file without one of the needed variables is refused.", "quantifier": "every state, every pair of distributions over processes, every order of the parallel writings, every grid", "why_tests_cant": "all distributions, orders and grids", "anchors": ["fluidsim/util/output.py: save_file; fluidsim/base/init_fields.py: InitFieldsFromFile"]}
{"id": "C81", "title": "The energy budgets over regions are those of the equations", "statement": "With the extension SpatialMeansRegions of ns3d.strat, each line of the file of a region contains, under the announced columns, the means over the points of the region of the energies, dissipations, conversion and power, and what enters through its two surfaces; the pressure used for the fluxes is the total pressure of the flow; the curves of plot_budget sum to the work of the force minus the dissipation plus the surface fluxes; for the whole domain the columns are those of the spatial means; the limits are the nearest grid points; the file keeps all the lines over restarts and refuses other limits.", "quantifier": "every state, force, list of regions, distribution over the processes, history of starts, restarts and saves", "why_tests_cant": "identities for all fields, all distributions and all histories", "anchors": ["fluidsim/extend_simul/spatial_means_regions_milestone.py: SpatialMeansRegions"]}
{"id": "C82", "title": "A restarted simulation continues the simulation which wrote the file", "statement": "When a simulation is stopped at any moment (end reached, stop request, maximum elapsed time, nan) and restarted from any file it has saved, with a later end, the restarted run reaches the same times, iterations, spectral states and physical fields as the run which would not have been interrupted, or raises the same exception; nothing depends on uninitialised memory, on the schedule of the outputs or on the clock.", "quantifier": "every solver, scheme, initial state, schedule of saving, stop request, saved file and end", "why_tests_cant": "it is a statement about all the states and all the moments of interruption; a test compares two runs for one of them", "anchors": ["fluidsim/base/time_stepping/base.py: TimeSteppingBase0; fluidsim/base/time_stepping/pseudo_spect.py: TimeSteppingPseudoSpectral, ExactLinearCoefs; fluidsim/base/init_fields.py: InitFieldsFromFile; fluidsim/base/output/phys_fields.py: PhysFieldsBase.save; fluidsim/base/state.py: StatePseudoSpectral"]}
{"id": "C83", "title": "The time schemes converge to the solution of the equations, with their orders", "statement": "When the time steps tend to zero, the states computed by a simulation converge to the solution of the truncated equations, uniformly over the simulated time: the error is smaller than a constant times the largest time step for Euler, its square for RK2 and RK2_trapezoid, its fourth power for RK4, whatever the variations of the time step with the CFL condition; these orders are exact; a force added to the tendencies, which depends on the time, is taken into account with the same orders. With phase shifts which cancel the aliasing, the limit is the solution without aliasing: with the square of the time step for RK2_phaseshift_exact, with its first power for the other ones (second when there is no aliasing).", "quantifier": "every smooth function of tendencies (of the state, computed by one array operation), every linear frequencies with non-negative real parts, every solution, every sequence of small enough time steps, every number of steps, any contents of the work arrays", "why_tests_cant": "an order of convergence is a statement about all the small enough time steps; a test compares a few values", "anchors": ["fluidsim/base/time_stepping/pseudo_spect.py: TimeSteppingPseudoSpectral, ExactLinearCoefs"]}
{"id": "C84", "title": "The commands for benchmarks and profiles describe the runs they make", "statement": "The arguments of fluidsim-bench, fluidsim-bench-analysis and fluidsim-profile give the dimension, the grid and the solver of the benchmark; the box is changed so that the cells of the grid have equal sides; the shapes proposed for the weak scaling have the same number of points per process; the analysis loads the results of the solver asked for and no other, gives an efficiency of 100 % to the reference and to ideal measures; the percentages of a profile are parts of a whole.", "quantifier": "every arguments, grids, numbers of processes, files of results, times measured, tables of profile", "why_tests_cant": "the shapes, the directories of results and the tables of a profile are arbitrary; a test runs one of them", "anchors": ["fluidsim/util/console/util.py: modif_box_size, modif_params2d, modif_params3d, parse_args_dim, get_path_file, bench; fluidsim/util/console/bench.py: get_opfft, estimate_shapes_weak_scaling; fluidsim/util/console/bench_analysis.py: load_bench, plot_scaling, run; fluidsim/util/console/profile.py: analyze_stats, plot_pie; fluidsim/util/util.py: get_dim_from_solver_key"]}
{"id": "C85", "title": "Loading or running a simulation never loses the results on disk", "statement": "Constructing a simulation, advancing it or loading it for a plot, for its state or for a restart never removes nor rewrites a record of a file of results: the files of the run are only extended, with a first record and a record each time the output is due, and the other directories are not touched; a simulation which does not save, and in particular one loaded with load_sim_for_plot or with load_state_phys_file, changes no file.", "quantifier": "every file system, parameters saved in the directory, options of the loading functions, schedule of the outputs", "why_tests_cant": "the directory loaded and the history of the run are arbitrary; a test looks at one directory after one run", "anchors": ["fluidsim/util/util.py: load_sim_for_plot, load_state_phys_file, load_for_restart; lib/fluidsim_core/output/base.py: OutputCore; fluidsim/base/output/base.py: OutputBase, SpecificOutput; fluidsim/base/solvers/base.py: SimulBase.__init__; fluidsim/base/output/print_stdout.py: PrintStdOutBase; fluidsim/base/forcing/specific.py: _save_state"]}
{"id": "C86", "title": "A run on several processes never blocks and its results do not depend on the speeds of the processes", "statement": "On any number of MPI processes, whatever their relative speeds, the time loop, the sums over the space, the horizontal means, the transfers of the coarse arrays of the forcings, the search of a wavenumber, the saving of a state and the initialisations from a file end on all processes; the processes agree on the time, the iteration, the time step and the decision to stop, and the values which they return are those given by all the local data, the same for every interleaving.", "quantifier": "every number of processes, local data, clock and signal seen by each process, interleaving of the steps of the processes, content of the files", "why_tests_cant": "the number of interleavings is infinite and a test sees one of them, with the speeds of one machine", "anchors": ["fluidsim/base/time_stepping/base.py: TimeSteppingBase; fluidsim/base/time_stepping/pseudo_spect.py: one_time_step_computation; fluidsim/base/output/horiz_means.py: HorizontalMeans; fluidsim/operators/operators2d.py: mean_space, coarse_seq_from_fft_loc, put_coarse_array_in_array_fft; fluidsim/operators/operators3d.py: where_is_wavenumber, coarse_seq_from_fft_loc; fluidsim/base/output/phys_fields.py: save; fluidsim/base/init_fields.py: InitFieldsFromFile; fluidsim/base/forcing/specific.py: SpecificForcing; lib/fluidsim_core/output/base.py: OutputCore; lib/fluidsim_core/extend_simul.py: SimulExtender; fluidsim/util/util.py: load_for_restart; fluidsim/base/output/temporal_spectra.py: TemporalSpectra; fluidsim/base/output/spatiotemporal_spectra.py: SpatioTemporalSpectra; fluidsim/base/output/base.py: end_of_simul"]}
{"id": "C87", "title": "A simulation converges to the solution of the equations of its solver", "statement": "For an initial state allowed by the solver (real fields, incompressible velocity, modes kept by the truncation) and a constant force of the same kind, the documented equations truncated to the modes kept (Navier-Stokes in 2D on a beta plane, stratified or Boussinesq in 2D, incompressible rotating in 3D with any projection, stratified in 3D, Burgers in 1D, modified shallow water, Foppl-von Karman for a plate with a truncation of 1/2, with the dissipation) have one and only one solution on any interval of time (for the shallow-water equations: one and only one as long as it exists), and the states given by the simulations converge to it when the time steps decrease, with order 1 for Euler, 2 for RK2 and RK2_trapezoid and 4 for RK4, whatever the sequence of the time steps and the contents of the arrays of work.", "quantifier": "every resolution and size of the box, modes kept without aliasing errors, initial state, constant force, viscosities, beta, Brunt-Vaisala frequency, Coriolis parameter, projection, final time, sequence of time steps, scheme without phase shift", "why_tests_cant": "the limit cannot be computed, the exact solutions are not known and the statement is on all initial states and step sequences", "anchors": ["fluidsim/solvers/ns2d/solver.py: tendencies_nonlin; fluidsim/solvers/ns2d/strat/solver.py: tendencies_nonlin; fluidsim/solvers/ns3d/solver.py: tendencies_nonlin, project_state_spect; fluidsim/solvers/ns2d/bouss/solver.py, fluidsim/solvers/burgers1d/solver.py, fluidsim/solvers/burgers1d/skew_sym/solver.py, fluidsim/solvers/sw1l/solver.py, fluidsim/solvers/sw1l/modified/solver.py, fluidsim/solvers/sw1l/exactlin/solver.py, fluidsim/solvers/plate2d/solver.py: tendencies_nonlin; fluidsim/solvers/ns3d/strat/solver.py: tendencies_nonlin; fluidsim/solvers/ns3d/time_stepping.py: one_time_step_computation; fluidsim/base/time_stepping/pseudo_spect.py: TimeSteppingPseudoSpectral; fluidsim/base/solvers/pseudo_spect.py: compute_freq_diss"]}
{"id": "C88", "title": "The dimensionless numbers are the ones of the saved flow", "statement": "output.spatial_means.get_dimless_numbers_versus_time and get_dimless_numbers_averaged return numbers with their documented meaning: the horizontal and vertical kinetic energies are the means over the grid, k_max*eta is the product of the largest wavenumber kept and of the Kolmogorov length of the dissipation, epsK2/epsK is the part of the dissipation due to the viscosity, Fh is the horizontal Froude number epsK/(U2 N), R2, R4 and R8 are the buoyancy Reynolds numbers Re_n Fh^n, Gamma is the ratio of the dissipations of potential and kinetic energies; these numbers do not depend on the units; the averages are arithmetic means over the records. For ns2d.strat with an anisotropic forcing, output.froude_number and output.ratio_omegas, which are written in the name of the run, are the sine of the angle of the force and the ratio of the frequency of the forced waves and of the frequency formed with the injection rate and the length of the force, and do not depend on the units.", "quantifier": "every state, grid, viscosity and hyperviscosities, frequency N, change of units, list of records", "why_tests_cant": "the identities are on real numbers for all flows and all units; tests use one flow with one set of units", "anchors": ["fluidsim/solvers/ns3d/output/spatial_means.py: get_dimless_numbers_versus_time, get_dimless_numbers_averaged; fluidsim/solvers/ns3d/strat/output/spatial_means.py: get_dimless_numbers_versus_time; fluidsim/solvers/ns2d/strat/output/__init__.py: OutputStrat._init_froude_number, _compute_ratio_omegas"]}
{"id": "C89", "title": "The clock, the end of the run, the periodic outputs and the means with floating-point numbers", "statement": "With the floating-point arithmetic of Python (binary64, round to nearest, ties to even) the time of a run never goes back and stays within n unit roundoffs of the sum of its n increments; a run whose increments are larger than the roundoff at t_end ends at the first step which reaches t_end, and with a constant increment makes the expected number of steps; the tests of the periodic outputs save once per period; a mean over the domain does not depend on the number of processes and on the order of the sums beyond a bounded relative error; the modes removed by the truncation are the ones of the exact rule.", "quantifier": "every sequence of floating-point increments, every period, every set of numbers and every way to add them two by two", "why_tests_cant": "rounding errors depend on all the bits of all the increments and accumulate over runs of unbounded length; a test sees one sequence", "anchors": ["fluidsim/base/time_stepping/base.py: TimeSteppingBase0.main_loop, one_time_step", "fluidsim/base/output/base.py: SpecificOutput._online_save, _has_to_online_save", "fluidsim/base/output/spatial_means.py: _save_one_time, __call__", "fluidsim/operators/base.py: OperatorBase.mean_space, _reinit_truncation", "fluidsim/operators/operators1d.py: OperatorsPseudoSpectral1D.__init__", "fluidsim/operators/operators2d.py: get_region_multiple_aliases"]}
{"id": "C90", "title": "ns2d.with_uxuy computes the same flow as ns2d", "statement": "A simulation of the solver ns2d.with_uxuy, whose state is the velocity, and a simulation of ns2d with the same grid, parameters, time scheme, time steps, initial flow and vorticity force give after every step the same vorticity and the same velocity. After each step the velocity has no divergence; the mean velocity does not change; the tendencies are -(u.grad)u minus a pressure gradient (with the beta term), conserve the kinetic energy and the enstrophy, with or without a mean flow, and the simulations converge to the solution of the documented equations with the order of the scheme.", "quantifier": "every grid, truncation, scheme, sequence of time steps, initial state, force, number of steps, and contents of the work arrays", "why_tests_cant": "the equality holds for every state and every number of steps of all nine schemes; a test compares two short runs", "anchors": ["fluidsim/solvers/ns2d/with_uxuy.py: TimeStepping.one_time_step_computation, Simul.tendencies_nonlin, Output.compute_energy_fft, State.init_statespect_from", "fluidsim/solvers/ns2d/solver.py: Simul.tendencies_nonlin, compute_Frot"]}
{"id": "C91", "title": "Grid of the operators and modes removed by NO_SHEAR_MODES and NO_KY0", "statement": "An operator is created if and only if the numbers of points are integers and truncation_shape exists; its grid is the one of the parameters (4 points in each direction with ONLY_COARSE_OPER, the parameters being unchanged). The modes removed are exactly those of the truncation, plus kx = 0 (2D) or kx = ky = 0 (3D) with NO_SHEAR_MODES, plus ky = 0 with NO_KY0. Therefore in every simulation, after every step, the mean over the horizontal directions of each variable is zero at each height with NO_SHEAR_MODES, and the mean over y is zero with NO_KY0; the fields stay real and the nonlinear terms still conserve energy and enstrophy.", "quantifier": "every parameter set, solver (tendencies, force, frequencies), scheme, sequence of time steps, initial state, number of steps and grid point", "why_tests_cant": "the removal must hold for every state reached by every simulation, not for the few modes of a test", "anchors": ["fluidsim/operators/operators2d.py: OperatorsPseudoSpectral2D.__init__, dealiasing, dealiasing_setofvar", "fluidsim/operators/operators3d.py: OperatorsPseudoSpectral3D.__init__, dealiasing", "fluidsim/operators/base.py: OperatorBase._reinit_truncation"]}
{"id": "C92", "title": "Frequency spectra of the time signals of the modes", "statement": "The frequency spectra computed from the saved time signals of the modes (sw1l) use windows whose size is a power of two between a twentieth and a tenth of the number of saved times, starting every half window. The sum of a spectrum over the frequencies times the frequency step is half the mean over the windows of the mean square of the signal times the Hann window; the spectrum of a shell is the mean over its signals. An oscillation with a whole number of periods in a window gives its largest value at its own frequency. Calling the computation again after more times have been saved works.", "quantifier": "every number of saved times, signal, number of shells and of modes per shell, coefficient, and sequence of calls", "why_tests_cant": "a test compares one spectrum of one short signal; the energy balance and the position of the peak must hold for all signals and lengths", "anchors": ["fluidsim/base/output/time_signals_fft.py: TimeSignalsK.time_spectrum, compute_spectra"]}
{"id": "C93", "title": "Probes of the temporal spectra and arrays of their values", "statement": "The probes are at points of the grid, regularly spaced, as near as possible to the parameters. Each process saves the values of the fields at the positions written in its files. Whatever the division of the grid between the processes and of the saved states into files, rearranging the data as physical fields writes one file per selected time, with the 3D array of the values of the field of this time at the positions of the probes.", "quantifier": "every grid, parameters of the probes, division of the grid between processes, history of saved states, division into files (possibly different for each process) and delta_index_times", "why_tests_cant": "a test has one or two processes, one small grid and one file per process", "anchors": ["fluidsim/base/output/temporal_spectra.py: TemporalSpectra3D.__init__, _get_data_probe_from_field, _online_save, save_data_as_phys_fields"]}
{"id": "C94", "title": "Solvers on the sphere", "statement": "The tendency of sphere.ns2d is the transform of -u.grad(zeta), with u the velocity without divergence of vorticity zeta; it conserves the kinetic energy and the enstrophy, and every run conserves the circulation and the angular momentum up to the exact damping of these modes. The tendencies of sphere.sw1l are the curl and the divergence of the vector-invariant momentum equation on the rotating sphere, its spectral state is recovered from its physical variables, and every run conserves the mass of the layer.", "quantifier": "every radius, rotation rate and orthonormal family of spherical harmonics of any degrees, every state, scheme, sequence of increments, dissipation and truncation that keeps the modes concerned", "why_tests_cant": "a test has one resolution, one initial state and a few steps, with a tolerance on one sum", "anchors": ["fluidsim/solvers/sphere/ns2d/solver.py: SimulSphereNS2D.tendencies_nonlin", "fluidsim/solvers/sphere/sw1l/solver.py: compute_Frot, SimulSphereSW1L.tendencies_nonlin", "fluidsim/solvers/sphere/sw1l/state.py: StateSphericalHarmoSW1L", "fluidsim/operators/sphericalharmo.py: OperatorsSphericalHarmonics.f_radial"]}
{"id": "C95", "title": "Independence of the origin and of the units", "statement": "A run started from the same flow described with another origin of space (any shift, not only a number of grid points) and other units of length and time gives the same flow described with that origin and these units, when the parameters (box, viscosities, f, N, beta, time steps, force) are converted accordingly.", "quantifier": "every solver among ns2d, ns2d.strat, ns3d, ns3d.strat, ns3d.bouss, sw1l, sw1l.modified and plate2d, time scheme, phase shifts, number of steps, sequence of time steps, projection option, force which depends on the step, initial state, shift and units, for every truncation which removes the aliasing", "why_tests_cant": "a test compares two runs with one shift, one resolution and one scheme, up to a tolerance", "anchors": ["fluidsim/solvers/ns2d/solver.py: tendencies_nonlin", "fluidsim/solvers/ns2d/strat/solver.py: tendencies_nonlin", "fluidsim/solvers/ns3d/solver.py: tendencies_nonlin", "fluidsim/solvers/ns3d/strat/solver.py: tendencies_nonlin", "fluidsim/base/time_stepping/pseudo_spect.py: one_time_step_computation", "fluidsim/base/solvers/pseudo_spect.py: compute_freq_diss"]}
{"id": "C96", "title": "Flows of dimension two in the solvers of dimension three, flows without buoyancy", "statement": "A run of ns3d started from a horizontal flow independent of z is the run of ns2d, for every rotation rate and option; a run of ns3d.strat started from a flow independent of y in the planes (x, z) is the run of ns2d.strat; without buoyancy and stratification, ns3d.strat and ns3d.bouss compute the runs of ns3d, and ns2d.strat and ns2d.bouss those of ns2d. These flows stay of the same kind for ever.", "quantifier": "every grid, box, truncation which removes the aliasing (any truncation for the last two), scheme, number of steps, sequence of time steps, viscosities, force of the same kind depending on the step, initial flow, contents of the arrays", "why_tests_cant": "a test compares two solvers for one flow, one scheme and a few steps, up to a tolerance", "anchors": ["fluidsim/solvers/ns2d/solver.py: tendencies_nonlin", "fluidsim/solvers/ns2d/strat/solver.py: tendencies_nonlin", "fluidsim/solvers/ns3d/solver.py: tendencies_nonlin, project_state_spect", "fluidsim/solvers/ns3d/strat/solver.py: tendencies_nonlin", "fluidsim/solvers/ns3d/bouss/solver.py", "fluidsim/solvers/ns3d/time_stepping.py: one_time_step_computation"]}
{"id": "C97", "title": "Names of the runs", "statement": "The name of the directory of a run begins with the short name of the solver and ends with the date; the numbers in it are the values of the parameters up to half a unit of the last digit, and two runs of which one of these parameters differs by more than one unit of the last digit have different names. A simulation loaded from a directory, also with operators with few points, has the name of the run.", "quantifier": "every solver name, type of run, operator, list of parameters (values, formats, positions), date, directory", "why_tests_cant": "a test looks at a few names; the values of the parameters and the dates are not bounded", "anchors": ["lib/fluidsim_core/output/base.py: SimReprMakerCore, OutputCore._init_sim_repr_maker", "fluidsim/base/output/base.py: SimReprMaker, OutputBase._init_sim_repr_maker", "fluidsim/operators/base.py: OperatorBase._modify_sim_repr_maker, OperatorBase1D.produce_str_describing_oper", "fluidsim/operators/op_finitediff2d.py: produce_str_describing_oper", "fluidsim/base/forcing/milestone.py: _modify_sim_repr_maker", "fluidsim/solvers/plate2d/forcing.py: SpecificForcingPlate2d", "fluidsim/solvers/ns3d/strat/solver.py: _modify_sim_repr_maker"]}
{"id": "C98", "title": "Symmetries of the box", "statement": "A run of ns2d, ns2d.strat, ns3d, ns3d.strat, sw1l, sw1l.modified or plate2d from the image of the initial fields by a symmetry of the box (mirror, exchange of axes of the same length and resolution, rotation by a right angle, half turn), with the image of the forces, is the image of the run: after any number of steps and for any scheme, the velocity, the vorticity and the buoyancy at a point are those of the first run at the point sent to it, with the signs of vectors and pseudo-scalars. With gravity, a special projection or no_vz_kz0 the vertical axis has to be kept, with rotation of the frame the symmetry has to be a rotation in the horizontal planes, with a beta effect it has to keep the west and the east. So a flow and a force with a symmetry, as the Taylor-Green flow, keep it for ever.", "quantifier": "every symmetry of a box in two or three dimensions, initial fields, forces, schemes, time steps, viscosities, contents of the memory, options, and number of steps", "why_tests_cant": "a test compares two runs with one flow and one symmetry, and rounding errors hide small asymmetries", "anchors": ["fluidsim/solvers/ns2d/solver.py: tendencies_nonlin", "fluidsim/solvers/ns2d/strat/solver.py: tendencies_nonlin", "fluidsim/solvers/ns3d/solver.py: tendencies_nonlin, project_state_spect", "fluidsim/solvers/ns3d/strat/solver.py: tendencies_nonlin", "fluidsim/base/time_stepping/pseudo_spect.py: one_time_step_computation", "fluidsim/operators/operators3d.py: project_poloidal, project_toroidal, vecfft_from_vpfft"]}
{"id": "C99", "title": "Solvers loaded by key and construction of the simulation objects", "statement": "import_simul_class_from_key(key) gives the solver registered with exactly this name, with or without the prefix fluidsim.solvers., whatever the order of the installed packages, and raises ValueError for a key which is not registered; find_path_result_dir gives the absolute path of an existing directory, looked for in the current directory and then under $FLUIDSIM_PATH, which is found again from any directory; whatever the parameters created before for this solver, its ancestors, its descendants or their extensions, Simul(params) uses the description of its own class, and the classes which are used are those named in the description saved in the files; the objects of the simulation are built in the order operators, output, state, time stepping, initial fields (then set), tasks which are enabled (forcing, turb_model), end of the initialisation of the outputs, preprocessing, and sim.is_<task>_enabled is true if and only if the user enables the task, if and only if the object of the task exists.", "quantifier": "every table of entry points, key, machine and path, every description of a solver and list of extenders, every history of create_default_params over a hierarchy of classes, every dictionary of classes and parameters", "why_tests_cant": "a test loads a few solvers in a fresh process; wrong keys, the order of the extenders and the calls which have been done before in the same process are unbounded", "anchors": ["lib/fluidsim_core/loader.py: import_module_solver, import_cls_simul", "lib/fluidsim_core/paths.py: find_path_result_dir", "lib/fluidsim_core/info.py: InfoSolverCore", "lib/fluidsim_core/solver.py: SimulCore", "fluidsim/base/solvers/base.py: SimulBase.__init__", "fluidsim/base/turb_model/base.py: modif_infosolver_turb_model", "pyproject.toml: entry points"]}
{"id": "C100", "title": "Curves which check the budgets of energy", "statement": "With at least two records of an energy whose time derivative is the injection minus the dissipation, at increasing times, the curves of plot_dt_energy (ns2d, ns2d.strat), plot_dt_enstrophy (ns2d), plot_dt_E (ns3d, ns3d.strat), plot(with_dtE=True) (plate2d) and plot_rates (sw1l) are drawn without error and agree: the distance between the curve of the derivative and the one of the budget at the same abscissa is at most proportional to the spacing of the records, and zero inside when the budget is linear in time.", "quantifier": "every energy and budget with a bounded variation rate, every number of records and all the spacings, with and without forcing", "why_tests_cant": "a test draws the figures of one short run and does not look at the values", "anchors": ["fluidsim/solvers/ns2d/output/spatial_means.py: plot_dt_energy, plot_dt_enstrophy", "fluidsim/solvers/ns2d/strat/output/spatial_means.py: plot_dt_energy", "fluidsim/solvers/ns3d/output/spatial_means.py: plot_dt_E", "fluidsim/solvers/plate2d/output/spatial_means.py: plot", "fluidsim/solvers/sw1l/output/spatial_means.py: plot_rates"]}
{"id": "C101", "title": "What the simulations conserve", "statement": "Along a whole run, whatever the number of steps, the time scheme and the time steps, the space mean of vorticity and buoyancy (ns2d, ns2d.strat, ns2d.bouss), the mass (sw1l, sw1l.modified), the mean of the velocity (burgers, ns3d, ns3d.strat) change only through the mean of the force; without forcing they keep their initial value. Without forcing and for time steps which tend to zero, the energies written in the files of the spatial means never increase by more than a multiple of the power of the time step which the scheme announces, and stay constant to this precision without viscosity (ns2d, ns2d.strat, ns3d, ns3d.strat, sw1l.modified; for ns2d also the enstrophy; burgers1d and plate2d with a truncation which removes all the aliases).", "quantifier": "every truncation, real initial state, viscosities, time scheme (for the means also those with phase shifts) and sequence of time steps", "why_tests_cant": "a test computes a few steps of a few states and compares with a tolerance; the conservation has to hold over histories of any length and for every state", "anchors": ["fluidsim/solvers/ns2d/solver.py: tendencies_nonlin", "fluidsim/solvers/sw1l/solver.py: tendencies_nonlin", "fluidsim/solvers/ns3d/solver.py: tendencies_nonlin", "fluidsim/solvers/ns3d/strat/solver.py: tendencies_nonlin", "fluidsim/base/time_stepping/pseudo_spect.py: TimeSteppingPseudoSpectral", "fluidsim/base/solvers/pseudo_spect.py: compute_freq_diss"]}
{"id": "C102", "title": "Figures of the spectra", "statement": "The figures of the spectra show the saved spectra: the thick curve is the mean over the records from the one closest to tmin to the one closest to tmax, multiplied by k ** coef_compensate; the thin curves are those of the records of this range every delta_t, in the order of the time and with colors or transparencies which follow the time; the figures can be drawn for every file, also with one record, one time or a grid with different numbers of points. The cumulated dissipation increases with the wavenumber to one in total, the dissipative wavenumbers are those where the dissipative frequency is the one of the eddies, and the bands of the forcing contain the forced wavenumbers.", "quantifier": "every file of spectra, range of times, interval, compensation, viscosities and forced sector", "why_tests_cant": "a test calls the methods on one small simulation and does not look at the curves; the values have to be right for every file and every argument", "anchors": ["fluidsim/base/output/spectra.py: SpectraBase._plot_ndim, _plot_ndim_direction, _ax_add_average", "fluidsim/solvers/ns3d/output/spectra.py: plot1d, _plot_times, plot3d_cumul_diss", "fluidsim/solvers/ns3d/strat/output/spectra.py: plot_kzkh_cumul_diss", "fluidsim/solvers/sw1l/output/spectra.py: plot1d", "fluidsim/solvers/plate2d/output/spectra.py: plot1d, plot2d", "fluidsim/solvers/ns2d/strat/output/spectra.py: plot1d, plot2d"]}
{"id": "C103", "title": "Horizontal means: the saved profiles are the means and covariances of each level, and obey the averaged equations", "statement": "HorizontalMeans saves, at each height of the grid, the means over the level of the three components of the velocity and the six covariances of the components over the level. So the variances are not negative, covariances obey the Cauchy-Schwarz inequality, the kinetic energy is the one of the profiles plus the one of the fluctuations, a uniform velocity added to the flow only changes the means, a translation of the flow only translates the profiles, the vertical profile of vz of a divergence-free flow is constant, and the tendency of the mean horizontal velocity of ns3d is minus the vertical derivative of the saved vertical fluxes plus the Coriolis force. load and plot give the averages in time over the records from the nearest of tmin to the nearest of tmax.", "quantifier": "all sizes of grid, all velocity fields (all divergence-free flows without aliasing error for the equations), all lists of records and all limits in time", "why_tests_cant": "fields, grids and lists of records are unbounded; a test compares a few numbers of one simulation with numpy means computed in the same way", "anchors": ["fluidsim/base/output/horiz_means.py: HorizontalMeans.compute, load, plot", "fluidsim/solvers/ns3d/solver.py: Simul.tendencies_nonlin"]}
{"id": "C104", "title": "A uniform velocity added to the initial state only moves the flow", "statement": "For burgers1d, ns3d, ns3d.strat and sw1l: when a uniform velocity U is added to the initial velocity, the simulations converge (with the order of the scheme) to the flow without it, translated by U t, plus U. With rotation U has to be along the axis, with stratification perpendicular to the gradient of density, and the forces must not vary along U. For a given finite time step the computed states are not invariant.", "quantifier": "all grids and truncations without aliasing, initial states, uniform velocities, viscosities, schemes without phase shifts, time steps, durations", "why_tests_cant": "initial states, velocities and time steps are unbounded and the property is about a limit; a test compares two runs with one time step, which are different", "anchors": ["fluidsim/solvers/ns3d/solver.py: Simul.tendencies_nonlin", "fluidsim/solvers/ns3d/strat/solver.py: Simul.tendencies_nonlin", "fluidsim/solvers/sw1l/solver.py: Simul.tendencies_nonlin", "fluidsim/solvers/sw1l/modified/solver.py: Simul.tendencies_nonlin", "fluidsim/solvers/burgers1d/solver.py: Simul.tendencies_nonlin", "fluidsim/base/time_stepping/pseudo_spect.py: TimeSteppingPseudoSpectral.one_time_step_computation"]}
{"id": "C105", "title": "The outputs do not influence the simulation", "statement": "Two simulations with the same parameters whose outputs are configured in two different ways (results saved or not, other periods, other sets of outputs) compute the same flow: same states, times, time increments, forces and random numbers, although the time increment and the forcing are computed in advance for the outputs.", "quantifier": "all solvers (adaptive or fixed increment, any forcing, any scheme), initial states, configurations of the outputs, numbers of time steps, ends of the loop, stop signals", "why_tests_cant": "configurations of outputs, states and numbers of time steps are unbounded; a test compares two configurations for one run", "anchors": ["fluidsim/base/output/base.py: Output.init_with_initialized_state", "fluidsim/base/output/base.py: Output.post_init", "fluidsim/base/output/base.py: Output.end_of_simul", "fluidsim/base/time_stepping/base.py: TimeSteppingBase0.main_loop", "fluidsim/base/time_stepping/base.py: TimeSteppingBase0.one_time_step", "fluidsim/base/forcing/base.py: ForcingBase.compute", "fluidsim/base/preprocess/pseudo_spect.py: PreprocessPseudoSpectral.__call__"]}
{"id": "C106", "title": "Simulations without viscosity are reversible in time", "statement": "A simulation without viscosity is run during a time T; then the signs of the velocities (vorticity, velocity of the plate) and of the rotation are changed and a second simulation is run during the same time. When the signs are changed again, the state is the initial state with an error smaller than C dt^order, with the order of the time scheme; with a viscosity the simulations do not return.", "quantifier": "all grids whose truncation removes the aliases, sizes of the box, real initial states, constant forces, durations, rotation and stratification, schemes without phase shifts, sequences of time steps of the two runs (also different), contents of the work arrays", "why_tests_cant": "states, durations and sequences of time steps are unbounded; a test runs one case with one time step and a tolerance", "anchors": ["fluidsim/base/time_stepping/pseudo_spect.py: TimeSteppingPseudoSpectral.one_time_step_computation", "fluidsim/solvers/ns2d/solver.py: Simul.tendencies_nonlin", "fluidsim/solvers/ns2d/strat/solver.py: Simul.tendencies_nonlin", "fluidsim/solvers/ns2d/bouss/solver.py: Simul.tendencies_nonlin", "fluidsim/solvers/ns3d/solver.py: Simul.tendencies_nonlin", "fluidsim/solvers/ns3d/strat/solver.py: Simul.tendencies_nonlin", "fluidsim/solvers/sw1l/solver.py: Simul.tendencies_nonlin", "fluidsim/solvers/sw1l/modified/solver.py: Simul.tendencies_nonlin", "fluidsim/solvers/plate2d/solver.py: Simul.tendencies_nonlin", "fluidsim/solvers/burgers1d/solver.py: Simul.tendencies_nonlin"]}
{"id": "C107", "title": "A flow made of copies of a smaller periodic flow stays so", "statement": "A simulation is run in a box whose lengths are m_d times those of a smaller box, from an initial state and with a force made of copies of those of the smaller box. After any number of steps its state is made of copies of the state of the simulation in the smaller box with the same parameters, whatever the other modes which the large simulation could use, and with USE_CFL both choose the same time steps when the distance between the grid points is the same. In particular the fields keep the period of the small box.", "quantifier": "all numbers of copies in each direction, sizes of the boxes, grids whose truncations remove the aliases and keep the same waves of the small box, initial states, time dependent forces, numbers of steps, sequences of time steps, schemes (with phase shifts which agree), contents of the work arrays", "why_tests_cant": "states, grids, numbers of copies and of steps are unbounded; a test compares two runs with a tolerance", "anchors": ["fluidsim/base/time_stepping/pseudo_spect.py: TimeSteppingPseudoSpectral.one_time_step_computation", "fluidsim/base/time_stepping/base.py: TimeSteppingBase._compute_time_increment_CLF_uxuy", "fluidsim/base/time_stepping/base.py: TimeSteppingBase._compute_time_increment_CLF_uxuyuz", "fluidsim/solvers/ns2d/solver.py: Simul.tendencies_nonlin", "fluidsim/solvers/ns2d/strat/solver.py: Simul.tendencies_nonlin", "fluidsim/solvers/ns2d/bouss/solver.py: Simul.tendencies_nonlin", "fluidsim/solvers/ns3d/solver.py: Simul.tendencies_nonlin", "fluidsim/solvers/ns3d/strat/solver.py: Simul.tendencies_nonlin", "fluidsim/solvers/sw1l/solver.py: Simul.tendencies_nonlin", "fluidsim/solvers/sw1l/modified/solver.py: Simul.tendencies_nonlin", "fluidsim/solvers/plate2d/solver.py: Simul.tendencies_nonlin", "fluidsim/solvers/burgers1d/solver.py: Simul.tendencies_nonlin", "fluidsim/operators/base.py: OperatorBase._reinit_truncation"]}
{"id": "C108", "title": "Exact solutions whose nonlinear terms vanish are computed exactly", "statement": "Simulations started from a flow for which the nonlinear terms of the equations vanish (parallel flows, flows whose wavevectors have the same length as the Taylor-Green vortices in two dimensions, zonal flows with the beta effect, Beltrami flows in three dimensions, layers of a stratified fluid, geostrophic jets of the shallow water) give exactly the solution of the equations: after any number of steps, each Fourier mode is the initial one multiplied by exp(-(nu_2 K^2 + nu_4 K^4 + nu_8 K^8) t), with t the simulated time. In particular, without viscosity, these flows do not change.", "quantifier": "Every such initial state of ns2d, ns2d.strat, ns3d, ns3d.strat, ns3d.bouss, sw1l and sw1l.modified, every resolution, size of the box, truncation, viscosity (order 2, 4, 8), time scheme, sequence of time steps, phase shifts and number of steps", "why_tests_cant": "A test checks one flow, one scheme and one number of steps, with a tolerance; the equality is for all the flows of these families, all the schemes and all the sequences of time steps.", "anchors": ["fluidsim/solvers/ns2d/solver.py: Simul.tendencies_nonlin", "fluidsim/solvers/ns2d/strat/solver.py: Simul.tendencies_nonlin", "fluidsim/solvers/ns3d/solver.py: Simul.tendencies_nonlin, project_state_spect", "fluidsim/solvers/ns3d/strat/solver.py: Simul.tendencies_nonlin", "fluidsim/solvers/sw1l/solver.py: Simul.tendencies_nonlin", "fluidsim/solvers/sw1l/modified/solver.py: Simul.tendencies_nonlin", "fluidsim/base/time_stepping/pseudo_spect.py: TimeSteppingPseudoSpectral.one_time_step_computation, ExactLinearCoefs"]}
{"id": "C109", "title": "The figures of the spectral energy budgets show the mean fluxes and dissipations of the saved budgets", "statement": "For every file of a spectral energy budget and all the arguments: the figures of ns2d and of sw1l show, for the records chosen by tmin, tmax and delta_t and for their mean, what the wavenumbers from k on receive from the smaller ones; for a transfer which conserves the energy this is what the wavenumbers before k lose and the curves start at 0. The figures of ns3d and of ns3d.strat show what the shells up to k lose and dissipate, averaged over the records from tmin to tmax, divided by the total dissipation and drawn at the upper edge of the shell: the curve of the dissipation never decreases and ends at 1, the flux ends at 0, and in a statistically stationary flow the dotted curve (flux plus dissipation) is the part of the power injected in the shells up to k, and the flux of potential energy plus its dissipation is the curve of the conversion. The figures of ns2d.strat show the fluxes and the dissipations along kx and kz.", "quantifier": "all the files (times, wavenumbers, records), all tmin, tmax and delta_t, both directions, all the transfers, dissipations and injected powers", "why_tests_cant": "A figure is drawn without any check; the tests call the plotting methods on one short simulation and do not look at the curves, while the property concerns all the files and all the time ranges.", "anchors": ["fluidsim/base/output/spect_energy_budget.py: cumsum_inv", "fluidsim/solvers/ns2d/output/spect_energy_budget.py: SpectralEnergyBudgetNS2D.plot", "fluidsim/solvers/ns2d/strat/output/spect_energy_budget.py: compute_fluxes_mean, plot", "fluidsim/solvers/ns3d/output/spect_energy_budget.py: load_mean, compute_fluxes_mean, plot_fluxes", "fluidsim/solvers/ns3d/strat/output/spect_energy_budget.py: plot_fluxes", "fluidsim/solvers/sw1l/output/spect_energy_budget.py: plot"]}
{"id": "C110", "title": "The fields stay real during a simulation", "statement": "For every simulation of ns2d, ns2d.strat, ns2d.bouss, ns2d.with_uxuy, ns3d, ns3d.strat, ns3d.bouss, sw1l, sw1l.modified, plate2d and burgers1d started from real fields and forced by real forces whose modes are kept by the truncation: after every step, the fields given by the spectral state take real values at all the points of the grid, so that nothing is lost when they are stored in arrays of real numbers, and opposite modes have conjugate coefficients, so that the half of the coefficients which is stored gives the whole field. This holds for all the time schemes, with and without phase shifts, for all the projections and all the viscosities.", "quantifier": "all the real initial fields and forces, all the numbers of steps, all the schemes, phase shifts and nonzero time steps, all the parameters of the solvers, all the grids and all the sets of modes kept which contain the opposite of each mode", "why_tests_cant": "A complex part is discarded silently by the transform from spectral to physical space, so that a tendency, a projection or a phase shift which breaks the symmetry between opposite modes gives a wrong simulation without any error; a test looks at a few fields and steps.", "anchors": ["fluidsim/base/time_stepping/pseudo_spect.py: TimeSteppingPseudoSpectral.one_time_step_computation, _time_step_RK2_phaseshift_random", "fluidsim/solvers/ns2d/solver.py: Simul.tendencies_nonlin", "fluidsim/solvers/ns2d/with_uxuy.py: Simul.tendencies_nonlin", "fluidsim/solvers/ns3d/solver.py: Simul.tendencies_nonlin, project_state_spect", "fluidsim/solvers/ns3d/strat/solver.py: Simul.tendencies_nonlin", "fluidsim/solvers/sw1l/solver.py: Simul.tendencies_nonlin", "fluidsim/solvers/plate2d/solver.py: Simul.tendencies_nonlin", "fluidsim/solvers/burgers1d/solver.py: Simul.tendencies_nonlin"]}
{"id": "C111", "title": "The random forces are real fields", "statement": "For the forcings random and tcrandom, in 2D and in 3D: whatever the random numbers, at every time of the simulation (also after a restart from the state file of the forcing) and for every normalisation (2nd_degree_eq with real roots, particular_k in 2D), the force is copied in the full spectral array without error; this array has, in the column kx = 0, conjugate values at opposite modes, and zeros outside of the coarse grid, so that the force takes real values at the points of the grid and a forced simulation started from a real field stays real. The projection on real fields creates no force outside of the forced shell.", "quantifier": "all the random arrays, all the sequences of times, all the real roots and choices of root, all the even sizes of the coarse grid, all the sizes of the grid not smaller, all the masks which contain the Nyquist modes (those of the code)", "why_tests_cant": "The random numbers are drawn without the symmetry, and the coarse and full arrays do not store the modes at the same positions; a force which is not real would be silently projected by the transforms and the injection rate would be wrong. A test looks at some realisations.", "anchors": ["fluidsim/base/forcing/specific.py: RandomSimplePseudoSpectral.compute_forcingc_raw, TimeCorrelatedRandomPseudoSpectral.forcingc_from_f0f1, NormalizedForcing.normalize_forcingc_part_k, coef_normalization_from_abc, SpecificForcingPseudoSpectralCoarse.put_forcingc_in_forcing", "fluidsim/operators/operators2d.py: OperatorsPseudoSpectral2D.project_fft_on_realX_seq, project_fft_on_realX_slow, put_coarse_array_in_array_fft", "fluidsim/operators/operators3d.py: OperatorsPseudoSpectral3D.project_fft_on_realX"]}
{"id": "C112", "title": "The results depend smoothly on the initial fields, the forces, the time steps and the physical parameters", "statement": "With given time steps, the fields after any number of steps are functions as smooth as one wants (r times continuously differentiable for all r) of the initial fields, of the forces of the steps, of the time steps and of the physical parameters (viscosities that are not negative, beta, N, f, c2), also at the values zero for which the code takes another path: small perturbations of the data give small perturbations of the results and the difference quotients used to compute sensitivities have a limit. With time steps chosen by the CFL condition this is false: the time step changes only if the one of the CFL condition differs by more than 2%, so that the fields after one step jump when the initial fields cross this limit.", "quantifier": "all the solvers in Fourier space (ns2d, ns2d.strat, ns2d.bouss, sw1l, sw1l.modified, sw1l.exactlin, plate2d, burgers1d, ns3d, ns3d.strat), all the Runge-Kutta schemes, grids, viscosities, phase shifts, memory contents, numbers of steps, spaces of parameters, smooth families of data and orders r", "why_tests_cant": "A test perturbs a few fields with a few amplitudes and cannot show that a limit exists nor that no branch of the code makes the result jump.", "anchors": ["fluidsim/base/time_stepping/pseudo_spect.py:_time_step_RK4", "fluidsim/base/time_stepping/base.py:_compute_time_increment_CLF_from_tmp", "fluidsim/solvers/ns2d/solver.py:tendencies_nonlin", "fluidsim/solvers/ns3d/solver.py:tendencies_nonlin", "fluidsim/solvers/sw1l/solver.py:tendencies_nonlin"]}

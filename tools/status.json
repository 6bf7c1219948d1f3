{
 "C03": {
  "status": "partial",
  "note": "The bounds on the time increments (advection, gravity waves of sw1l, internal waves and forcing of ns2d.strat, deltat_max) are proved for every field, grid and number of processes (C03_cfl_*, C03_strat_waves); the increment is independent of the number of processes with one velocity component (C03_nb_procs_ux). Findings: a negative constant velocity is ignored (C03_cfl_U_negative_violated), the wave limit on deltat_max is overwritten (C03_wave_limit_violated), ns2d.strat with forcing_rate = 0 raises (C03_strat_rate_zero_violated), with two components the increment depends on the number of processes (C03_nb_procs_violated; C03_nb_procs_uxuy_partial)."
 },
 "C04": {
  "status": "partial",
  "note": "Proved for Euler, RK2, RK2_trapezoid, RK4 and phaseshift variants. For the in-place phase-shift schemes the equality needs tendencies that do not depend on the destination array (C04_phaseshift_inplace_schemes_partial); without it the statement is false (violated)."
 },
 "C06": {
  "status": "partial",
  "note": "Proved with USE_CFL; with a fixed time step a later change of deltat leaves stale coefficients (C06_modified_deltat_violated)."
 },
 "C07": {
  "status": "partial",
  "note": "Proved for isotropic spherical truncation and for 1D sizes with strict truncation; the anisotropic spherical case and the 1D boundary mode are violated by the code."
 },
 "C08": {
  "status": "partial",
  "note": "Weights of every alias proved for arbitrary dimension and sizes; the claim that the no_multiple_aliases truncation leaves no multiple alias is false of the code (C08_no_multiple_aliases_violated)."
 },
 "C09": {
  "status": "partial",
  "note": "Consistency of each pair proved for every history on one process; ranks draw independently (C09_mpi_ranks_violated)."
 },
 "C10": {
  "status": "partial",
  "note": "Base classes: proved for every keyword list. Consistency of the two representations and zeroing of the other variables fail for some solver methods (C10_representations_violated, C10_ns2d_phys_from_ux_violated, C10_sphere_other_variables_violated)."
 },
 "C100": {
  "status": "partial",
  "note": "Proved: C100_curves and C100_exact (ns2d, ns3d, ns3d.strat), C100_two_records, C100_enstrophy_partial (with a forcing), C100_plate, C100_plate_two_records, C100_strat_partial (the curve of the derivative), C100_rates, C100_rates_keys. For the solutions of the documented equations (C87): C100_ns2d_forced, C100_ns2d_unforced, C100_ns3d_forced (the curves converge when the records get closer; with a constant force they differ by the second term of the injection rate). Findings: C100_enstrophy_violated (plot_dt_enstrophy fails without forcing), C100_strat_violated (the budget of ns2d.strat is drawn half an interval too late), C100_rates_string_violated (a key given as a string of several characters), C100_rates_mean_violated (the legend is the mean of the absolute values). Missing: records with equal times, the labels and the axes."
 },
 "C101": {
  "status": "partial",
  "note": "Proved: the mean values over whole runs (C101_mean_ns2d, C101_mean_ns2d_strat, C101_mean_ns2d_bouss, C101_mass_sw1l, C101_mass_sw1l_modified, C101_mean_burgers, C101_momentum_ns3d, C101_momentum_ns3d_strat, C101_no_mean_ns3d_strat), the energies along the runs of the schemes of orders 2 and 4 (C101_energy_ns2d, C101_energy_ns2d_strat, C101_energy_ns3d, C101_energy_ns3d_strat, C101_energy_burgers, C101_energy_sw1l_modified, C101_energy_plate2d). Finding: C101_mass_hypo_sw1l_violated (with nu_m4 the mean and therefore the mass decay). Missing: the random phase-shift schemes for the energies, the energies with hypo-viscosity or a force, the energies of sw1l and sw1l.onlywaves along runs, rotation for the mean velocity."
 },
 "C102": {
  "status": "partial",
  "note": "Proved: C102_average_partial and C102_times_partial (values of at least 1e-15), C102_records, C102_tmax, C102_sw1l_plot1d_partial, C102_plate_plot2d_partial, C102_cumul_diss, C102_cumul_diss_kzkh, C102_dissipative_scales, C102_forced_band_partial (with delta_angle). Not true of the code: an absolute threshold hides slow flows; one time with delta_t, or one record, raises; sw1l and plate2d add the spectra versus kx and ky (raises for different numbers of points, mixes different wavenumbers for Lx != Ly); plate2d does not draw the average of plot1d, draws no record for a small delta_t, masks the potential energies with the kinetic one and fails with one record; ns2d.strat ignores coef_compensate in plot2d and hides kept modes in plot1d; the cumulated dissipation has no nu_8; the band of kh is drawn for kx. Missing: plot2d of sw1l, the reference lines. C102_strat_averages_partial and C102_strat_names: the averages of ns3d.strat (C102_strat_poloidal_violated, C102_strat_vortical_violated)."
 },
 "C103": {
  "status": "partial",
  "note": "Proved: what is saved, bounds, decomposition of energy, mean vertical velocity, budget of the mean profiles without viscosity and forcing, invariances, loading, figure, total covariance. Missing: rounding errors; the viscous and forcing terms of the budget. Findings: the loaded covariances are not around the loaded means; the nearest record of tmin can be before tmin; tmin after tmax gives nan; a file without record cannot be loaded."
 },
 "C104": {
  "status": "partial",
  "note": "Proved: C104_moving (meaning), C104_burgers, C104_ns3d, C104_ns3d_strat, C104_sw1l (as long as the solution exists), C104_uniform. Findings: with a finite time step the states are not invariant (C104_finite_step_violated); in sw1l.modified a uniform velocity does not advect the flow (C104_sw1l_modified_violated). Missing: hypo-viscosity, random phase-shift schemes, floats."
 },
 "C105": {
  "status": "partial",
  "note": "Proved: C105_start, C105_loop (also the force and the random generator), C105_in_script (the state is given by a script), C105_continued_partial (several calls of start), C105_preprocess_partial, C105_forcing_constructed_twice. Findings: with USE_CFL and a normalised force a second call of start depends on HAS_TO_SAVE (C105_continued_violated); so does a run whose initialised state is changed by a script (C105_changed_state_violated) and a run with preprocessing and a random forcing (C105_preprocess_violated). Missing: the output objects are assumed to change nothing else than themselves; max_elapsed; floats."
 },
 "C106": {
  "status": "partial",
  "note": "Proved: C106_ns2d, C106_ns2d_strat, C106_ns2d_bouss, C106_ns3d, C106_ns3d_strat, C106_sw1l (as long as the equations have a solution), C106_sw1l_modified, C106_plate2d (coef_dealiasing <= 1/2), C106_burgers; C106_viscosity_needed shows that the hypothesis on the viscosity is needed. Missing: schemes with phase shifts, sw1l.exactlin and onlywaves, truncations which leave aliases, time dependent forces, floats (the rounding errors are in C87 and C83)."
 },
 "C107": {
  "status": "partial",
  "note": "Proved: C107_ns2d, C107_ns2d_strat, C107_ns2d_bouss, C107_ns3d, C107_ns3d_strat (with ns3d.bouss), C107_sw1l, C107_sw1l_modified, C107_plate2d (coef_dealiasing <= 1/2), C107_burgers; C107_ns2d_cfl and C107_ns3d_cfl with the CFL condition; C107_copies, C107_copies_period and C107_truncations give the meaning of the definitions; C107_period_kept is the observable form. Missing: truncations which leave aliases, the CFL condition of the other solvers, sw1l.exactlin and onlywaves, the forcing classes (the force is given), floats."
 },
 "C108": {
  "status": "partial",
  "note": "For ns2d (with and without the beta effect), ns2d.strat, ns3d (Beltrami and parallel flows), ns3d.strat/bouss, sw1l and sw1l.modified. Missing: rounding, hypo-viscosity, the exact solutions with waves (their linear terms are in the tendencies and not integrated exactly), the plates, sw1l.exactlin and the solvers on the sphere."
 },
 "C109": {
  "status": "partial",
  "note": "C109_ns3d, C109_ns3d_ends, C109_ns3d_injection, C109_ns3d_strat and C109_ns3d_strat_stationary: the curves of plot_fluxes for every file and every range. Partial for the 2D solvers because of the code: the record closest to tmax is never used by plot of ns2d and sw1l (C109_last_record_violated) and a range with one record gives nan (C109_one_time_violated); the points of ns2d are drawn one or two wavenumbers too far (C109_abscissa_violated); the conversion of sw1l is shifted with respect to the fluxes of the same figure (C109_sw1l_conversion_violated) and its thin curves do not stop at the same record (C109_sw1l_thin_violated); in ns2d.strat the index of the truncation is always -1, because argmin is used without abs (C109_strat_dealiasing_violated), and the dissipation of the modes kx = 0 is not counted (C109_strat_zero_violated). Proved parts: C109_ns2d_partial, C109_conserved, C109_sw1l_partial, C109_modes_partial, C109_strat_partial. Not modelled: texts, colors, vertical lines, normalisation of ns2d.strat by the spatial means, online figures, exchange curves of sw1l; exact arithmetic."
 },
 "C11": {
  "status": "partial",
  "note": "Proved for ns2d, ns2d.with_uxuy, ns3d*; false for ns2d.bouss, ns2d.strat, sw1l, plate2d and the sphere solvers (violated theorems), with the strongest true version as _partial theorems."
 },
 "C110": {
  "status": "proved",
  "note": "One theorem per solver (C110_ns2d, C110_ns2d_strat, C110_ns2d_bouss, C110_with_uxuy, C110_ns3d, C110_ns3d_strat, C110_sw1l, C110_sw1l_modified, C110_plate2d, C110_burgers; C110_hypoviscosity for nu_m4). C110_real_iff_conjugate: real values on the grid and conjugate coefficients are the same; C110_half_spectrum: the stored half gives the field; C110_shifts: the phase shifts of the code meet the hypothesis. Exact arithmetic. The variables of sw1l.exactlin and of sw1l.onlywaves (ap_fft, am_fft) are not the coefficients of real fields and are not considered here (see C56, and C69_waves_hermitian_violated)."
 },
 "C111": {
  "status": "partial",
  "note": "C111_random, C111_tcrandom, C111_particular_k, C111_shell, C111_real_arrays, C111_ns2d (with C110), C111_projection. In 3D, where project_fft_on_realX is fft(ifft(f)), at the level of the wavevectors (the copy between the arrays is C26): C111_projection_fft, C111_tcrandom_3d, C111_shell_opposite, C111_projection_needed. Missing: several processes; and the property fails for negative rates: np.roots gives complex roots when the discriminant is negative and the force is multiplied by a complex number (C111_negative_rate_violated, C111_complex_coefficient, C111_not_real). For odd numbers of rows project_fft_on_realX does not give a real field (C111_projection_odd_violated; the coarse grids have even sizes)."
 },
 "C112": {
  "status": "partial",
  "note": "C112_<solver> state the smoothness for each solver, for any normed space of parameters; C112_continuity (epsilon-eta) and C112_sensitivity (limit of the difference quotients) are what a user sees, for any run with the property. C112_cfl_violated: with USE_CFL, the 2% hysteresis makes the fields after one step discontinuous (a decaying shear flow, all the schemes). C112_viscosity_*: the viscosities can also depend on the parameter (if they are not negative, C112_negative_viscosity_violated). C112_beta_ns2d, C112_N_ns2d_strat, C112_f_c2_sw1l, C112_f_c2_sw1l_modified, C112_f_ns3d and C112_f_N_ns3d_strat: so can beta, N, f and c2, including at the values zero where the code takes another path; C112_parameter_continuity and C112_parameter_sensitivity are the corresponding statements for a user. C112_hypoviscosity and C112_proportional (forces proportional to the state) for ns2d. Missing: burgers1d.skew_sym when aliased modes are kept, the Crank-Nicolson schemes of the finite-difference solvers, the sphere, the normalised forces (they depend on the state through the roots of a polynomial)."
 },
 "C12": {
  "status": "proved",
  "note": "Proved for arbitrary solvers and histories. C12_write_after_read_violated and C12_zeros_are_cached_violated show that the side conditions are needed."
 },
 "C15": {
  "status": "partial",
  "note": "Difference test: full. Floor test: first due call, no gap, count; 'different bins' is refuted (tolerance added on one side only) and proved under a side condition."
 },
 "C16": {
  "status": "partial",
  "note": "Full for all files written by SpecificOutput (also for crashes inside a save); refuted for time_signals_fft restarts and two corner cases of the probes, with partial theorems."
 },
 "C17": {
  "status": "partial",
  "note": "Never overwriting another iteration, distinct names and recovering the time are proved for all histories; the alphabetic order of names is proved for USE_T_END runs up to 10 t_end with saves separated by a thousandth (and width 7 up to t=999); three violations of the order are proved."
 },
 "C18": {
  "status": "partial",
  "note": "Selection by number, 'last', default and errors proved. 'default is the latest' only when names sort in time order (violation proved); update_times is current only when files are only added (violation proved)."
 },
 "C19": {
  "status": "partial",
  "note": "Exact linear interpolation inside the saved interval and at saved times; outside the interval the weights do not sum to one (violation proved)."
 },
 "C21": {
  "status": "partial",
  "note": "Sequential behaviour and no-loss proved for every file system; violations proved for concurrent moves, MPI ranks and textual prefix test."
 },
 "C22": {
  "status": "partial",
  "note": "Serial histories proved; five violations (second process, release by another process, SIGTERM, test-then-write race, lock moved with the directory) proved."
 },
 "C23": {
  "status": "partial",
  "note": "End time, start condition, exit code, directory choice proved; --it_end adds instead of sets (violation proved); the end check uses the rounded time of the name (violation proved)."
 },
 "C24": {
  "status": "partial",
  "note": "2D and mini-operator 3D: every common mode is copied for all sizes except that odd sizes lose the row -(n-1)/2 (C24_2d_odd_violated); 3D from a simulation: exact for upscaling, wrong for downscaling (C24_3d_downscaling_violated)"
 },
 "C25": {
  "status": "partial",
  "note": "all sizes; the orders (0,2,1) and (2,0,1) are refused by the code (C25_order_missing_violated)"
 },
 "C26": {
  "status": "partial",
  "note": "one process: full statement in 2D and 3D; several processes: 2D full, 3D for the storage orders and coarse sizes that the branch supports; three findings"
 },
 "C27": {
  "status": "partial",
  "note": "rank and local indices correct for wavenumbers of the grid; 2D does not check ky nor negative kx (violated theorems)"
 },
 "C28": {
  "status": "proved",
  "note": "project_perpk3d itself is in fluidfft: modelled by its documented effect (v minus project_kradial3d of v)"
 },
 "C29": {
  "status": "proved",
  "note": ""
 },
 "C30": {
  "status": "proved",
  "note": "K{n} and K{n}_not0 are arrays of fluidfft's operator: their meaning is the hypothesis Wavenumbers"
 },
 "C31": {
  "status": "partial",
  "note": "Rate proved for the 2nd degree equation (all options, several keys, ns2d and ns2d.strat energies) and for the particular-mode normalisation; minabs and positive select the documented root. The particular mode is always a forced mode (C31_particular_mode_forced). Findings: the last forced mode is never drawn and a single forced mode raises an exception (randint(0, n - 1)); first/second follow the undocumented order of np.roots, energyK with ap forced in ns2d.strat uses only part of the velocity, an unknown type is silently accepted. Kolmogorov flow with a constant rate: the array is normalised in place at each call; for minabs and positive the force still does not depend on the previous calls, up to the choice between two opposite factors for minabs (C31_kolmogorov_positive, C31_kolmogorov_minabs). Finding: with \"second\" the force changes sign from the first to the second call."
 },
 "C32": {
  "status": "proved",
  "note": "Exact increase rate*dt for every state with positive band energy (negative rates: as long as the energy to remove is available); only the band is forced."
 },
 "C33": {
  "status": "partial",
  "note": "At most one computation per time for every call sequence, and one at each time when times do not decrease; after the time is set back the forcing is stale (C33_time_set_back_violated)."
 },
 "C34": {
  "status": "partial",
  "note": "Convexity, end values, Lipschitz continuity across changes and exact restart proved; the restart claim is false if other code uses the generator, if the fields were saved before the last change, in a new directory, or after a crash while the file is written (violated theorems)."
 },
 "C35": {
  "status": "partial",
  "note": "Proved for all non-zero speeds and 0 < 2*length_acc <= length (also sinusoidal and uniform motions). The condition is not checked and the default parameters violate it: the location is then discontinuous (C35_default_parameters_violated)."
 },
 "C36": {
  "status": "partial",
  "note": "shell masks (2D and 3D) and the 2D anisotropic masks are exactly the documented sets; coverage by the coarse grid proved under conditions; findings: non-square domains cut the shell, modes of norm kmax on the axes, 1D Nyquist, 3D anisotropic mask removes the ky=-1 row, sectors crossing the horizontal, angle measured from the vertical; the figure of the anisotropic forcing (PropsPlot): the drawn rectangle or the drawn arcs and segments are the boundary of the region and the red points are the forced modes (2D), findings: delta_angle given as a text makes the function fail, mirrored modes are outside the axes, the wavenumbers of the title and the ticks use the vertical deltak"
 },
 "C37": {
  "status": "proved",
  "note": "for every grid, truncation (aliased or not), rotation, projection and admissible state; constancy along exact solutions, helicity without rotation, ns3d.strat and ns3d.bouss with alias-free truncation"
 },
 "C38": {
  "status": "proved",
  "note": "enstrophy, energy and mean vorticity, with beta, for alias-free truncations; the default 2/3 truncation is shown to be one"
 },
 "C39": {
  "status": "partial",
  "note": "round trips, eigenmodes, initialisation from q and from a proved; findings: mean eta lost by the conversion, init_from_qafft uses uxa for uy, mean velocity of the exactlin state wrong, inertial frequency has the wrong sign for f < 0"
 },
 "C40": {
  "status": "partial",
  "note": "eigenmodes, exact evolution and nonlinear wave solutions, initialisation from ap/am and energy exchange proved; finding: check_energy_conservation accepts any dissipative tendency (signed ratio)"
 },
 "C41": {
  "status": "partial",
  "note": "conservation proved when triads with two kept modes and any mode of chi are not aliased (coef_dealiasing <= 1/2); finding: with 2/3 it fails, since chi_fft is not truncated (rate 5 for an explicit state on a 10 x 10 grid)"
 },
 "C42": {
  "status": "partial",
  "note": "Fixed points, potential and its maximum, printed potentials and loading are proved; missing: rho < 1 is refused (C42_lorenz_rho_violated), the printed variation is not the one since the last print (C42_print_violated), load drops the last record (C42_load_violated)."
 },
 "C43": {
  "status": "partial",
  "note": "1D operators, Crank-Nicolson solvability, budget and convergence to the exact solution are proved; missing: the 2D operators (C43_2d_created_violated, C43_2d_pyy_violated, C43_2d_grid_violated)."
 },
 "C44": {
  "status": "partial",
  "note": "The damping never injects and is exact over whole runs; in 1D a simulation with nu_m4 different from 0 cannot be created (C44_hypo_1d_violated)."
 },
 "C45": {
  "status": "partial",
  "note": "Normalised energies proved for states without buoyancy; ns2d.strat states with buoyancy lose it (C45_energy_strat_violated); preprocessing sets the time of a restarted simulation back to 0 (C45_time_violated). Viscosities follow the units and put the Kolmogorov scale at the requested length (C45_units, C45_kolmogorov, C45_rate_units), except with the scale energy (C45_energy_units_violated) and with a forcing wavenumber 0 (C45_large_scale_violated)."
 },
 "C46": {
  "status": "partial",
  "note": "Means, histograms, extrema, horizontal means and fluxes proved for every distribution; means over regions only if x is not distributed (C46_region_violated)."
 },
 "C47": {
  "status": "partial",
  "note": "Never-extended classes are never modified; extending an extended class modifies it (C47_extended_class_violated)."
 },
 "C48": {
  "status": "partial",
  "note": "Separations fully proved for every nx; shells and slots of time_signals_fft only under the stated conditions (C48_shells_violated, C48_slots_violated)."
 },
 "C49": {
  "status": "partial",
  "note": "All texts HH:MM:SS of a time of the day; durations of 24 h or more are refused (violation proved). Unicode digits not modelled."
 },
 "C50": {
  "status": "partial",
  "note": "All failure patterns; an OSError without 'errno = ' becomes IndexError (violation proved)."
 },
 "C51": {
  "status": "partial",
  "note": "Energy conserved by both Burgers forms for truncations with 3|k|<nx; the code's skew form does not conserve the energy of aliased states (finding), its rate is a quarter of that of the convective form for every state. nl1d: energy never increases."
 },
 "C52": {
  "status": "partial",
  "note": "The term never injects energy (all grids, truncations, real fields; also inside ns3d), no mean force, Galilean invariant; it is exactly twice the documented term (finding)."
 },
 "C53": {
  "status": "partial",
  "note": "Proved for ns2d, ns2d.strat, ns3d, ns3d.bouss, sw1l and one-variable solvers; false for ns3d.strat, plate2d and ns3d with a turbulence model (violated theorems)."
 },
 "C54": {
  "status": "proved",
  "note": "for every real state and alias-free truncation"
 },
 "C55": {
  "status": "partial",
  "note": "holds for f = 0 or for the current state with f > 0; findings: global state used when f > 0, vorticity dropped when f < 0"
 },
 "C56": {
  "status": "proved",
  "note": "for states without mean q; for the mean mode f >= 0 is assumed (negative f: C39_inertial_violated)"
 },
 "C57": {
  "status": "partial",
  "note": "Exact Galerkin truncation proved for the quadratic solvers under the alias-free truncations; plate2d: only with a 1/2 truncation, and the 2/3 rule (default) is proved to leave aliasing of the cubic term. sw1l.modified: advection by the rotational part (C57_sw1l_modified); sw1l.exactlin.modified: the same equations on the global state (C57_sw1l_exactlin_modified_partial), but the vorticity used for intermediate Runge-Kutta states is the one of the global state (C57_sw1l_exactlin_modified_violated)."
 },
 "C58": {
  "status": "partial",
  "note": "Proved for ns2d and ns2d.strat, and for ns3d and ns3d.strat up to the hypo-dissipation, which the saved dissipation leaves out (C58_hypo_violated). With rotation the horizontal and vertical budgets do not close separately (C58_coriolis_violated; C58_ns3d_components_partial without rotation). The check made after each computation is one-sided. The distribution of modes over bins (fluidfft) is a contract; the budget of sw1l is not modelled. C58_strat_epsilon_partial and C58_strat_epsilon_violated: the dissipation rates saved with the budget of ns2d.strat (the width of the bins is missing)."
 },
 "C59": {
  "status": "partial",
  "note": "Proved for ns2d, ns3d, ns3d.strat, plate2d, sw1l.modified, and for ns2d.strat but the printed PA2 (C59_strat_PA2_violated). For sw1l the energies, the dissipations, PA and PK1 are exact (C59_sw1l_injection_partial); PK2 has half of the quadratic term (C59_sw1l_injection_violated); the kurtosis is right sequentially (C59_sw1l_kurtosis_partial) and local to a process with MPI (C59_sw1l_kurtosis_violated). The text format is C60; EKr of sw1l is modelled, without a theorem. Force used for the injection rates of the shallow-water solvers in other variables: sw1l.exactlin (C59_exactlin_injection_partial), vorticity and divergence (C59_rotdiv_force), sw1l.onlywaves (C59_onlywaves_force_partial); not true of the code: for sw1l.onlywaves the divergent part of the force is dropped, so that the saved injection rates can be zero although the force gives energy (C59_onlywaves_injection_violated)."
 },
 "C60": {
  "status": "partial",
  "note": "The round trip holds for every sequence of complete records with the same options (C60_round_trip) and the first and last times are right (C60_time_first, C60_time_last, C60_time_last_short, C60_json_time_first). An interruption between two lines is harmless only for ns3d and ns3d.strat with a complete record before and no restart after (C60_incomplete_partial; C60_incomplete_violated, C60_first_record_violated, C60_crash_restart_violated); an interruption inside a number gives a wrong number (C60_cut_number_violated); adding nu_4 at a restart makes load fail or shift the arrays (C60_nu4_restart_violated, C60_nu4_restart_shift_violated); time_first_saved loops for ever without time in the file; time_last_saved of the JSON file fails when the record is longer than 1000 bytes, which is usual for the forced sw1l (C60_json_time_last_partial, C60_sw1l_time_last_violated); the time means use records out of the interval after a restart from an earlier time (C60_time_means_restart_violated). Formatting and parsing of one number, and json.dumps/loads, are contracts (NumOk, JsonOk). pd.read_json and load_dataset are not modelled."
 },
 "C61": {
  "status": "partial",
  "note": "Proved: one process (C61_one_process), the two main files over restarts and kills (C61_restarts, C61_kills), the relations between the spectra and the energy (C61_spectra_relations), the means with increasing times (C61_mean_*), the isotropy coefficient and the length scales. Not true of the code: the cadence of the (kz, kh) spectra is shifted by each restart (C61_kzkh_cadence_violated; exact description in C61_kzkh_cadence_partial); enabling kzkh_periodicity at a restart makes the simulation raise (C61_enable_at_restart_violated); a kill between the creations of the files makes every restart raise (C61_kill_at_creation_violated); Khr and Khd of ns3d are not loaded by load1d_mean and load3d_mean, and load_kzkh_mean() without key loads no spectrum (C61_loaded_ns3d_violated, C61_loaded_kzkh_violated); the means after a restart from an earlier time (C61_mean_restart_violated). fluidfft's mode-to-bin function is a contract (IsSpectrum). Cross-correlations (cross_corr3d.py): pairs of variables, names, totals, relation to the energy spectra, bound in each bin (C61_cross_*)."
 },
 "C62": {
  "status": "partial",
  "note": "Proved: placement of the modes (C62_placement, C62_no_empty_cell), loading from the start (C62_load_from_start) and for regular files (C62_load_partial), Parseval for the first spectrum (C62_parseval), folding for an odd number of times, sums over the Fourier space (C62_temporal_sum), (kz, kh) bins (C62_kzkh_*), empirical frequency (C62_omega_emp, C62_delta_omega). Not true of the code: files of unequal duration (C62_load_violated, C62_load_error_violated), axis orders which are cyclic permutations (C62_axes_violated), temporal_spectra with a tmax before the last file or processes with fewer files (C62_temporal_tmax_violated, C62_temporal_files_violated), a second spectrum with another number of times (C62_normalisation_violated), the Nyquist frequency for an even number of times (C62_onesided_violated, C62_frequencies_violated), compute_temporal_spectra when Lx is not 2 pi (C62_temporal_compute_violated), files found without dtype (C62_path_violated), times in single precision (C62_single_precision_violated). The Fourier transform of scipy.signal.periodogram is a contract (dft, periodogram). Toroidal and poloidal spectra (C62_urud, C62_kinetic_energy), figures (C62_plot_*, C62_resonant, C62_compensated), reuse of saved spectra (C62_reuse_partial); not true of the code: plot_kzkhomega with plot_omega_emp at constant frequency (C62_plot_omega_violated), default tmin without saved spectra (C62_default_tmin_violated), stale temporal spectra (C62_reuse_violated). Files of the temporal spectra: different requests have different files (C62_temporal_file_names) and every sequence of plot_spectra, save_spectra and load_spectra gives each call the spectra of its own request (C62_temporal_requests); figure of the temporal spectra (C62_tplot_key, C62_tplot_strat); not true of the code: with a stratification the argument key is ignored, even an unknown key (C62_tplot_key_violated, C62_tplot_unknown_key_violated)."
 },
 "C63": {
  "status": "partial",
  "note": "Proved: positions of the objects (C63_objects), solid field inside and outside of the objects and of all their periodic images (C63_solid_inside, C63_solid_outside) for the uniform motion and for motions of length at most 2 Lx (C63_solid_motion), relaxation without overshoot (C63_relaxation, C63_relaxation_y, C63_watu_relaxation), Taylor-Green force in domains with Lx = Ly, modes of the Kolmogorov flow and its velocity in ns2d, signals and masks of the wave makers. Not true of the code: motions longer than 2 Lx (C63_solid_long_violated), decay announced in the comment (C63_decay_violated), vertical component (C63_force_z_violated), y component in the vorticity solvers (C63_force_ns2d_violated), ny of the coarse grid (C63_coarse_violated), divergence when Lx differs from Ly, gradient along the own direction of the component, normalised Kolmogorov flow with ik above the size of the coarse grid, signals left by another simulation."
 },
 "C64": {
  "status": "partial",
  "note": "Proved for every draw: C64_cutoff, C64_noise_ns2d, C64_noise_ns2d_modes, C64_noise_ns3d (maximum, divergence, mean, truncation); other types and files with the names of the axes. Not true of the code: default lengths, maximum of w in plate2d, truncation of the buoyancy in ns3d, constant in ns2d, cosine in the pseudo-spectral ad1d, amplitude of the wave of sw1l, linear modes outside of the square of side min(nkx, nky), 3D files without axes. Missing: the noise of sw1l, the spectra of init_fields, the manual type."
 },
 "C65": {
  "status": "partial",
  "note": "Proved: C65_files_partial and C65_files_agree (all histories), C65_load_means, C65_plot_rows, C65_curves_step, C65_sw1l_select, C65_ns2d, C65_ns2dstrat, C65_plate2d, C65_msw, C65_sw1l, C65_sw1l_linear. Not true of the code: a kill between the creations of the two files, wavenumbers along ky, files with one record, the last record of plot, keys of plot, odd numbers of points, plate at rest, two viscosities in plot_diss, mean mode in the linear spectra, halves of compute_qda_energies_fft. Missing: online plots, movies of the spectra, the Ertel potential enstrophy; fluidfft's binning is a contract."
 },
 "C66": {
  "status": "partial",
  "note": "Proved: C66_load_partial (all logs over restarts), C66_load_cut (every cut of the last message), C66_duration_text (all durations), C66_times_partial, C66_estimates, C66_clock_partial (recovered clock time within the rounding), C66_start_last_partial, C66_start_last_saved, C66_last_duration, C66_no_duration_partial. Not true of the code: the last information is never loaded, energies shifted with respect to the times after an interrupted information and a restart, UnboundLocalError of _load_times for simulations with it_end, zero clock time when two printed times are equal, times_start_last_from_path returning the first time as last one or never returning. The formatting of numbers is a contract; models0d are not modelled. Figure of the clock times (PropsPlot): C66_plot_clock_partial; findings C66_plot_mean_violated (the printed mean is over the lines of the log), C66_plot_short_violated (IndexError for one estimate of zero seconds)."
 },
 "C67": {
  "status": "partial",
  "note": "Proved: C67_pdf, C67_pdf_empty, C67_structure_error (all orders), C67_record, C67_load_one, C67_load_mean_partial (same ranges), C67_load_empty, C67_pdf_u_partial, C67_sw1l_structure_partial. Not true of the code: the pdf averaged over records of different ranges is not normalised (the integral is unbounded), pdf_u with MPI uses the mean of each process, the structure functions of sw1l with MPI only contain the lines of the first process. Figures (PropsPlot): C67_plot_partial (abscissas, ordinates up to the width of the bins, flatness at least one), C67_plot_units, C67_flatness, C67_plot_pdf, C67_plot_sw1l_partial, C67_plot_kolmo. Not true of the code: plot with one record raises, the flatness over records of different ranges can be smaller than one, plot_pdf with more than seven densities raises and repeats densities if there are fewer separations, plot of sw1l with one record and delta_t=0 divides by zero, the curves of plot_Kolmo compared to one are not divided by the rate of energy. Figure of the probability density functions (C67_figure_curve, C67_figure_partial: two records or more, delta_t not negative, tmin before tmax); not true of the code: plot(delta_t=0) with one record raises (C67_figure_one_record_violated), the online figure is shifted by half a bin (C67_online_figure_violated)."
 },
 "C68": {
  "status": "partial",
  "note": "Proved: C68_range, C68_range_numbers, C68_range_error, C68_names, C68_no_cache, C68_cache_partial (every history without kill during a write, ranges which are over), C68_appended, C68_dataframe, C68_isotropy, C68_isotropy_values, C68_records, C68_dissipation_range_partial. Not true of the code: a numeric tmax after the last saved time leaves an old result in the cache; two customize functions with the same source share an entry; a call killed while writing, or an unserialisable result, makes all later calls raise JSONDecodeError; I_dissipation ignores tmax; it is not 1 for a symmetric spectrum with nu_4 and is not finite with only nu_8."
 },
 "C69": {
  "status": "partial",
  "note": "Proved: C69_advection, C69_waves_step, C69_conversions, C69_velocity, C69_units_partial (sigma = 0), C69_dispersion. Not true of the code: waves2d leaves f constant and turns g instead of solving the documented equations, and breaks the symmetry of the stored modes of real fields; the unit of displacement of the converter uses 6 (1 - sigma) instead of 6 (1 - sigma^2), so that converted solutions are not solutions for sigma /= 0; the dispersion relation is omega = sqrt(C) k^2."
 },
 "C70": {
  "status": "partial",
  "note": "Proved: C70_index, C70_value_partial (operators of a running simulation), C70_value_exact, C70_value_distance, C70_state_file, C70_axes, C70_refused, C70_last_call, C70_coarse_index, C70_first_frame, C70_key, C70_plot, C70_plot2d_time, C70_plot_default, C70_plot_mean_partial (distinct times), C70_plot_mean_default, C70_plot_mean_empty. Not true of the code: with load_sim_for_plot all the coordinates are multiplied by n / (n - 1) and a section by coordinate can be another plane; a refused equation stays in the object; plot(array) always raises ValueError; the online plot of the solvers in space always fails; plot_mean reads the first of two files of the same thousandth twice; before the first file a constant field is shown multiplied by a factor."
 },
 "C71": {
  "status": "partial",
  "note": "Proved: C71_times, C71_default, C71_one_file, C71_refused, C71_spectra, C71_frame, C71_repeat, C71_player, C71_play, C71_wrap, C71_one_step, C71_arrows, C71_quiver. Not true of the code: the final time is never shown; irregular files can be refused with the default step; repeat=True does not loop; one saved spectrum gives an empty movie and ZeroDivisionError; movies of loaded one-dimensional simulations are empty or refused; normalize_vectors is ignored on the first frame by default and forced on the following ones; step >= 2 with vectors raises ValueError. Not modelled: matplotlib (the figures, the timer and the call of the generator for the first drawing)."
 },
 "C72": {
  "status": "partial",
  "note": "Proved: C72_grid, C72_deltak, C72_waves, C72_angle, C72_range, C72_resolved, C72_viscosity, C72_viscosity4, C72_viscosity4_auto, C72_deltat, C72_arguments, C72_refused, C72_modify, C72_default, C72_projection, C72_dry_run, for every rounding which meets the contract of round(x, 3). Not true of the code: coef_nu4 = 0 raises ZeroDivisionError; the forced range is not limited to the dealiased modes (C72_truncated_violated). Not modelled: argparse, the text of the numbers in the name of the run."
 },
 "C73": {
  "status": "partial",
  "note": "Proved: C73_waves, C73_waves_ageostrophic, C73_waves_none, C73_potential, C73_potential_key, C73_waves_vortices_partial (f = 0 or wavenumbers with opposite components), C73_waves_vortices_keys, C73_types, C73_complete, C73_default_keys. Not true of the code: waves_vortices injects more than the rate with rotation (C73_waves_vortices_violated, through init_from_qafft); the tcrandom and proportional classes of sw1l which force q_fft are never used (C73_geostrophic_default_violated). Pairs of complex roots (negative rates) are outside the model."
 },
 "C74": {
  "status": "partial",
  "note": "Proved: C74_normal_modes, C74_groups_partial, C74_conservative, C74_exchanges, C74_group_matrix and C74_group_tables (the grouping of the interactions), C74_enstrophy (transfer of enstrophy), C74_budget_partial (sw1l, mean-free flows without dissipation, with the exact term the budget omits), C74_msw_kinetic, C74_msw_potential, C74_msw_conservative, C74_msw_enstrophy_partial (flows without divergence), C74_modified_groups, C74_plot_partial, C74_plot_nearest. Not true of the code: the products of a geostrophic mode with two different waves are put in the group of equal waves (C74_groups_violated); the nonquadratic transfer of sw1l has the advection of eta*u instead of eta times the advection of u, so the budget does not balance (C74_budget_violated, 3/32 missing for ux = cos x, eta = sin x); the mean of the plots leaves out the last record, and is over no record when tmin = tmax (C74_plot_violated)."
 },
 "C75": {
  "status": "partial",
  "note": "Proved: C75_correl2, C75_processes, C75_indices, C75_windows, C75_history, C75_restart, C75_symmetric, C75_scale, C75_corr2_bound, C75_run_signals, C75_run_corr2_bound, C75_pick, C75_window, C75_plot_corr4_iff. Partial because not true of the code: for an even number of times (default 100) and w3 + w4 - w1 above the largest frequency the index is wrong by one (C75_correl4_partial, C75_correl4_shifted, C75_correl4_violated, C75_plate_partial, C75_corr_norm_partial); the Gaussian part is wrong for w3 + w4 < w1 (C75_cumulant_partial, C75_cumulant_violated); a period different from 1 gives wrong frequencies (C75_frequencies_partial, C75_frequencies_violated); the decimated points depend on the processes (C75_points_partial, C75_points_violated); the online plot needs two frequencies (C75_online_plot_*), plot_corr4 fails with five (C75_plot_corr4_*)."
 },
 "C76": {
  "status": "partial",
  "note": "Proved: C76_keys_vectors, C76_key_scalar, C76_default_plane, C76_cut_z, C76_cut_z_box, C76_same_points, C76_edges_box, C76_edges_shared, C76_extrema, C76_cursor, C76_cursor_cell, C76_approx_sorted, C76_movie_arrows. Partial because not true of the code: vertical cuts always show the first layer of the elements (C76_cut_vertical_first_layer, C76_cut_vertical_violated); the arrows start at the height of the left end (C76_arrows_partial, C76_arrows_none, C76_arrows_violated); equations with spaces (C76_axes_partial, C76_equation_spaces_violated); abbreviated keys in movies (C76_movie_variable_partial/_violated); time and arrows of interpolated fields (C76_interpolated_partial, C76_interpolated_time_violated, C76_movie_arrows_violated); update_times compares only the numbers of files (C76_update_times_partial/_violated)."
 },
 "C77": {
  "status": "partial",
  "note": "Proved: C77_history_partial (all but onlywaves), C77_sw1l, C77_ns2d, C77_strat_waves, C77_ns3d, C77_poltor, C77_plate2d_partial, C77_announced, C77_announced_3d, C77_announced_plate. Partial because not true of the code: sw1l.exactlin with a mean flow (C77_exactlin_partial, C77_exactlin_mean_a_violated); uy_fft of sw1l.onlywaves raises unless ux_fft was read before (C77_onlywaves_partial, C77_onlywaves_uy_violated); sw1l.modified computes rot and div with ux in the place of uy (C77_modified_partial, C77_modified_rot_violated; the array feeds the enstrophy and the Ertel potential vorticity of its outputs); has_vars answers no for readable variables (C77_announced_violated). In plate2d lapz_fft is the bilaplacian (C77_plate2d_lapz_violated). The normal modes (C77_exactlin_modes, C77_onlywaves_modes) and C77_strat_announces_all hold; the mean velocity of the two solvers is wrong (C77_mean_velocity_violated)."
 },
 "C78": {
  "status": "partial",
  "note": "Proved: C78_describes, C78_vectors_3d, C78_no_file. Partial because not true of the code: in two dimensions each vector refers to a third component which does not exist (C78_vectors_2d_violated); one-dimensional simulations always raise UnboundLocalError (C78_1d_violated); the grids follow the order of the names, not of the times (C78_time_order_violated); the geometry of all files is the one of the first (C78_resolution_violated). The text around the values is not modelled."
 },
 "C79": {
  "status": "partial",
  "note": "Proved: C79_2d, C79_3d (even numbers of points along y and z, any number along x), C79_same_values, C79_mean, C79_directories. Partial because the modes at the Nyquist wavenumber are not conserved (C79_nyquist_violated) and, for odd numbers of points along y or z, the row -(n-1)/2 is lost (C24_2d_odd_violated). The transforms of FFTW are represented by their definition. A file for the same grid is unchanged, Nyquist modes included (C79_same_grid, 2D); C79_complete, C79_new_size."
 },
 "C80": {
  "status": "partial",
  "note": "Proved: C80_round_trip, C80_spectral_state, C80_other_grid, C80_parallel. Partial because not true of the code: a missing variable is silently zero (C80_missing_variable_violated); files without attribute axes are checked along x and y only (C80_legacy_violated). gather_Xspace and scatter_Xspace (fluidfft) are contracts. Old files: C80_old_file, C80_missing_size, C80_time. The deadlock is modelled in C86."
 },
 "C81": {
  "status": "partial",
  "note": "Proved: C81_limits, C81_limits_grid, C81_number_of_limits, C81_lines_partial (x axis not split, at least two planes), C81_budget_partial, C81_injection, C81_whole_domain, C81_pressure_partial (no rotation), C81_vertical_force, C81_file, C81_other_limits. Not true of the code: without forcing nothing can be saved (C81_no_forcing_violated); with rotation the pressure of the Coriolis force is missing (C81_rotation_violated); a limit at the end of the domain is one grid step before it (C81_last_limit_violated); a restart repeats a line (C81_restart_violated). The continuous theorem (divergence theorem) behind the surface fluxes is not modelled. With N = 0 nothing can be saved (C81_N_zero_violated)."
 },
 "C82": {
  "status": "partial",
  "note": "Proved: C82_files, C82_restart (fixed time step), C82_periodic (the spectral state is recovered exactly from the saved fields for all real truncated states, any grid and dimension, all the deterministic schemes). With the CFL condition: C82_restart_cfl_partial (same run when the first increment is the same) and C82_cfl_close_partial (it differs by 4 % at most); not true in general: the time step in use is not saved, C82_cfl_violated. The schemes with random phase shifts are excluded; forcings are functions of the time and of the state (tcrandom is C34); the file is exact (C80, floats idealised)."
 },
 "C83": {
  "status": "partial",
  "note": "Proved: C83_euler, C83_rk2, C83_rk2_trapezoid, C83_rk4, C83_phaseshift_dealiased, C83_phaseshift_exact, C83_phaseshift_no_aliasing; the orders are exact: C83_orders_sharp, C83_phaseshift_aliasing_sharp; constant forces: C83_constant_force. Findings: with a force which depends on the time or on the state the orders 2 and 4 are lost, because the force is computed once per time step (C83_forced_order_violated; C83_forced_partial gives the order 1), and with the phase shifts the force is divided by the shift, so that the simulation does not converge to the solution with this force (C83_phaseshift_force_violated; C83_phaseshift_force gives the limit). Missing: real and complex numbers instead of floats; the existence of the solution is an hypothesis here (see C87). With perturbations of the initial state and of each step (rounding errors): C83_rounding_errors, the error is bounded by C (ε0 + h^p + ε/hmin)."
 },
 "C84": {
  "status": "partial",
  "note": "Proved: C84_box_2d, C84_args, C84_args_shape, C84_dim_of_class, C84_weak_2d, C84_weak_errors, C84_strong, C84_profile_kind_le, C84_pie. Not true of the code: cubes in 3D (C84_box_3d_iff), shapes in 3D for the weak scaling (C84_weak_3d_violated: the third number is lost), results of one solver only (C84_load_iff, C84_load_other_violated, C84_load_short_name_violated), efficiency of the weak scaling (C84_weak_efficiency_iff), several directories (C84_dirs_violated), sum of the kinds (C84_profile_total_violated), functions of the same name (C84_pie_names_violated), solvers on the sphere (C84_dim_sphere_violated). Not modelled: the grouping of repeated measures by quantiles, the text printed, the figures; logarithms and times are exact. Also C84_load_package, C84_load_package_only, C84_profile_fft; the full name of the module of a solver loads nothing (C84_load_module_violated)."
 },
 "C85": {
  "status": "partial",
  "note": "Proved: C85_append_only, C85_records, C85_no_save, C85_load_for_plot, C85_load_state. Not true of the code: a directory outside FLUIDSIM_PATH loaded with load_state_phys_file, without saving, and advanced is moved at the end (C85_loaded_directory_moved_violated; C85_no_save_end_partial says when it is not), and load_state_phys_file with modif_save_params=False adds records as soon as the simulation is loaded (C85_load_state_writes_violated). Not modelled: merge_missing_params and fix_old_params (C14), the release of the lock (C22), the caches written by calls of the user (C68), what the records contain. Also C85_restart_params, C85_state_params, C85_plot_params (the parameters of the loaded simulations), C85_missing_directory, C85_continued_directory, C85_new_directory (the files of a launch), C85_last_records."
 },
 "C86": {
  "status": "partial",
  "note": "Proved for every number of processes and every interleaving: C86_mean_space, C86_hmean, C86_collect_modes, C86_put_coarse, C86_where, C86_where_memories, C86_coarse_seq3, C86_time_loop, C86_time_loop_it, C86_save, C86_save_files (the directory at the end), C86_reduce, C86_time_increment (the one of C03), C86_probes_files, C86_from_file, C86_forcing_init, C86_output_init, C86_load_for_restart, C86_nan_none, C86_probes_restart, C86_probes_values, C86_move_completes. Not true of the code: an error found by process 0 only (state file, number of forced modes, directory of the run, files of the parameters) or a nan in the part of one process leaves the others waiting for ever (C86_from_file_violated, C86_forcing_init_violated, C86_output_init_violated, C86_load_for_restart_violated, C86_nan_violated; an exception ends its process only, without mpi4py.run); a process which lists the directory of the probes late silently has no probes (C86_probes_violated); a process which looks late for the name of the final directory has another one (C86_move_violated). Not modelled: the transforms, the parallel HDF5 files, the first file of the time signals and of the increments."
 },
 "C87": {
  "status": "partial",
  "note": "Proved: C87_ns2d, C87_ns2d_default, C87_ns2d_strat, C87_ns2d_bouss, C87_ns3d, C87_ns3d_strat, C87_burgers (both forms), C87_sw1l_modified, C87_plate2d (coef_dealiasing <= 1/2), C87_admissible_default, C87_force_order: existence and uniqueness of the solution of the truncated documented equations on every interval and convergence of the simulations with the orders of the schemes; C87_sw1l_exists, C87_sw1l, C87_sw1l_exactlin: existence for a short time, uniqueness and convergence as long as the solution exists; with forces which depend on the time: C87_ns2d_time_partial, C87_ns2d_strat_time_partial, C87_ns3d_time_partial (order 1 only, see C83_forced_order_violated). Missing: hypo-viscosity (nu_m4), no_vz_kz0 with stratification, the phase-shift schemes, the other solvers, forces which depend on the state, rounding errors. With rounding errors: C87_ns2d_rounding, C87_ns2d_strat_rounding, C87_sw1l_rounding (the sizes of the errors of the steps are hypotheses)."
 },
 "C88": {
  "status": "partial",
  "note": "Proved: C88_ns3d (from the state to the energies, the Kolmogorov length and the part of the viscosity), C88_strat_numbers and C88_strat_state (Fh, R2, R4, R8, Gamma), C88_dimensionless (independence of the units, same errors), C88_average_partial, C88_k_max_partial. For ns2d.strat with an anisotropic forcing (PropsOmegas): C88_omegas (F and gamma from the angle, N, the injection rate and the length of the force), C88_omegas_units, C88_froude_waves, C88_omegas_errors, C88_omegas_absent. Findings: a force on the buoyancy makes the construction fail (C88_omegas_buoyancy_violated); one record at rest makes the averages nan (C88_average_rest_violated); k_max is the largest wavenumber along z only (C88_k_max_violated). Rounding and the selection of the records (C68) are elsewhere or not modelled."
 },
 "C89": {
  "status": "partial",
  "note": "Proved: C89_rounding (the model of the rounding is the nearest float, ties to even), C89_clock_monotone, C89_clock_drift, C89_ends, C89_steps_partial (the number of steps differs by at most one from the exact one), C89_floorDiv (the Python operator // is the exact floor), C89_tolerance_lost, C89_floor_test, C89_floor_bins (one save per period from t = 16), C89_diff_test, C89_diff_saves, C89_sum, C89_sum_order, C89_mean, C89_aliased, C89_aliased_iff, C89_spherical_two_thirds (the spherical truncation in floats removes all the modes from nx/3), C89_spherical. Findings: with deltat0 = 0.1 and t_end = 1 the run makes 11 steps (C89_steps_violated); with period_save = 1 the steps 10 and 11 both save and later saves are one step late (C89_floor_steps_violated); with period_save = 0.3 the saves are made at the steps 3, 7, 11, 14 (C89_diff_steps_violated); increments below half a unit in the last place never end (C89_stuck_violated); the means depend on the number of processes (C89_sum_violated). the modes on the sphere of radius nx/3 outside the axes (C89_spherical_violated) and the mode nx/3 in 1d (C89_1d_violated) are removed or kept depending on the size of the domain. Overflow and nan are not modelled. C89_tolerance: the tolerance of the outputs for small times."
 },
 "C90": {
  "status": "partial",
  "note": "Proved: C90_same_flow, C90_same_vorticity (all schemes, all steps), C90_incompressible, C90_mean_flow, C90_equation, C90_momentum, C90_energy (energy and enstrophy, with a mean flow), C90_converges (existence, uniqueness and order of convergence), C90_energy_fft. Findings: the initial velocity is not projected (C90_initial_divergence_violated); a gradient force changes the flow with a scheme of several stages, because the states inside a step are not projected (C90_gradient_force_violated). The force is constant in time in the runs; convergence with a mean flow is not proved."
 },
 "C91": {
  "status": "partial",
  "note": "Proved: C91_created_2d, C91_removed_2d, C91_created_3d_partial (integer sizes), C91_removed_3d, C91_no_shear_2d, C91_no_ky0, C91_no_shear_velocity, C91_no_shear_3d (every scheme, every step), C91_real, C91_conservation_2d. Findings: in 3D a non-integer number of points is silently truncated (C91_sizes_3d_violated); in 2D the options have no effect when fluidfft has nothing to truncate (C91_not_applied_violated). The truncation of fluidfft and its attribute _has_to_dealiase are arbitrary; sizes are positive; the initial state (before the first step) is not considered."
 },
 "C92": {
  "status": "partial",
  "note": "Proved: C92_window_size, C92_windows, C92_total, C92_shell_total, C92_peak, C92_defined, C92_calls, C92_call_iff. Findings: the frequencies are too large by the factor nt/(nt-1) (C92_frequency_violated); all spectra are zero with 3 to 39 times and nan with 2 (C92_short_violated); a second call fails once the number of times has doubled (C92_second_call_violated). Real numbers instead of floats; the transform of fluiddyn is taken as the discrete Fourier transform divided by the number of points."
 },
 "C93": {
  "status": "partial",
  "note": "Proved: C93_positions, C93_values, C93_arrays_partial (increasing times, two probes at least in each direction, a positive time), C93_names, C93_complete. Findings: with the default region the last cells are never written (C93_default_region_violated); one probe in a direction (C93_one_probe_violated), two equal times (C93_equal_times_violated) or only the initial time (C93_initial_violated) give an exception; times nearer than a thousandth overwrite each other (C93_names_violated). Exact arithmetic on rational numbers; three dimensions."
 },
 "C94": {
  "status": "partial",
  "note": "Proved: C94_velocity, C94_roundtrip, C94_ns2d_equation, C94_enstrophy, C94_energy, C94_printed_sum, C94_low_modes, C94_angular_momentum, C94_sw1l_momentum, C94_divrot, C94_sw1l_continuity, C94_sw1l_means, C94_mass, C94_init. Findings: sphere.ns2d ignores params.oper.omega (C94_rotation_violated); sphere.sw1l initialised with unresolved fields keeps them in physical space (C94_init_violated). The library fluidsht is modelled by what it computes (exact transforms and derivatives); runs without forcing; the energy of sphere.sw1l is not treated (the truncation does not conserve it)."
 },
 "C95": {
  "status": "partial",
  "note": "Proved: C95_transformed (meaning of the transformation), C95_ns2d, C95_ns2d_strat, C95_ns3d, C95_ns3d_strat, C95_sw1l, C95_sw1l_modified, C95_plate2d (coef_dealiasing <= 1/2) with given time steps; with the time steps chosen by the CFL condition (one process, the new origin being a point of the grid): C95_ns2d_cfl, C95_ns2d_strat_cfl (without forcing), C95_ns3d_cfl, C95_ns3d_strat_cfl, and C95_cfl_exists, C95_cfl_exists_ns3d (such runs exist). Findings: without a truncation which removes the aliasing, a shift by half a mesh changes the result (C95_aliasing_violated); the limit on the time step which ns2d.strat computes from the forcing rate is not a time (C95_strat_forcing_violated). Missing: sw1l.exactlin; the CFL condition of sw1l; hypo-viscosity of plate2d."
 },
 "C96": {
  "status": "partial",
  "note": "Proved: C96_horizontal (ns3d / ns2d, projection none or toroidal), C96_vertical (ns3d.strat / ns2d.strat), C96_no_buoyancy_3d, C96_no_buoyancy_2d. Finding: with a mean buoyancy, ns3d.strat accelerates a mean vertical velocity which does not exist in ns2d.strat (C96_mean_buoyancy_violated). Missing: flows with a mean velocity, the choice of the time steps by the CFL condition."
 },
 "C97": {
  "status": "partial",
  "note": "Proved: C97_number, C97_integer, C97_distinct, C97_ns3d_strat, C97_loaded, C97_solver_first, C97_coarse, C97_coarse_1d. Findings: values below 0.0005 are all written 0 (C97_hidden_violated); the loaded name loses the day after a move with a suffix (C97_suffix_violated) and contains slashes for a renamed directory given as a text (C97_renamed_violated); spaces in the names of forced runs of plate2d (C97_spaces_violated); the text of the finite differences in two dimensions is in the wrong order (C97_fd2d_violated). Missing: the texts of the format g and of the operators of fluidfft."
 },
 "C98": {
  "status": "partial",
  "note": "Proved: C98_image (meaning of the image), C98_truncation (the box truncation has the symmetries), C98_ns2d, C98_ns2d_strat, C98_ns3d, C98_ns3d_strat, C98_sw1l, C98_sw1l_modified, C98_plate2d (coef_dealiasing <= 1/2; also the plate turned over), C98_plate2d_kept, C98_kept, C98_kept_ns2d; with the time steps chosen by the CFL condition (one process): C98_ns2d_cfl, C98_ns2d_strat_cfl, C98_ns3d_cfl, C98_ns3d_strat_cfl, C98_limits; C98_beta and C98_coriolis show that the hypotheses on beta and on the Coriolis force are necessary. Missing: rounding errors; runs with aliasing; modes of the Nyquist frequency (initial fields and forces without removed modes); sw1l.exactlin; the CFL condition of sw1l."
 },
 "C99": {
  "status": "partial",
  "note": "Proved: C99_key, C99_key_full, C99_key_unknown, C99_key_order, C99_pyproject_one, C99_dir, C99_dir_again, C99_dir_home, C99_imported (the classes which are imported), C99_classes_partial (with extenders which forget the dictionary kept when they change the classes), C99_extenders (the extenders of the repository do), C99_classes_again, C99_replace_turb, C99_info, C99_order, C99_ok_iff, C99_enabled, C99_task_iff. Findings: C99_subsolvers_violated (the solvers of the subpackages, as ns3d.strat, are refused by key), C99_replace_violated (an extender which replaces a class of the solver has no effect). Missing: the import of the modules, the type of params, ~name in the paths, the content of the objects (in the other properties)."
 }
}
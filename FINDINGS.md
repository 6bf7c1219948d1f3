# Findings

Statements a user would expect, which are false of the code as it is. Each one is the negation
of the natural property, proved with a concrete witness; the strongest version found to be true
is proved beside it. This file is generated by `tools/mkfindings.py` from the comments of the
theorems.

* `C03_cfl_U_negative_violated` (`lean/Verif/Cfl/Props.lean`): **C03** (finding) With a negative constant velocity `params.U` (ad1d) the CFL condition is ignored: the code forgets the absolute value (base.py:423-424), so the bound fails.
* `C03_nb_procs_violated` (`lean/Verif/Cfl/PropsStrat.lean`): **C03** (finding) The time increment depends on the number of processes for the same fields, because each process adds its own maxima before the reduction: with `ux` large at one point and `uy` large at another one, the increment with two processes is twice the one with one process, so that the two simulations do not take the same time steps.
* `C03_strat_rate_zero_violated` (`lean/Verif/Cfl/PropsStrat.lean`): **C03** (finding) `ns2d.strat` with the forcing enabled and `forcing_rate = 0` cannot be initialised, even with `USE_CFL = False`: the limit related to the forcing is a division by 0.
* `C03_wave_limit_violated` (`lean/Verif/Cfl/Props.lean`): **C03** (finding) The wave limit `0.78 π / freq_max` computed for solvers with `compute_freq_complex` is not respected by `deltat_max` once the object is initialised: it is overwritten by `params.deltat_max` (base.py:297).
* `C04_phaseshift_inplace_schemes_violated` (`lean/Verif/Schemes/Props.lean`): **C04** (finding) Without this hypothesis the documented formula is false: the two schemes use the in-place tendencies.
* `C06_modified_deltat_violated` (`lean/Verif/Schemes/Props.lean`): **C06** (finding) With USE_CFL = False, setting `sim.time_stepping.deltat` after the construction leaves the coefficients of the old increment in use.
* `C07_1d_truncation_violated` (`lean/Verif/Fourier/Props.lean`): **C07** (finding) The mask of the 1D operator keeps `|k| = nx/3` (`>` instead of `>=`): for the default `nx = 48` the kept modes 16 and 16 alias onto the kept mode -16.
* `C07_spherical_anisotropic_violated` (`lean/Verif/Fourier/Props.lean`): **C07** (finding) The condition on the other directions is needed: `kmax` is computed from the direction x only, so with 48 × 24 points on a square the spherical truncation removes no aliasing in y.
* `C08_no_multiple_aliases_violated` (`lean/Verif/Fourier/Props.lean`): **C08** (finding) `truncation_shape = "no_multiple_aliases"` (with `coef_dealiasing` not set) does not remove all the multiple aliases: with 16 × 16 points the kept modes (7, 5) and (5, 7) alias onto the kept mode (-4, -4), in both directions, also with the phase shift.
* `C09_mpi_ranks_violated` (`lean/Verif/PhasePool/Props.lean`): **C09** (finding: MPI) Two processes that hold parts of the same fields use different shifts unless their generators happen to give the same numbers: nothing in the code makes the draws common.
* `C100_enstrophy_violated` (`lean/Verif/BudgetCurves/Props.lean`): C100, what is not right: `plot_dt_enstrophy` fails for all the simulations without forcing (an unbound local variable).
* `C100_rates_mean_violated` (`lean/Verif/BudgetCurves/Props.lean`): C100 (sw1l), what is not right: the number in the legend is the mean of the absolute values, not the average of the time derivative: for an energy which comes back to its initial value, the average derivative is 0.
* `C100_rates_string_violated` (`lean/Verif/BudgetCurves/Props.lean`): C100 (sw1l), what is not right: a key given as a string of several characters, as documented (`plot_rates('EK')`), is taken as the list of its characters: the call raises `KeyError` although the results have this key.
* `C100_strat_violated` (`lean/Verif/BudgetCurves/Props.lean`): C100 (ns2d.strat), what is not right: the budget of the record `i + 1` is drawn half an interval too late, at the middle of the interval which begins at this record. So when the budget is `a + b t`, the two curves differ by `b` times half of the spacing at each of their common abscissae, although the derivative is exact.
* `C101_mass_hypo_sw1l_violated` (`lean/Verif/Invariants/PropsHypo.lean`): C101, finding: with `params.nu_m4` the mean is not conserved, because `compute_freq_diss` gives to the mean the frequency of the mode of the index `[0, 1]`. In sw1l, without force, the mass is not conserved: the mean of `η` is multiplied by `exp(-nu_m4 t / k⁴)`, with `k` the wavenumber of this mode.
* `C102_cumul_diss_hyper_violated` (`lean/Verif/SpecFigs/Props.lean`): C102, finding: the curves do not contain the dissipation by `nu_8` (nor `nu_m4`): if it is the only one, the total is zero and the curves are divided by zero.
* `C102_forced_band_violated` (`lean/Verif/SpecFigs/Props.lean`): C102, finding: the band of the horizontal wavenumbers is drawn on the axis of `kx` and of `ky`: the modes `(0, kh, kv)` of the forced region have `kx = 0`, outside of the band, for all the horizontal wavenumbers which are forced.
* `C102_one_time_violated` (`lean/Verif/SpecFigs/Props.lean`): C102, finding: with `delta_t`, a figure for one time (`tmin = tmax`) raises: the slope of the transparency is a division by zero.
* `C102_plate_average_violated` (`lean/Verif/SpecFigs/Props.lean`): C102, finding (plate2d): `plot1d` computes the average and does not draw it: without thin curves (`delta_t=0`) the figure has no spectrum.
* `C102_plate_delta_violated` (`lean/Verif/SpecFigs/Props.lean`): C102, finding (plate2d): with a `delta_t` smaller than half of the interval between the records, which asks for all the records, `plot1d` draws none (sw1l draws all of them).
* `C102_plate_mask_violated` (`lean/Verif/SpecFigs/Props.lean`): C102, finding (plate2d): `plot2d` hides the potential and the elastic energy where the kinetic energy is small (a wrong mask): a bent plate at rest is drawn without any energy.
* `C102_plate_one_record_violated` (`lean/Verif/SpecFigs/Props.lean`): C102, finding (plate2d): `plot2d` handles files with one record and then uses a variable which is not defined.
* `C102_plot1d_axes_violated` (`lean/Verif/SpecFigs/Props.lean`): C102, finding (sw1l): if `Lx` and `Ly` are different, the curve at `kx` contains the spectrum at another `ky`: for a flow with energy only at one wavenumber `ky`, the curve has a point at a wavenumber without energy.
* `C102_plot1d_shape_violated` (`lean/Verif/SpecFigs/Props.lean`): C102, finding (sw1l and plate2d): `plot1d` adds the spectra versus `kx` and versus `ky`: it raises for all the grids with different numbers of points in the two directions.
* `C102_strat_compensate_violated` (`lean/Verif/SpecFigs/Props.lean`): C102 (ns2d.strat, `plot2d`): the curve is the mean over the range, and (finding) it does not depend on `coef_compensate`.
* `C102_strat_dealiasing_violated` (`lean/Verif/SpecFigs/Props.lean`): C102, finding (ns2d.strat): `plot1d` "removes the dealiased modes" and removes also modes which are kept by the simulation: with the wavenumbers `0, d, ..., n d` and the coefficient `c`, the wavenumber `i d` with `i ≤ c n < i + 1/2` is kept by the dealiasing (`|k| ≤ c kmax`), and neither it nor the previous one is in the figure.
* `C102_strat_poloidal_violated` (`lean/Verif/SpecFigs/PropsStrat3d.lean`): C102, finding: the poloidal energy is not drawn where one of its two parts is smaller than 1e-15, although the sum is not: for a flow with vertical motions that does not depend on the height (no horizontal divergence), the poloidal energy is the one of the vertical velocity and the curve is empty.
* `C102_strat_vortical_violated` (`lean/Verif/SpecFigs/PropsStrat3d.lean`): C102, finding: `params.projection = "vortical"` is the same projection as "toroidal" (no poloidal motion), but only for the second one the curve of the poloidal energy is left out.
* `C102_threshold_violated` (`lean/Verif/SpecFigs/Props.lean`): C102, finding: the threshold 1e-15 is not relative: the figure of a spectrum whose values are all smaller has no point (a flow slower than 3e-8 in the units of the simulation), although its curve is drawn for a flow a million times faster.
* `C102_times_one_record_violated` (`lean/Verif/SpecFigs/Props.lean`): C102, finding: `plot1d_times` and `plot3d_times` of ns3d raise when there is one record, even for the average only.
* `C103_covariance_violated` (`lean/Verif/HorizMeans/PropsLoad.lean`): **C103** (finding) Reading: the loaded covariances are the ones of the deviations from the loaded mean profiles. For a uniform flow which oscillates between 1 and -1, the loaded mean profile is zero and the loaded variance is zero, but the mean of `vx²` is one.
* `C103_empty_violated` (`lean/Verif/HorizMeans/PropsLoad.lean`): **C103** (finding) Reading: a file without record can be loaded. It cannot.
* `C103_order_violated` (`lean/Verif/HorizMeans/PropsLoad.lean`): **C103** (finding) Reading: the arguments `tmin` and `tmax` can be given in any order, or a wrong order is refused. When the last record is before the first one, all the profiles are `nan`.
* `C103_tmin_violated` (`lean/Verif/HorizMeans/PropsLoad.lean`): **C103** (finding) Reading: only records between `tmin` and `tmax` are used. With the records 0 and 10, `tmin = 4` gives an average which includes the record 0.
* `C104_finite_step_violated` (`lean/Verif/Galilean/PropsFinite.lean`): C104 (finding) Reading: with a given time step, the simulation with a uniform velocity is the simulation without it, translated. With the scheme of Euler, the amplitude of a wave, which a translation does not change, is changed by a uniform velocity, whatever it is: only the limit is invariant.
* `C104_sw1l_modified_violated` (`lean/Verif/Galilean/PropsFinite.lean`): C104 (finding) Reading: as for sw1l, a uniform velocity added to the initial state of sw1l.modified advects the flow. It does not: the simulations converge to the flow without it, not translated, plus the uniform velocity.
* `C105_changed_state_violated` (`lean/Verif/NonInterference/Props.lean`): FINDING: a script changes the state of a simulation whose state has been initialised (for example by adding a perturbation) before it is started. The flow depends on `HAS_TO_SAVE`: when results are saved, the force has already been computed during the construction, with the state before the change, and the first time step uses it.
* `C105_continued_violated` (`lean/Verif/NonInterference/Props.lean`): FINDING: a script calls `start` a second time with a later end. With `USE_CFL` and a force normalised with the time increment, the flow depends on `HAS_TO_SAVE`: at the end of the first run the force is computed for the outputs only if results are saved, with the old increment, and it is not computed again when the run goes on with a new increment.
* `C105_preprocess_violated` (`lean/Verif/NonInterference/Props.lean`): FINDING: with the preprocessing and the time-correlated random forcing, the force depends on `HAS_TO_SAVE`, for the same seed of the random generator: without results to save there is no file with the seeds, so the second construction of the forcing draws other seeds.
* `C109_abscissa_violated` (`lean/Verif/BudgetFigs/Props.lean`): C109 (violated): if all the energy goes from the wavenumber `a δk` to `(a + 1) δk`, there is no flux beyond `(a + 1) δk`; but the only point of the curve which is not zero is drawn at `(a + 2) δk`.
* `C109_last_record_violated` (`lean/Verif/BudgetFigs/Props.lean`): C109 (violated): the figure does not depend on the record closest to `tmax`: neither its curve nor the mean; with `tmax` after the end of the simulation, the last record is never used.
* `C109_one_time_violated` (`lean/Verif/BudgetFigs/Props.lean`): C109 (violated): for a range with one record, the thick curve is nan and there is no thin curve.
* `C109_strat_dealiasing_violated` (`lean/Verif/BudgetFigs/Props.lean`): C109 (violated): the largest wavenumber which is kept does not change the figure: all the wavenumbers but the last one are drawn.
* `C109_strat_zero_violated` (`lean/Verif/BudgetFigs/Props.lean`): C109 (violated): the dissipation of the modes `kx = 0` is not counted: if all the energy is dissipated there, the curve of the dissipation is zero.
* `C109_sw1l_conversion_violated` (`lean/Verif/BudgetFigs/Props.lean`): C109 (violated): in the same figure of sw1l, the curve of the conversion is shifted by one wavenumber with respect to the fluxes.
* `C109_sw1l_thin_violated` (`lean/Verif/BudgetFigs/Props.lean`): C109 (violated): the thin curves of the Charney potential enstrophy include the record closest to `tmax`, those of the energy do not.
* `C10_ns2d_phys_from_ux_violated` (`lean/Verif/StateInit/Props.lean`): **C10** (finding) ns2d's `init_statephys_from(ux=...)` neither stores `ux` nor sets the other variables to zero.
* `C10_representations_violated` (`lean/Verif/StateInit/Props.lean`): **C10** (finding) the base method leaves the physical arrays of the previous state: after a successful `init_statespect_from` with two keywords the two representations differ, until `statephys_from_statespect` is called.
* `C10_sphere_other_variables_violated` (`lean/Verif/StateInit/Props.lean`): **C10** (finding) on the sphere (`sphere.sw1l`), initialising from `rot_sh` keeps the previous `div_sh` and `eta_sh`.
* `C111_negative_rate_violated` (`lean/Verif/RealForce/Props.lean`): With a negative `forcing_rate` (removal of energy) and a state without energy in the forced modes, the coefficient is imaginary: the force written in `forcing_fft` is not the spectrum of a real field.
* `C111_projection_odd_violated` (`lean/Verif/RealForce/Props.lean`): With an odd number of rows it is not so: the last two rows are not averaged.
* `C112_cfl_violated` (`lean/Verif/Smooth/PropsCfl.lean`): With `USE_CFL` the fields are not continuous functions of the initial fields: for a shear flow decaying by viscosity and all the schemes, initial fields as close as one wants give, after one step, fields which differ by more than a fixed amount. Here the time step of the CFL condition is at 2% of `deltat0`.
* `C112_negative_viscosity_violated` (`lean/Verif/Smooth/PropsNu.lean`): Without the condition on the signs it is false: the negative viscosities are silently ignored (base/solvers/pseudo_spect.py 164-173), so the damping of a mode, as a function of `nu_4`, is not differentiable at 0.
* `C11_bouss_violated` (`lean/Verif/StateInit/Props.lean`): **C11** (ns2d.bouss, finding) e.g. `init_statespect_from(ux_fft=..., uy_fft=...)` returns normally and does nothing.
* `C11_plate2d_violated` (`lean/Verif/StateInit/Props.lean`): **C11** (plate2d, finding) `init_statespect_from(z_fft=z)` returns normally and does nothing.
* `C11_sphere_violated` (`lean/Verif/StateInit/Props.lean`): **C11** (spherical harmonics, finding) one keyword other than `rot_sh`, even a variable of the state: nothing is done.
* `C11_strat_violated` (`lean/Verif/StateInit/Props.lean`): **C11** (ns2d.strat, finding) `init_statespect_from(b_fft=b)`, and a single unknown key, return normally with a zero state.
* `C11_sw1l_qa_violated` (`lean/Verif/StateInit/PropsFields.lean`): **C11** (sw1l, finding) the component `y` is not that of the sum, for every kept mode with `kx + ky ≠ 0` with an ageostrophic part, when `f ≠ 0`.
* `C11_sw1l_violated` (`lean/Verif/StateInit/Props.lean`): **C11** (sw1l, finding) e.g. `init_statespect_from(ux_fft=..., uy_fft=...)` returns normally and does nothing.
* `C12_write_after_read_violated` (`lean/Verif/VarCache/Props.lean`): **C12** (finding) After a change of the state within an iteration (for example a new initialisation before the first step), a variable that was already read is returned with its old value.
* `C12_zeros_are_cached_violated` (`lean/Verif/VarCache/Props.lean`): **C12** (finding) The zeros returned for an unknown key with `RAISE_ERROR=False` are stored: afterwards `get_var` of this unknown key returns them instead of raising `ValueError`.
* `C15_floor_bins_violated` (`lean/Verif/Cadence/Props.lean`): C15, floor test, full statement refuted: with period 1 and steps of (about) 1/10, the saves at `1 - 10^-16` and `1 - 10^-16 + 1/10` are made for the same period boundary: the tolerance is added to the current time but not to the time of the last save. (In floating point ten steps of 0.1 lead to 0.9999999999999999.) Two of the three saves fall in the bin `[0, 1)`.
* `C16_probes_restart_before_first_save_violated` (`lean/Verif/Series/Props.lean`): C16, probes, refuted for a restart before the first record: the cell with which the file is created is taken for a record; after the first real save the file holds a record (time 0) that was never saved.
* `C16_probes_same_name_violated` (`lean/Verif/Series/Props.lean`): C16, probes, refuted when two files get the same name (the name holds the time with three digits only): the second one replaces the first and its records are lost.
* `C16_time_signals_restart_violated` (`lean/Verif/Series/Props.lean`): C16, time signals, full statement refuted: the counter of saved times is reset to one when the file is re-opened, so that the first save after a restart truncates the file to two records: the record of time 1 is overwritten and the one of time 2 is lost.
* `C17_order_iterations_violated` (`lean/Verif/PhysFiles/Props.lean`): Violation 3: with iterations in the names, the iterations of a thousandth sort as text: `_it=10` before `_it=9`.
* `C17_order_same_thousandth_violated` (`lean/Verif/PhysFiles/Props.lean`): Violation 2: with USE_T_END, two saves in the same thousandth give the second one a name of another width, and the next save (a later time) sorts before it.
* `C17_order_without_t_end_violated` (`lean/Verif/PhysFiles/Props.lean`): Violation 1: without USE_T_END the names of times 999 and 1000 are in the wrong order.
* `C18_default_is_latest_violated` (`lean/Verif/PhysFiles/Props.lean`): Violation: a run without USE_T_END saved at 999 and 1000; the default choice is the file of time 999.
* `C18_update_times_violated` (`lean/Verif/PhysFiles/Props.lean`): Violation: when a file is removed and another one is added, the list is not refreshed.
* `C19_extrapolation_violated` (`lean/Verif/PhysFiles/Props.lean`): Violation: after the last saved time, the weights do not sum to one. A field constant in time `a` is returned multiplied by `1 - 2 (t - t1) / (t1 - t0)`, where `t0 < t1` are the two last times.
* `C20_missing_path_run_violated` (`lean/Verif/RunDirs/Props.lean`): Violation: `params.NEW_DIR_RESULTS = False` without `params.path_run` raises AttributeError although the code has a branch that would make a new directory.
* `C21_concurrent_moves_violated` (`lean/Verif/RunDirs/Props.lean`): Violation: two runs of the same name from two scratch places. Both look for a free name before any of them moves: the results of the second one end up inside the directory of the first one, and not at its `path_run`.
* `C21_mpi_ranks_violated` (`lean/Verif/RunDirs/Props.lean`): Violation: with MPI, a rank that looks for the free name after rank 0 has moved the directory never gets the path of rank 0.
* `C21_textual_prefix_violated` (`lean/Verif/RunDirs/Props.lean`): Violation: the test "inside FLUIDSIM_PATH" is a test on texts, so a run in a directory `Sim_data_scratch` is not moved to `Sim_data`.
* `C22_moved_lock_violated` (`lean/Verif/RunDirs/Props.lean`): Violation 5: a run that ends normally leaves its lock in the directory if the directory is moved at the end (C21).
* `C22_other_process_releases_violated` (`lean/Verif/RunDirs/Props.lean`): Violation 2: when the second process ends, it removes the lock of the first one.
* `C22_sigterm_violated` (`lean/Verif/RunDirs/Props.lean`): Violation 3: after SIGTERM the lock is absent while the process still advances.
* `C22_test_then_write_violated` (`lean/Verif/RunDirs/Props.lean`): Violation 4: the test and the writing are not atomic: two processes can both see no lock and then both advance without any warning.
* `C22_two_processes_violated` (`lean/Verif/RunDirs/Props.lean`): Violation 1: a second process only warns: both advance the same directory.
* `C23_end_before_file_violated` (`lean/Verif/Restart/Props.lean`): Violation: a run is started although its end is before its start file: file at time 1.0004, named 1.000, `--t_end 1.0002`.
* `C23_it_end_violated` (`lean/Verif/Restart/Props.lean`): Violation: `--it_end I` adds `I` to the old value, so the last iteration is the requested one only if the old value was 0.
* `C24_2d_odd_violated` (`lean/Verif/Modes/Props.lean`): C24 fails with odd numbers of rows: from 5 rows to 7 rows, the mode `ky = -2` (row 3 of the input, row 5 of the output) is lost.
* `C24_3d_downscaling_violated` (`lean/Verif/Modes/Props.lean`): C24 fails when a 3D state is loaded in a smaller grid: from 8 to 4 points along z, the mode `kz = -1` is lost and its position receives the mode `kz = +3`, which does not exist on the small grid.
* `C25_order_missing_violated` (`lean/Verif/Modes/Props.lean`): C25, negative part: two of the six dimension orders are refused.
* `C26_line_one_mode_violated` (`lean/Verif/Coarse/Props.lean`): C26 finding: in the pencil branch a coarse line of one mode along y or z is copied into every mode of the full line.
* `C26_line_two_modes_violated` (`lean/Verif/Coarse/Props.lean`): C26 finding: in the pencil branch a coarse line of two modes along y or z raises a ValueError as soon as the full line is longer.
* `C26_take_slab_order_violated` (`lean/Verif/Coarse/Props.lean`): C26 finding: for slabs in order (z, y, x), taking is accepted but the x axis is treated like a full axis: the mode `kx = 2` of the coarse array (three modes along x) is read at index 4 of the five x modes of the full array.
* `C27_2d_ky_outside_violated` (`lean/Verif/Modes/Props.lean`): C27 fails when `ky` is outside the grid: no error is raised; on 8 points `ky = 5` returns index 5, which holds `ky = -3`, although `ky = 4` is stored and closer.
* `C27_2d_negative_kx_violated` (`lean/Verif/Modes/Props.lean`): C27 fails for negative `kx`: no error is raised, the returned index -1 denotes (in NumPy) the largest stored wavenumber.
* `C31_first_second_violated` (`lean/Verif/Forcing/Props.lean`): C31 (finding): `first` ("root with positive sign before discriminant") and `second` take the roots in the order of `np.roots`, which is not specified: whatever the equation with two different roots, an admissible order makes `first` the other root.
* `C31_kolmogorov_second_violated` (`lean/Verif/Forcing/PropsKolmo.lean`): C31, finding: with `which_root = "second"` ("root with negative sign before discriminant") the force depends on the previous calls: the first call gives the negative root; the second call starts from this force, of opposite sign, and gives the other root: whatever the flow, the force changes sign between the two calls (the hypotheses on the order are the documented order of the roots).
* `C31_particular_last_violated` (`lean/Verif/Forcing/PartK.lean`): A mode chosen "randomly in the forced space" (comment of specific.py 545) should be any of the forced modes, but `randint(0, n - 1)` excludes its upper bound: whatever the random bits, the last forced mode (the largest indices) is never the particular mode.
* `C31_particular_single_violated` (`lean/Verif/Forcing/PartK.lean`): With only one forced mode the normalisation `particular_k` fails.
* `C31_strat_ap_energyK_violated` (`lean/Verif/Forcing/Props.lean`): C31 (finding): with `constant_rate_of="energyK"` and the mode `ap` forced, the code uses the velocity of the part `ap` of the flow only, and the rate of the kinetic energy is not the prescribed one if the flow contains the opposite mode.
* `C31_unknown_type_violated` (`lean/Verif/Forcing/Props.lean`): C31 (finding): for an unknown type of normalisation the exception is built but not raised: the raw forcing is used as it is.
* `C33_time_set_back_violated` (`lean/Verif/Forcing/Props.lean`): C33 (finding): if the time is set back (as `set_viscosity` does, which reinitialises the time stepping), the forcing is not recomputed: the one of a later time is used.
* `C34_crash_while_saving_violated` (`lean/Verif/Forcing/Props.lean`): C34 (finding): a crash while the file is being saved may leave it empty, and then the simulation cannot be restarted in its directory.
* `C34_restart_before_change_violated` (`lean/Verif/Forcing/Props.lean`): C34 (finding): restarted from fields saved before the last change, the run has another forcing: the file only holds the last change.
* `C34_restart_new_directory_violated` (`lean/Verif/Forcing/Props.lean`): C34 (finding): a restart in a new directory does not find the file: new random fields are drawn and the forcing jumps at the restart.
* `C34_restart_noise_violated` (`lean/Verif/Forcing/Props.lean`): C34 (finding): if other code uses the generator between the calls (the normalisation with a particular mode does), the run restarted after the first call has another forcing after the next change.
* `C35_default_parameters_violated` (`lean/Verif/Motion/Props.lean`): C35 (finding): the condition `2 * length_acc ≤ length` is not checked, and the default parameters (length 1, length_acc 1, speed 1) do not satisfy it: the location jumps by a quarter of the length at time 2.
* `C36_angle_violated` (`lean/Verif/ForcedRegion/Props.lean`): C36 (finding): the documentation of `angle` says "angle between the wavevector and the horizontal"; with a zero angle the horizontal wavevectors are not forced and the vertical ones are.
* `C36_anisotropic_3d_violated` (`lean/Verif/ForcedRegion/Props.lean`): C36 (finding): in 3D no mode with `ky = -deltaky` is forced, whatever the region, whereas the opposite modes are.
* `C36_anisotropic_domain_violated` (`lean/Verif/ForcedRegion/Props.lean`): C36 (finding): in a domain which is not square the coarse grid has the same number of modes in each direction and cuts the shell: with `Lx = 2 Ly`, `nkmax_forcing = 4` and `fft_size = 8`, the mode `(6, 0)`, of norm 3, between `kmin = 2` and `kmax = 4`, is in no coarse array.
* `C36_kmax_violated` (`lean/Verif/ForcedRegion/Props.lean`): C36 (finding): when `fftw_grid_size(nkmax_forcing) = nkmax_forcing`, the modes of norm exactly `kmax` on the axes are Nyquist modes of the coarse grid and are not forced, although modes of norm `kmax` in other directions are (for example `(3, 4)` and `(5, 0)` with `nkmax_forcing = 5`).
* `C36_nyquist_1d_violated` (`lean/Verif/ForcedRegion/Props.lean`): C36 (finding): in 1D the Nyquist mode of the coarse array is not excluded.
* `C36_plot_negative_violated` (`lean/Verif/ForcedRegion/PropsPlot.lean`): **C36** (finding) Reading: the forced modes are seen on the figure. With `kz_negative_enable`, a forced mode with a negative vertical wavenumber is drawn outside the limits of the axes. Witness: the mode `(1, -1)` with `Lx = Ly = 2 pi`, the angle 45° and wavenumbers between 1 and 3.
* `C36_plot_text_violated` (`lean/Verif/ForcedRegion/PropsPlot.lean`): **C36** (finding) Reading: the figure can be drawn for every forcing which can be created. When `delta_angle` is a text like `"10°"`, which the forcing accepts, the function fails, in 2D and in 3D.
* `C36_plot_ticks_violated` (`lean/Verif/ForcedRegion/PropsPlot.lean`): **C36** (finding) Reading: the ticks of the abscissa axis are the horizontal wavenumbers. They are multiples of the vertical `deltak`: with `Ly = 2 Lx` one tick out of two is not a horizontal wavenumber.
* `C36_plot_title_violated` (`lean/Verif/ForcedRegion/PropsPlot.lean`): **C36** (finding) Reading: the wavenumbers of the title, "nk_min deltak_v" and "nk_max deltak_v", are the limits of the region. They are not when the vertical size of the domain is the largest one: with `Ly = 2 Lx` the title gives one half of the limits.
* `C36_sector_violated` (`lean/Verif/ForcedRegion/Props.lean`): C36 (finding): with a sector around the horizontal (angle 90°, delta_angle 60°) and `nkmax_forcing = 10`, the coarse grid may have only `2 * 9` modes in the x direction, and the mode `(10, 0)` of the sector is not stored.
* `C39_exactlin_mean_violated` (`lean/Verif/Sw1l/Props.lean`): C39, finding: the mean velocity computed by the state of sw1l.exactlin is `(ap, am)` and not `((ap + am) / 2, (am - ap) / (2 i))`: from the mean velocity `(ux, uy)` it gives `(ux + i uy, ux - i uy)`, which is the mean velocity only if it is zero.
* `C39_inertial_violated` (`lean/Verif/Sw1l/Props.lean`): C39, finding: for a negative `f` (allowed: only its square enters `kd2`), the frequencies of the mean mode given by `compute_freq_complex` have the wrong sign: the mean velocity turns in the wrong direction.
* `C39_init_qa_violated` (`lean/Verif/Sw1l/Props.lean`): C39, finding: `init_from_qafft` adds the component `x` of the ageostrophic velocity to the component `y` of the geostrophic velocity. For every kept wavenumber whose components are not opposite, every `f` and `c2`, and every `a` non-zero at this wavenumber with `f ≠ 0`, `uy` is not the sum of the two initialisations.
* `C39_mean_eta_violated` (`lean/Verif/Sw1l/Props.lean`): C39, finding: the mean surface displacement is lost by the conversion to normal modes: it is always zero after a round trip.
* `C40_check_violated` (`lean/Verif/Strat/Props.lean`): C40, finding: `check_energy_conservation` compares the signed ratio with its tolerance: it reports as conservative any tendency which dissipates energy, whatever the rate (here the damping `-rot`, for every state with some vorticity).
* `C41_two_thirds_violated` (`lean/Verif/Energy/PropsPlate.lean`): C41 (finding): with the 2/3 truncation the tendencies do not conserve the energy, because `chi_fft` is used without having been truncated: for this state (10 x 10 grid, `L = 2π`, `coef_dealiasing = 2/3`) the rate of change is 5.
* `C42_load_violated` (`lean/Verif/Models0d/Props.lean`): C42, finding: `load` drops the last record of the file of a simulation which ended normally.
* `C42_lorenz_rho_violated` (`lean/Verif/Models0d/Props.lean`): C42, finding: for `beta > 0` and `rho < 1` (only the origin is a fixed point, the solutions of the Lorenz equations exist and decay), the simulation cannot be created: the constructor raises an error.
* `C42_print_violated` (`lean/Verif/Models0d/Props.lean`): C42, finding: the variation printed is not the one since the previous print (an attribute is misspelt: `potential_tmp` is read and `potential_temp` is written), as soon as the potential is not back at its initial value at the first of two prints.
* `C43_2d_created_violated` (`lean/Verif/FiniteDiff/Props2d.lean`): C43, finding: the two-dimensional operators can never be created: `sparse` is not defined in the module (no python builtin has this name).
* `C43_2d_grid_violated` (`lean/Verif/FiniteDiff/Props2d.lean`): C43, finding: the coordinates given with these operators are not the ones of the periodic grid: their step is not `deltax` and the last point is the first one.
* `C43_2d_pyy_violated` (`lean/Verif/FiniteDiff/Props2d.lean`): C43, finding: the matrix meant for the second derivative along y is wrong on every grid whose steps differ: there is an array for which it does not give the centred difference.
* `C44_hypo_1d_violated` (`lean/Verif/Dissip/Props.lean`): C44, finding: for the solvers in one dimension, hypo-viscosity makes the creation of the simulation fail.
* `C45_energy_strat_violated` (`lean/Verif/Preproc/Props.lean`): C45, finding: for ns2d.strat, a state with potential energy loses its buoyancy and does not get the requested energy: it gets `C E_K / (E_K + E_A)`.
* `C45_energy_units_violated` (`lean/Verif/Preproc/PropsUnits.lean`): C45 fails with the scale "energy" (finding): `epsilon = energy_0 * (1.5) / large_scale` (instead of `energy_0 ** 1.5`), so that the viscosity depends on the unit of time. Here the time is counted in units 8 times smaller (`τ = 8`): the right viscosity is divided by 8, the one which is set by 4.
* `C45_large_scale_violated` (`lean/Verif/Preproc/PropsUnits.lean`): C45 fails for a forcing of the first modes (finding): with `nkmin_forcing = 0` and `nkmax_forcing = 1` the integer division gives a forcing wavenumber 0 and the preprocessing stops with `ZeroDivisionError`, even when the viscosity does not depend on the forcing.
* `C45_time_violated` (`lean/Verif/Preproc/Props.lean`): C45, finding: with preprocessing, the simulation created from a file restarts at time 0 and iteration 0, whatever the time of the file is.
* `C46_region_after_violated` (`lean/Verif/Reduce/Props.lean`): C46, finding: a process located after the region includes some of its points, because of the negative end of the slice: the mean of the field (1, 0, 0, 0) over its first point is computed as 1/2.
* `C46_region_violated` (`lean/Verif/Reduce/Props.lean`): C46, finding: if the direction x is distributed, a process located before the region includes all its points in the region: the mean of the field (0, 0, 1, 1) over its two last points is computed as 1/2.
* `C47_extended_class_violated` (`lean/Verif/Extend/Props.lean`): C47, finding: extending a class which is already the result of an extension also extends this class, and all the classes which come from the same first extension.
* `C48_absolute_violated` (`lean/Verif/Increm/Props.lean`): C48, finding: with `absolute`, the width of the bins is computed with the absolute values: if 0 is in the middle of the two first centres, the structure function is zero whatever the pdf is.
* `C48_period_violated` (`lean/Verif/Increm/Props.lean`): C48, finding: the period computed from the frequencies of the waves is never used.
* `C48_shells_violated` (`lean/Verif/Increm/Props.lean`): C48, finding: with the parameters `nx = 6`, `coef_dealiasing = 2/3` and 9 shells, the three first rounded values are equal and the first and the third shells are the same.
* `C48_slots_violated` (`lean/Verif/Increm/Props.lean`): C48, finding: with fewer wavenumbers by shell than shells, the output cannot be created; with more (and at least two shells), the last slot is never filled.
* `C49_day_or_more_violated` (`lean/Verif/Restart/Props.lean`): Violation: durations of 24 hours or more are refused: for any text `HH:MM:SS` of digits with `HH ≥ 24`.
* `C50_error_hidden_violated` (`lean/Verif/Restart/Props.lean`): Violation: an OSError without the text `errno =` (for example a truncated file) is replaced by an IndexError.
* `C51_violated` (`lean/Verif/Burgers/Props.lean`): C51 (finding): the skew-symmetric form of the code (`-1/2 u ∂x u - 1/4 ∂x u²`) does not conserve the energy of aliased states, not even with the default truncation of the 1D operator (which keeps `|k| = nx / 3`): the energy of `u = -2 sin 2x` on 6 points changes.
* `C52_documented_violated` (`lean/Verif/Smagorinsky/Props.lean`): C52 (finding): the term is not the documented one.
* `C53_ns3d_strat_violated` (`lean/Verif/Tendencies/Props.lean`): **C53** (finding) ns3d.strat is not safe: already without nonlinear terms (an internal wave with `b = 0`, `v_z = 1`, `N = 1`).
* `C53_ns3d_turb_model_violated` (`lean/Verif/Tendencies/Props.lean`): **C53** (finding) ns3d with a turbulence model: in place, the model is evaluated on the tendencies instead of the velocity.
* `C53_plate2d_violated` (`lean/Verif/Tendencies/Props.lean`): **C53** (finding) plate2d: evaluating the tendencies in the array of the state does not give the tendencies of this state.
* `C55_global_state_violated` (`lean/Verif/Sw1l/Props.lean`): C55, finding: with `f > 0` the tendency computed by sw1l.onlywaves for a given state depends on the global state of the simulation: for the uniform flow, it is proportional to the wave `g` present in the global state, whatever `g`. (The Runge-Kutta schemes evaluate tendencies of intermediate states.) The tendency of the same uniform flow in sw1l.exactlin is zero.
* `C55_negative_f_violated` (`lean/Verif/Sw1l/Props.lean`): C55, finding: with `f < 0` sw1l.onlywaves drops the vorticity (the waves have the vorticity `f eta`): even evaluated on the global state of the simulation, its tendency is not the one of sw1l.exactlin. Here `f = -1`, `c2 = 1`, a real progressive wave on a 4 x 4 grid.
* `C57_plate2d_violated` (`lean/Verif/Galerkin/PropsPlate.lean`): C57 (finding): with the default truncation (2/3) of plate2d the cubic term of the equation is not free of aliasing: the tendency of a kept mode differs from the right-hand side of the equation.
* `C57_sw1l_exactlin_modified_violated` (`lean/Verif/Galerkin/PropsSw1lMod.lean`): C57, finding: the tendency computed by sw1l.exactlin.modified for a given state depends on the global state of the simulation (the Runge-Kutta schemes evaluate tendencies of intermediate states). For a standing wave, which has no vorticity, the nonlinear tendency is zero; when the global state is a shear flow, the tendency computed for the same standing wave is not. Here `f = 0`, for every truncation without aliasing keeping the modes (1, 0), (0, 1), (1, 1) and their opposites.
* `C58_assert_violated` (`lean/Verif/SpectBudget/Props.lean`): C58 (finding): the assertion is one-sided: it holds for every transfer which loses energy.
* `C58_coriolis_violated` (`lean/Verif/SpectBudget/Props.lean`): C58 (finding): with rotation, `transfer_Kh` and `transfer_Kz` do not separately close the budgets of the horizontal and of the vertical kinetic energies: the pressure associated with the Coriolis force is left out. Here a velocity with one mode for which the saved transfers are zero.
* `C58_hypo_violated` (`lean/Verif/SpectBudget/Props.lean`): C58 (finding): the saved dissipation leaves out the hypo-dissipation which the solver applies; the documented budget is wrong for every mode which has energy and for which `f_d_hypo ≠ 0`.
* `C58_strat_epsilon_violated` (`lean/Verif/SpectBudget/PropsEps.lean`): C58, finding (ns2d.strat): the two saved values of the dissipation rate of the same flow, "epsilon_kx" and "epsilon_ky", are in the ratio `deltaky / deltakx = Lx / Ly`: they differ as soon as the domain is not a square, and are not the dissipation rate if the length is not `2 pi`.
* `C59_onlywaves_injection_violated` (`lean/Verif/SpatialMeans/PropsForce.lean`): **C59 (sw1l.onlywaves), violated**: the force used for the injection rates has no divergent part. When the forces on the two waves are opposite, the saved injection rates are zero for every state; and there is such a force which gives energy to a fluid at rest.
* `C59_strat_PA2_violated` (`lean/Verif/SpatialMeans/Props.lean`): C59 is violated by ns2d.strat: the line of the injection of potential energy has `PA1` twice, its second number is not what must be added to the first to get the third.
* `C59_sw1l_injection_violated` (`lean/Verif/SpatialMeans/PropsSw1l.lean`): C59 is violated by sw1l: `PK2` has half of the term of the square of the forcing. When only the velocity is forced, the kinetic energy given by the forcing in one time step is `deltat * (PK1 + 2 * PK2)`, not `deltat * PK_tot`; and there are states and forcings for which `PK2` is not zero (a flow at rest, forced for `ux` only).
* `C59_sw1l_kurtosis_violated` (`lean/Verif/SpatialMeans/PropsSw1l.lean`): C59 is violated by sw1l with several processes: the saved kurtosis and skewness use the mean over the part of the grid of the process which writes; here the first of two processes saves a kurtosis of zero (for a field with a kurtosis of two).
* `C59_sw1l_rotational_violated` (`lean/Verif/SpatialMeans/PropsParts.lean`): C59 is violated by sw1l: `EKr`, the energy of the rotational part of the velocity, can be negative although the depth `1 + eta` is positive everywhere.
* `C60_crash_restart_violated` (`lean/Verif/MeansFile/PropsRestart.lean`): When the writing of a record has been interrupted after the line of its time, and the simulation is then restarted in the same directory, the arrays loaded for the solvers ns3d and ns3d.strat are silently shifted with respect to the times: from the interruption on, the quantities saved at one time are returned with the previous time of the file, and the last time is lost.
* `C60_cut_number_violated` (`lean/Verif/MeansFile/PropsRestart.lean`): When the writing is interrupted in the middle of the last line, `load` may return a wrong number without any warning: here the total dissipation 120 saved at the second time is loaded as 12; or raise an `IndexError` although the first record is complete.
* `C60_first_record_violated` (`lean/Verif/MeansFile/PropsRestart.lean`): When the first record is incomplete, `load` raises an `IndexError` instead of returning empty arrays, also for the solvers ns3d and ns3d.strat.
* `C60_incomplete_violated` (`lean/Verif/MeansFile/Props.lean`): For the other solvers, `load` raises an `IndexError` as soon as the line of the time of an incomplete record is in the file: the complete records cannot be loaded.
* `C60_nu4_restart_shift_violated` (`lean/Verif/MeansFile/PropsRestart.lean`): ... and if the first run has saved one record only, `load` silently returns the dissipations by the hyperviscosity shifted by one record with respect to the times, and without the last time.
* `C60_nu4_restart_violated` (`lean/Verif/MeansFile/PropsRestart.lean`): When a hyperviscosity `nu_4` is added at a restart in the same directory: if the first run has saved more than one record, `load` raises an `IndexError`.
* `C60_sw1l_time_last_violated` (`lean/Verif/MeansFile/PropsTimes.lean`): For a forced simulation of sw1l, `time_last_saved` raises a `JSONDecodeError` as soon as the texts of the 33 numbers of the last record have together more than 604 characters, i.e. 18.4 characters on average (a number in double precision like `0.012345678901234567` takes 18 to 24).
* `C60_time_first_violated` (`lean/Verif/MeansFile/PropsTimes.lean`): `time_first_saved` never returns when there is no line with a time in the file, in particular when the file is empty or when the first record has been interrupted after its first line.
* `C60_time_means_restart_violated` (`lean/Verif/MeansFile/PropsTimes.lean`): When a simulation has been restarted from an earlier time in the same directory, the times in the file are not increasing and the means from `tstatio` on take also earlier times: here the mean for the times from 3 on is 2, the mean of the times 3, 1 and 2. And when the record closest to `tmax` comes before the record closest to `tstatio`, the mean is `nan`.
* `C61_enable_at_restart_violated` (`lean/Verif/Spectra/Props.lean`): C61 is violated when the (kz, kh) spectra are asked for at a restart only: whatever the period `p ≥ 1` and the number of records made without them, the process that starts with the period `p` raises an exception, at the latest `p` records later.
* `C61_kill_at_creation_violated` (`lean/Verif/Spectra/Props.lean`): C61 is violated for a kill inside the creation of the files: if only `spectra1d.h5` has been created, every later process raises when it starts.
* `C61_kzkh_cadence_violated` (`lean/Verif/Spectra/Props.lean`): C61 is violated for the period of the (kz, kh) spectra: with `kzkh_periodicity = 2`, after a restart two consecutive records can both be saved, and three consecutive ones can be left out.
* `C61_loaded_kzkh_violated` (`lean/Verif/Spectra/Props.lean`): C61 is violated for `load_kzkh_mean()` without key: no spectrum is loaded, for the two solvers.
* `C61_loaded_ns3d_violated` (`lean/Verif/Spectra/Props.lean`): C61 is violated for ns3d: the spectra `Khr` and `Khd` are in the files under names that `load1d_mean()` and `load3d_mean()` do not look at, so they are not in the result.
* `C61_mean_restart_violated` (`lean/Verif/Spectra/PropsValues.lean`): C61 is violated when the times of the file are not increasing (restart from an earlier time): the mean between two times can be over no record (`nan`), or over records out of the bounds.
* `C62_axes_violated` (`lean/Verif/SpatioTemporal/Props.lean`): **C62**, FINDING: for the two cyclic orders they are wrong for all three axes: the axis `order[p]` of the arrays does not hold the physical axis `p` (what is used as `kx` is `ky` or `kz`).
* `C62_default_tmin_violated` (`lean/Verif/SpatioTemporal/PropsPlot.lean`): **C62**, FINDING: `plot_temporal_spectra()` and `load_temporal_spectra()` without `tmin`, when no spectra are saved yet, raise `TypeError` (`float(None)`) instead of using all the records.
* `C62_frequencies_violated` (`lean/Verif/SpatioTemporal/PropsValues.lean`): **C62**, FINDING: in that case the last frequency of the temporal spectra is negative (`-π fs`), while all the others of the one-sided spectra are non-negative.
* `C62_load_error_violated` (`lean/Verif/SpatioTemporal/Props.lean`): **C62**, FINDING: and if the last file is longer than the others, a `tmin` in its second part is refused with `ValueError` although there are recorded times after it.
* `C62_load_violated` (`lean/Verif/SpatioTemporal/Props.lean`): **C62**, FINDING: with files of different durations, `load_time_series(tmin=3)` silently leaves out recorded times after `tmin` (here 4 and 6): the file which contains them is dropped because it begins more than the shortest duration before `tmin`.
* `C62_normalisation_violated` (`lean/Verif/SpatioTemporal/PropsValues.lean`): **C62**, FINDING: `domega` is computed at the first call and kept. A second spectrum with the same object, from a series with another number of times, is not normalised: its integral is the time mean of `|x|²` times (first number of times) / (second number of times).
* `C62_onesided_violated` (`lean/Verif/SpatioTemporal/PropsValues.lean`): **C62**, FINDING: with an even number of times, the spatiotemporal spectra lose the energy at the Nyquist frequency, and the temporal spectra count it twice.
* `C62_path_violated` (`lean/Verif/SpatioTemporal/PropsValues.lean`): **C62**, FINDING: without `dtype`, a file saved with another `dtype` and with the decomposition is found instead: it is loaded as if it was the requested one, and `save_spectra_kzkhomega(tmin, tmax)` overwrites it.
* `C62_plot_omega_violated` (`lean/Verif/SpatioTemporal/PropsPlot.lean`): **C62**, FINDING: with `plot_omega_emp=True` and the default cut (or any cut at constant frequency), `plot_kzkhomega` of a stratified solver always raises an exception: the variable `omega_disp` of its return value is not defined.
* `C62_reuse_violated` (`lean/Verif/SpatioTemporal/PropsPlot.lean`): **C62**, FINDING: the temporal spectra, whose default `tmax` is the final time `t_end` of the parameters (and the spatiotemporal ones when `tmax` is in the future), are stale: once spectra are saved during the simulation, all the later requests return them, and the records made since are ignored. For all records, whatever the spectra.
* `C62_single_precision_violated` (`lean/Verif/SpatioTemporal/PropsValues.lean`): **C62**, FINDING: the times in the files are of single precision, and at a restart the time of the last record is read from them. With a period 0.1, a simulation stopped just after its record at `t = 0.7` and restarted from there makes the record again: the stored time is below 0.7, so that the test for saving is fulfilled at `t = 0.7`, whereas it would not be with the exact time.
* `C62_temporal_compute_violated` (`lean/Verif/SpatioTemporal/PropsValues.lean`): **C62**, FINDING: for another length it does not: a nondimensional wavenumber is compared to a dimensional one. The mode of index `m` with `m = nx // 2 * deltakx` (for instance `m = nx / 4` when `Lx = 4π`) is counted once instead of twice, and the last mode `nx // 2` is counted twice instead of once.
* `C62_temporal_files_violated` (`lean/Verif/SpatioTemporal/Props.lean`): **C62**, FINDING: and if a process has fewer files than the first one (its files hold more times since it has fewer probes), loading all the recorded data fails with `IndexError`.
* `C62_temporal_tmax_violated` (`lean/Verif/SpatioTemporal/Props.lean`): **C62**, FINDING: `load_time_series` of the temporal spectra with a `tmax` before the beginning of the last file always fails with `ValueError`, although data have been recorded in the interval: the loop over the files of a process tests the name of a fixed file (the one after `tmax`) and stops before reading anything.
* `C62_tplot_key_violated` (`lean/Verif/SpatioTemporal/PropsTPlot.lean`): **C62 (violated)**: with a stratification, the argument `key` of `plot_spectra` has no effect: every key, even one without spectrum, gives the same figure.
* `C62_tplot_unknown_key_violated` (`lean/Verif/SpatioTemporal/PropsTPlot.lean`): **C62 (violated)**: in particular, a key without spectrum, which is an error without stratification, is accepted with a stratification.
* `C63_coarse_violated` (`lean/Verif/Prescribed/Props.lean`): C63, finding: `ny` is not checked. In a square domain with 64 × 16 points, `nx_max = 48` is accepted and the coarse grid has 48 points in the direction y; in a domain of aspect ratio 100 it has no points at all.
* `C63_decay_violated` (`lean/Verif/Prescribed/Props.lean`): C63, finding: the comment of the code chooses the coefficient such that `f(t) / f0 = 10 ** (-gamma)` with `gamma = 2` after `n_dt = 4` time steps; with the computed coefficient, the decrease after 4 time steps `deltat_max` is `exp(-2)`, 13 times larger than the claimed value.
* `C63_force_ns2d_violated` (`lean/Verif/Prescribed/Props.lean`): C63, finding: in the solvers of the vorticity, the y component of the force is not taken into account. The objects at rest do not act at all on a flow along y, for every mask and every such flow; the documented force has a non-zero curl (here for a flow `sin(x)` and the whole domain in the object).
* `C63_force_z_violated` (`lean/Verif/Prescribed/Props.lean`): C63, finding: in the 3D solvers the documented force has no vertical component: the vertical velocity is not damped in the objects.
* `C63_kolmo_normalized_violated` (`lean/Verif/Prescribed/Props.lean`): C63, finding: the normalised Kolmogorov flow is computed on the coarse grid of the forcing, whose size depends on `nkmax_forcing` only and is not compared to `ik`. If `ik` is larger than half the size `n` of this grid, the flow is forced, with the opposite sign, at the wavenumber `n - ik`; if it is half the size, the force is zero.
* `C63_kolmo_own_direction_violated` (`lean/Verif/Prescribed/Props.lean`): C63, finding: a component forced along its own direction (`letter_gradient = "x"` for `ux`, `"y"` for `uy`) gives no force at all in ns2d, silently.
* `C63_solid_long_violated` (`lean/Verif/Prescribed/Props.lean`): C63, finding: only the images -1, 0 and 1 are taken into account. For a motion longer than `2 Lx`, an object disappears from the domain: at the beginning of the sinusoidal motion of length `6 Lx`, the point at the centre of the image of the object in the domain is not in the solid.
* `C63_taylor_green_divergence_violated` (`lean/Verif/Prescribed/Props.lean`): C63, finding: in a domain with `Lx ≠ Ly` the Taylor-Green force is not divergence-free: its projection, which acts on the flow, is not the documented force.
* `C63_watu_boards_violated` (`lean/Verif/Prescribed/Props.lean`): C63, finding: if the directory contains the file of a simulation with one board, a simulation with two boards reads its single signal and fails when the force is computed.
* `C64_ad1d_cos_violated` (`lean/Verif/InitFields/PropsOther.lean`): C64, finding: ad1d, type "cos", with the pseudo-spectral solver: the spectral state, from which the time stepping starts, is left as it was, and is not the transform of the physical one, whose first mode is 1/2.
* `C64_constant_violated` (`lean/Verif/InitFields/PropsOther.lean`): C64, finding: in ns2d, the type "constant" with a non-zero value gives a physical state which is not the one of the spectral state: the velocity computed from the spectral state is zero.
* `C64_from_file_violated` (`lean/Verif/InitFields/PropsOther.lean`): C64, finding: for a file without the names of the axes only `nx`, `ny`, `Lx`, `Ly` are compared: a state with another `nz` or `Lz` is accepted.
* `C64_length_violated` (`lean/Verif/InitFields/Props.lean`): C64, finding: with the default `length` the velocity and the buoyancy of ns3d do not have the same cutoff scale if `Lz` or `Ly` is smaller than `Lx`; the documented default of ns3d (0) raises ZeroDivisionError, and None is not accepted by ns2d.
* `C64_linear_mode_violated` (`lean/Verif/InitFields/PropsOther.lean`): C64, finding: the indices are transposed: a mode of the arrays with `nky ≤ ikx` (domain longer in `x`) or `nkx ≤ iky` gives silently zero fields.
* `C64_noise_ns3d_buoyancy_violated` (`lean/Verif/InitFields/Props.lean`): C64, finding: the buoyancy is not truncated: each mode removed by the truncation for which the transform of the draw is not zero is present in the initial state.
* `C64_noise_plate2d_violated` (`lean/Verif/InitFields/Props.lean`): C64, finding: in plate2d the maximum of the velocity `w` is smaller than `velo_max` as soon as the displacement `z` is not zero at the points where `√(w² + z²)` is maximum, as for almost every draw: a velocity and a displacement are added.
* `C64_wave_violated` (`lean/Verif/InitFields/PropsOther.lean`): C64, finding: the maximum of the displacement is `2 eta_max`, not `eta_max`; a negative or truncated `ikx` gives silently a fluid at rest; `ikx = 0` gives a uniform displacement.
* `C65_creation_violated` (`lean/Verif/Spectra2d/Props.lean`): C65 is violated when the first process is killed between the creations of the two files: all the later ones raise `ValueError` when they are built, after having added a record to the first file; the second file is never created.
* `C65_curves_violated` (`lean/Verif/Spectra2d/Props.lean`): C65 is violated for one record: the slope of the transparency is a division by zero.
* `C65_load1d_axis_violated` (`lean/Verif/Spectra2d/Props.lean`): C65 is violated for the spectra along `ky`: the only wavenumbers that `load1d_mean` returns are those along `kx`, even if their number is not that of the values of the spectrum.
* `C65_load1d_means_violated` (`lean/Verif/Spectra2d/Props.lean`): C65 is violated for a file with one record (simulation just started), for which the mean is the record: `load1d_means` and `plot1d` of ns2d.strat, `plot1d` and `plot2d` of sw1l and `plot1d` of plate2d raise `ValueError`; and for the file of a simulation started twice from the same time: `OverflowError`.
* `C65_plate_curves_violated` (`lean/Verif/Spectra2d/Props.lean`): C65 is violated for a plate at rest: its energies of deformation are shown as zero.
* `C65_plot_diss_violated` (`lean/Verif/Spectra2d/Props.lean`): C65 is violated with two viscosities: the second one is left out.
* `C65_plot_keys_violated` (`lean/Verif/Spectra2d/Props.lean`): C65 is violated for the three other documented keys.
* `C65_plot_rows_violated` (`lean/Verif/Spectra2d/Props.lean`): C65 is violated for an odd number of points: the figure raises `ValueError`.
* `C65_plot_times_violated` (`lean/Verif/Spectra2d/Props.lean`): C65 is violated: the last record is left out of the average (`plot()` for a file of two records shows the first one), and the average is over no record (`nan`) when the closest record to the two times is the same.
* `C65_qda_energies_violated` (`lean/Verif/Spectra2d/PropsValues.lean`): C65 is violated by sw1l: `compute_qda_energies_fft` gives half of the energies of the divergent and ageostrophic parts, for every mode.
* `C65_sw1l_linear_spectra_violated` (`lean/Verif/Spectra2d/PropsValues.lean`): C65 is violated by the shallow-water solvers: the energy of the mean flow and of the mean displacement is in the spectra of the kinetic and potential energies and in none of the spectra of the linear parts.
* `C66_clock_violated` (`lean/Verif/StdOut/PropsTimes.lean`): What is missing in `C66_clock_partial`: the times are printed with six digits. When two successive times are printed as the same number, the clock time recovered is zero, whatever the measured one.
* `C66_load_restart_violated` (`lean/Verif/StdOut/Props.lean`): When an information has been interrupted after its first line and the simulation has been restarted, no exception is raised but the loaded energies are no longer those of the loaded times: from the interrupted information on, each time comes with the energy of the next information.
* `C66_load_violated` (`lean/Verif/StdOut/Props.lean`): In particular the last information of a simulation is never loaded, although its lines are complete in the file.
* `C66_plot_mean_violated` (`lean/Verif/StdOut/PropsPlot.lean`): C66, finding: what is printed as the "mean clock time per time step" is the mean over the lines of the log and not over the time steps: for one time step in 10 s and then 9 time steps of 1 s, it is 5.5 s, and the simulation has computed 10 time steps in 19 s.
* `C66_plot_short_violated` (`lean/Verif/StdOut/PropsPlot.lean`): C66, finding: with one estimate which is rounded to zero seconds (a short simulation), `plot_clock_times` removes it and raises `IndexError`, although it handles logs without any estimate.
* `C66_start_last_no_info_violated` (`lean/Verif/StdOut/PropsUtil.lean`): Without any information in the log, the function never returns.
* `C66_start_last_stale_violated` (`lean/Verif/StdOut/PropsUtil.lean`): When the last 1000 characters of the log contain no beginning of an information, the last time returned is the first one.
* `C66_times_it_end_violated` (`lean/Verif/StdOut/PropsTimes.lean`): For the simulations which end at a number of iterations (`it_end`), no final time is printed and loading the times raises an `UnboundLocalError` as soon as a duration has been estimated.
* `C67_figure_one_record_violated` (`lean/Verif/Pdf/PropsFig.lean`): **C67 (violated)**: with one record, `plot(delta_t=0)` raises although there is a curve to draw (with any other `delta_t` it is drawn).
* `C67_flatness_violated` (`lean/Verif/Pdf/PropsPlot.lean`): C67, finding: averaged over records whose increments have different ranges, the flatness of the figure can be smaller than one, which no distribution has: the averaged density is not normalised (`C67_load_mean_violated`).
* `C67_load_mean_violated` (`lean/Verif/Pdf/Props.lean`): C67, violated: the pdf averaged over the time by `load_pdf_from_file` is not normalised: its integral can be as large as one wants, for two saved functions which are normalised.
* `C67_online_figure_violated` (`lean/Verif/Pdf/PropsFig.lean`): **C67 (violated)**: the figure drawn during the simulation puts the values at the left edges of the bins: it is shifted by half a bin with respect to the figure drawn afterwards.
* `C67_pdf_u_violated` (`lean/Verif/Pdf/Props.lean`): C67, violated: with several processes, `pdf_u` uses the mean velocity of each process. For two processes, each with a uniform velocity, the modulus is zero everywhere; with one process it is half of the difference.
* `C67_plot_kolmo_violated` (`lean/Verif/Pdf/PropsPlot.lean`): C67, finding: the curves of `plot_Kolmo` are compared to one, but they are divided by `-4 r` without the rate of energy `ε` of the law `-4 ε r`: they are not dimensionless. With velocities twice larger (and the waves twice faster), the curves are eight times larger.
* `C67_plot_one_record_violated` (`lean/Verif/Pdf/PropsPlot.lean`): C67, finding: `plot` raises when there is only one record (`int(np.round(nan))`), although nothing which is drawn depends on the interval between the records; the method of sw1l does not.
* `C67_plot_pdf_colors_violated` (`lean/Verif/Pdf/PropsPlot.lean`): C67, finding: `plot_pdf` has only seven colors: with `nb_rx_to_plot` larger than seven it raises `IndexError`.
* `C67_plot_pdf_repeated_violated` (`lean/Verif/Pdf/PropsPlot.lean`): C67, finding: with more densities than separations (and less than eight), the same density is drawn several times.
* `C67_plot_sw1l_violated` (`lean/Verif/Pdf/PropsPlot.lean`): C67, finding (sw1l): with one record and `delta_t=0` (no intermediate curve), `plot` divides zero by zero.
* `C67_sw1l_structure_violated` (`lean/Verif/Pdf/Props.lean`): C67, violated: with several processes, only the lines of the first one are taken into account.
* `C68_customize_violated` (`lean/Verif/MeanValues/Props.lean`): **C68 (finding).** Two functions `customize` with the same source (for example made by the same `def` with different values of a variable of the enclosing function) share the file of the cache: the second call returns the result of the first function.
* `C68_dissipation_range_violated` (`lean/Verif/MeanValues/PropsValues.lean`): **C68 (finding).** `tmax` is not given to the function which computes `I_dissipation`: its value in the mean values for the range `tmin`, `tmax` uses the records after `tmax`, here the one of `t = 2` for the range 0, 1.
* `C68_isotropy_nu4_violated` (`lean/Verif/MeanValues/PropsValues.lean`): **C68 (finding).** With a viscosity `nu_4`, the value is not 1 for a spectrum which is symmetric under the permutations of the axes (energy at the permutations of (3, 4, 0)), since the reference value 1/3 of the ratio is the one for `nu_2`.
* `C68_isotropy_nu8_violated` (`lean/Verif/MeanValues/PropsValues.lean`): **C68 (finding).** With only the viscosity `nu_8` (or `nu_m4`), which the function does not read, there is no result (divisions by zero), for every dissipation and as soon as there are two bins.
* `C68_killed_violated` (`lean/Verif/MeanValues/Props.lean`): **C68 (finding).** A call killed while it writes the file of the cache (at any character) breaks the cache: every later call with the cache for this range raises a `JSONDecodeError`, however many times it is repeated. A call without the cache repairs it.
* `C68_not_serialisable_violated` (`lean/Verif/MeanValues/Props.lean`): **C68 (finding).** If `customize` puts an object in the result which json cannot write (an array), the call raises a `TypeError` after it has written the beginning of the file: the following ones, which could tell why, raise a `JSONDecodeError`.
* `C68_stale_violated` (`lean/Verif/MeanValues/Props.lean`): **C68 (finding).** With a number for `tmax` which is after the last saved time, the result of the first call stays in the cache: when the simulation has gone on, the same call returns the old average (1) instead of the present one (4).
* `C69_dispersion_violated` (`lean/Verif/Linear/Props.lean`): **C69 (finding).** The documented dispersion relation of the coefficient `C` is `omega = C k²`: it is not the one of the converter unless `C = 1`.
* `C69_units_violated` (`lean/Verif/Linear/Props.lean`): **C69 (finding).** For every Poisson modulus which is not zero, the converted solutions are not solutions of the equations of the plate, whatever the stress function: the unit of displacement uses `6 (1 - sigma)` instead of `6 (1 - sigma²)`.
* `C69_waves_hermitian_violated` (`lean/Verif/Linear/Props.lean`): **C69 (finding).** waves2d does not keep the symmetry of the transforms of real fields: the modes `(0, ky)` and `(0, -ky)` are both stored; if they are conjugate before a step, they are not after it, unless the mode is zero or `sin(Omega T) = 0`.
* `C69_waves_violated` (`lean/Verif/Linear/Props.lean`): **C69 (finding).** waves2d does not solve its documented equations: for `f = 1`, `g = 0` in a mode with `Omega ≠ 0`, the solution is `f = cos(Omega t)`, but after any sequence of steps `f` is still 1 and `g` still 0: the values are not the ones of a solution, unless `cos(Omega T) = 1`.
* `C70_array_violated` (`lean/Verif/Sections/PropsPlot.lean`): Not true of the code: an array can be plotted, as documented. `plot(array)` raises ValueError for every solver, time and file.
* `C70_before_first_violated` (`lean/Verif/Sections/PropsPlot.lean`): Not true of the code: before the first file, the field shown for a field constant in time is this field. The weights sum to `1 - 2 (t0 - t) / (t1 - t0)`. In one, two and three dimensions, `plot(time=t)` reads the files in this way for every `t` before the first file.
* `C70_coarse_axes_violated` (`lean/Verif/Sections/Props.lean`): Not true of the code: the coordinates of the figures are the ones of the grid points. For a simulation loaded with `load_sim_for_plot`, all of them except the first are too large by the factor `n / (n - 1)`.
* `C70_coarse_value_violated` (`lean/Verif/Sections/Props.lean`): Not true of the code: for a simulation loaded with `load_sim_for_plot` the section at a coordinate is the closest plane. In a box of length 4 with 4 points, `z=2` is the coordinate of the plane 2 but the plane 1 is shown.
* `C70_online_3d_violated` (`lean/Verif/Sections/Props.lean`): Not true of the code: the online plot of the physical fields works for the solvers in space. It takes the whole field instead of the section, and the assertion on the shape fails for every equation, grid and field.
* `C70_plot_mean_violated` (`lean/Verif/Sections/PropsPlot.lean`): Not true of the code: all the files of the interval contribute to the average. With two files of the same thousandth of time (files `..._it=...`), the first one is read twice and the other one never.
* `C70_refused_effect_violated` (`lean/Verif/Sections/Props.lean`): Not true of the code: a refused call of `set_equation_crosssection` has no effect. Whatever the previous equation, the refused text becomes the equation of the object, and the next plots without equation fail.
* `C71_arrows_violated` (`lean/Verif/Movies/Props.lean`): Not true of the code: the vectors are normalised by default and are not with `normalize_vectors=False`. By default the first frame is not normalised; the other frames are always normalised.
* `C71_default_violated` (`lean/Verif/Movies/Props.lean`): Not true of the code: without `dt_equations` the step is reasonable and the movie is accepted, as the error message says. Five files at the times 0, 1, 2, 3 and 100 are refused.
* `C71_final_time_violated` (`lean/Verif/Movies/Props.lean`): Not true of the code: the movie goes till `tmax`. The field at `tmax`, in particular the last file, is never shown in an accepted movie.
* `C71_loaded_1d_violated` (`lean/Verif/Movies/Props.lean`): Not true of the code: the movie of a one-dimensional simulation loaded for plotting shows the saved files. The time of a loaded simulation is 0: the only frames are at the time 0, or the movie is refused.
* `C71_quiver_violated` (`lean/Verif/Movies/Props.lean`): Not true of the code: `step` shows a coarse field, with or without arrows. For every `step >= 2` and with an arrow at every point, the first frame raises ValueError.
* `C71_repeat_violated` (`lean/Verif/Movies/Props.lean`): Not true of the code: `repeat=True`, the default, loops the animation as documented. It plays once, exactly as `repeat=False`.
* `C71_spectra_one_violated` (`lean/Verif/Movies/Props.lean`): Not true of the code: a file with one saved spectrum can be animated (the code has a branch for this case). There is no frame, and showing any frame raises ZeroDivisionError.
* `C72_coef_nu4_violated` (`lean/Verif/Launcher/Props.lean`): Not true of the code: `coef_nu4` multiplies the computed hyperviscosity. With `coef_nu4 = 0` the script raises ZeroDivisionError when the resolution is too coarse.
* `C72_truncated_violated` (`lean/Verif/Launcher/Props.lean`): Not true of the code: the forcing acts on modes which are kept by the dealiasing. The range is only limited to the largest wavenumber of the grid: with `F = 0.0288...` and the other default arguments the whole range, [13, 16], is beyond the largest dealiased wavenumber, 12.8.
* `C73_geostrophic_default_violated` (`lean/Verif/Sw1lForcing/Props.lean`): C73, finding: the classes "tcrandom" and "proportional" written for sw1l (which force the geostrophic variable `q_fft` by default) are not among the classes of the solver: the base classes are used, which force the vorticity `rot_fft` by default.
* `C73_waves_vortices_violated` (`lean/Verif/Sw1lForcing/Props.lean`): C73, finding: with rotation, the forcing "waves_vortices" does not inject the requested rate: the state of the forcing is made by `init_from_qafft`, which takes the component x of the ageostrophic velocity for its component y. For a fluid at rest and one forced wavenumber along y, the input of quadratic energy is larger than the rate, whatever the raw forcing, the step, the parameters and the root.
* `C74_budget_violated` (`lean/Verif/Sw1lBudget/PropsViolated.lean`): C74 violated: for the flow `ux = cos x`, `η = sin x`, on a grid without aliasing and without dissipation, the energy of the mode `(1, 0)` does not change at the rate given by the transfers of the budget of sw1l: `3/32` is missing.
* `C74_groups_violated` (`lean/Verif/Sw1lBudget/PropsViolated.lean`): C74 violated: the product of a geostrophic mode and of two different wave modes is announced in the group GAAd; when the geostrophic mode is the first factor it is put in the group GAAs, whatever the modes.
* `C74_plot_violated` (`lean/Verif/Sw1lBudget/PropsViolated.lean`): C74 violated: when one record is selected (`tmin = tmax`), the mean of `plot` is over no record, although the curve of the potential enstrophy is drawn.
* `C75_correl4_violated` (`lean/Verif/CorrelFreq/Props.lean`): FINDING: with an even number of times (the default is 100) the correlation of the order 4 is wrong if `ω3 + ω4 - ω1` is larger than the largest frequency: the index is `2 nb - 1 - io2` instead of `2 nb - 2 - io2`.
* `C75_cumulant_violated` (`lean/Verif/CorrelFreq/PropsNorm.lean`): FINDING: if `ω3 + ω4 < ω1`, what is subtracted is not the Gaussian part: for one point and one window the normalised cumulant is one, the function gives three.
* `C75_frequencies_violated` (`lean/Verif/CorrelFreq/PropsNorm.lean`): FINDING: for any other value, all the frequencies of the file (except zero) are wrong: the fields are taken each `period - 1` iterations (each iteration if `period ≤ 2`), the frequencies are computed for `period` iterations.
* `C75_online_plot_violated` (`lean/Verif/CorrelFreq/PropsNorm.lean`): FINDING: with one frequency (the default value of `iomegas1` is `[1]`) the plot raises IndexError, which stops the simulation.
* `C75_plot_corr4_violated` (`lean/Verif/CorrelFreq/PropsNorm.lean`): FINDING: with five frequencies there are only four places for the plots: ValueError.
* `C75_points_violated` (`lean/Verif/CorrelFreq/PropsNorm.lean`): FINDING: otherwise, the points used depend on the number of processes.
* `C76_arrows_violated` (`lean/Verif/Hexa/Props.lean`): Moving the whole figure sideways makes its arrows disappear.
* `C76_cut_vertical_violated` (`lean/Verif/Hexa/Props.lean`): The layer shown by a vertical cut is not the closest one: with a layer exactly at `y = 2`, the cut `y = 2` shows the points at `y = 0`, with their velocity.
* `C76_equation_spaces_violated` (`lean/Verif/Hexa/Props.lean`): With spaces the axes are found but no field can be obtained, whatever the file: "z = 0".
* `C76_interpolated_time_violated` (`lean/Verif/Hexa/Props.lean`): The attribute `time` of the interpolated field is the mean of the times of the two files, not the time asked for.
* `C76_movie_arrows_violated` (`lean/Verif/Hexa/Props.lean`): They jump from one file to the next while the colours are interpolated: with the velocity 0 at time 0 and 4 at time 4, the movie shows at time 1 the colour 1 and the arrow 0.
* `C76_movie_variable_violated` (`lean/Verif/Hexa/Props.lean`): In full generality it is false: the key "temp", accepted for a figure, designates the temperature, which the movie does not read.
* `C76_update_times_violated` (`lean/Verif/Hexa/Props.lean`): It is not when as many files have been removed as added.
* `C77_announced_violated` (`lean/Verif/StateVars/Props.lean`): C77, finding: `has_vars` answers no for variables which can be read: `q`, `div` and `rot_fft` in sw1l, `div` in ns2d; the variable `d_fft`, listed in `keys_linear_eigenmodes`, can be read in none of the shallow-water solvers.
* `C77_exactlin_mean_a_violated` (`lean/Verif/StateVars/Props.lean`): C77, finding: in sw1l.exactlin the variable `a_fft` of a uniform flow `(ux, uy)` is `2 ux` for the mean mode (the ageostrophic part of a uniform flow is zero, and this is what sw1l gives for the same flow).
* `C77_mean_velocity_violated` (`lean/Verif/StateVars/PropsStored.lean`): C77, finding: in sw1l.exactlin, for a state with the mean velocity `(ux, uy)` (normal modes computed by the solver), the mean modes of the variables "ux_fft" and "uy_fft" are `ux + i uy` and `ux - i uy`, whatever was read before; those of a state of sw1l.onlywaves with the same modes of waves, the same for "ux_fft".
* `C77_modified_rot_violated` (`lean/Verif/StateVars/Props.lean`): C77, finding: in sw1l.modified, "rot_fft" and "div_fft" are computed with "ux" in the place of "uy": for every flow they are `i (kx - ky) ux_fft` and `i (kx + ky) ux_fft`; so are the fields "rot", "div" and "q" derived from them. For a flow along y (`ux = 0`) the computed vorticity is zero whatever the flow; the vorticity is `i kx uy_fft`.
* `C77_onlywaves_uy_violated` (`lean/Verif/StateVars/Props.lean`): C77, finding: in sw1l.onlywaves, `get_var("uy_fft")` depends on what was read before: it raises an exception, for every state, unless "ux_fft" has been read first in the same iteration; then it gives the documented variable.
* `C77_plate2d_lapz_violated` (`lean/Verif/StateVars/Props3d.lean`): C77, finding: in plate2d the variable "lapz_fft" is not the Laplacian `-k² z` of the deflection but its bilaplacian `k⁴ z`: the two differ for every mode `k ≠ 0` where `z` is not zero.
* `C78_1d_violated` (`lean/Verif/Xmf/Props.lean`): C78, finding: for a simulation in one dimension the function raises an exception, whatever the files.
* `C78_resolution_violated` (`lean/Verif/Xmf/Props.lean`): C78, finding: the geometry of all the files is the one of the first: a file with another resolution in the same directory is described with a wrong shape.
* `C78_time_order_violated` (`lean/Verif/Xmf/Props.lean`): C78, finding: the grids of the time series follow the order of the names, not the times: with names of fixed width (`USE_T_END = False`) the time 1000 comes before the time 999.
* `C78_vectors_2d_violated` (`lean/Verif/Xmf/Props.lean`): C78, finding: in two dimensions each vector refers to a third component which does not exist (for a solver without variable of this name): the velocity of ns2d refers to "uz". The function joins two components.
* `C79_nyquist_violated` (`lean/Verif/ModifResol/Props.lean`): C79, finding: a mode at the Nyquist wavenumber is not conserved: from 2 to 4 points along x, the field `(-1)^j` becomes `2 (1, 0, -1, 0)`: its values at the common points are doubled.
* `C80_legacy_violated` (`lean/Verif/StateFile/Props.lean`): C80, finding: for a file without attribute "axes" only x and y are checked: a file with another length along z is accepted.
* `C80_missing_variable_violated` (`lean/Verif/StateFile/Props.lean`): C80, finding: a variable which is not in the file is silently zero.
* `C81_N_zero_violated` (`lean/Verif/Regions/Props.lean`): C81, finding: without stratification (`N = 0`, allowed by the solver), nothing can be saved: division by zero.
* `C81_last_limit_violated` (`lean/Verif/Regions/Props.lean`): C81, finding: a region asked up to the end of the domain stops one grid step before it (unless it is the whole domain): the position `Lx` is at the index `nx`, i.e. 0, but the nearest index is searched without the periodicity.
* `C81_no_forcing_violated` (`lean/Verif/Regions/Props.lean`): C81, finding: without forcing, nothing can be saved: `P_forcing` is used but never computed. The output, which saves when it is created, cannot be created.
* `C81_restart_violated` (`lean/Verif/Regions/Props.lean`): C81, finding: a restart writes again the line of the time from which it starts: the times of the file are not strictly increasing.
* `C81_rotation_violated` (`lean/Verif/Regions/PropsWhole.lean`): C81, finding: with rotation (`params.f`), the pressure of the Coriolis force is missing in the sum of the parts: for the flow `2 cos x ey` in a frame rotating at `f = 1`, the tendency is not `v × (ω + f ez) - ∇P`.
* `C82_cfl_violated` (`lean/Verif/Continuation/Props.lean`): C82 (finding): with the CFL condition, the time step in use is not saved in the files, and a restarted run begins with `deltat0`: because a computed time step which differs by less than 2 % from the time step in use is ignored, the restarted run may take another time step than the uninterrupted run, and then all the following times and states differ. Here the first run ends at the iteration 1 (time 2); asked to go to the iteration 2, it would be at the time 4; restarted from its last file, it is at the time 4.02.
* `C83_forced_order_violated` (`lean/Verif/Convergence/PropsForced.lean`): **C83** (finding) The orders of RK2, RK2_trapezoid and RK4 do not hold with a force which depends on the time: as the force is computed only at the beginning of the steps, with the equation `du/dt = t` the error at the time 1 is half of the time step, for all the schemes.
* `C83_phaseshift_force_violated` (`lean/Verif/Convergence/PropsForced.lean`): **C83** (finding) With the phase shifts of a two-dimensional grid (half of a grid step), the simulations do not converge to the solution of the forced equations: for `du/dt = F`, with a force on a mode `k` such that `kx / nx + ky / ny ≠ 0`, the error at the time 1 does not tend to zero with the time step.
* `C84_args_dim_ignored_violated` (`lean/Verif/Bench/Props.lean`): **C84** (finding): the dimension given by the user is ignored as soon as a solver is given.
* `C84_args_third_violated` (`lean/Verif/Bench/Props.lean`): **C84** (finding): with a solver in 2D and three numbers, the third one is kept: the list of the FFT is the one in 2D, but the shapes (`-p`, `-e`) are looked for in the FFT in 3D.
* `C84_axes_violated` (`lean/Verif/Bench/Props.lean`): **C84** (finding): the documentation says that `n0` is the number of points in `x`; it is the number in `y`.
* `C84_box_3d_violated` (`lean/Verif/Bench/Props.lean`): **C84** (finding): the case 128 x 64 x 128 in a cubic box: the cells are not cubes.
* `C84_dim_sphere_violated` (`lean/Verif/Bench/Props.lean`): **C84** (finding): the solvers on the sphere have no digit in the name of their class: the commands fail for them.
* `C84_dirs_violated` (`lean/Verif/Bench/Props.lean`): **C84** (finding): with several directories the smallest time of the previous directories is kept but not its number of processes: a second directory with the measures of an ideal strong scaling, which would give 100 % alone, gets another efficiency.
* `C84_load_module_violated` (`lean/Verif/Bench/PropsMore.lean`): **C84** (finding): the full name of the module of a solver, `fluidsim.solvers.ns2d.solver`, never loads its results.
* `C84_load_other_violated` (`lean/Verif/Bench/Props.lean`): **C84** (finding): a result of `ns2d.strat` is loaded for `ns2d`.
* `C84_load_short_name_violated` (`lean/Verif/Bench/Props.lean`): **C84** (finding): the results of the solver of key `sw1l.exactlin` are saved with its short name `SW1Lexlin` in lower case; they are not found with the key.
* `C84_pie_names_violated` (`lean/Verif/Bench/Props.lean`): **C84** (finding): two functions of the same name are one function of the pie: the time of the first one is lost (it is counted in the others).
* `C84_profile_pyx_violated` (`lean/Verif/Bench/Props.lean`): **C84** (finding): the kinds overlap: every function of a Cython file is counted in the Python kind too, except the functions `fft_as_arg`; the sum of the percentages can be larger than 100 %.
* `C84_profile_total_violated` (`lean/Verif/Bench/Props.lean`): **C84** (finding): a profile whose percentages have a sum larger than 100 %.
* `C84_weak_3d_violated` (`lean/Verif/Bench/Props.lean`): **C84** (finding): in 3D the third number of the shape is lost; all the shapes proposed are the same two numbers, so that the number of points per process is not kept.
* `C84_weak_3d_work_violated` (`lean/Verif/Bench/Props.lean`): **C84** (finding): in 3D the shapes proposed for 2 and 4 processes do not have the same work per process.
* `C84_weak_efficiency_violated` (`lean/Verif/Bench/Props.lean`): **C84** (finding): ideal measures with 4 and 8 processes have an efficiency of 200 %.
* `C85_load_state_writes_violated` (`lean/Verif/Loading/Props.lean`): **C85** (finding): with `modif_save_params=False`, loading a state of a simulation adds a record to each output of its directory, although nothing is computed.
* `C85_loaded_directory_moved_violated` (`lean/Verif/Loading/Props.lean`): **C85** (finding): a directory of results outside of FLUIDSIM_PATH, loaded with `load_state_phys_file` (which puts `HAS_TO_SAVE = False`) and advanced, is moved at the end: it is not at its place any more.
* `C86_forcing_init_violated` (`lean/Verif/Procs/PropsRun.lean`): When no mode is forced, process 0 raises "0 modes forced." and the other processes wait for it for ever.
* `C86_from_file_violated` (`lean/Verif/Procs/PropsRun.lean`): When process 0 cannot read the file (not a state file, other resolution, other size of the domain), it raises an error but the other processes wait for it for ever: on several processes the run does not end.
* `C86_load_for_restart_violated` (`lean/Verif/Procs/PropsRun.lean`): When process 0 cannot read the extenders, it raises an error and the other processes wait for it for ever.
* `C86_move_violated` (`lean/Verif/Procs/PropsRaces.lean`): **C86 (end of a run, violated).** Two processes, a name which is not used: when process 0 has moved the directory before process 1 looks for a name, process 1 finds that the name is used: the two processes end with different directories.
* `C86_nan_violated` (`lean/Verif/Procs/PropsRun.lean`): When some processes find a value which is not a number and others do not, the former raise the error and the latter wait for them for ever.
* `C86_output_init_violated` (`lean/Verif/Procs/PropsRun.lean`): Without info_simul.h5 in the directory, process 0 raises an error and the other processes wait for it for ever.
* `C86_probes_violated` (`lean/Verif/Procs/PropsRaces.lean`): **C86 (probes, first run, violated).** Two processes which should both have probes, in an empty directory: when process 0 has created its file before process 1 lists the directory, process 1 believes that the run is a restart where it has no probes. The initialisation ends normally, and nothing is ever saved for its probes.
* `C88_average_rest_violated` (`lean/Verif/DimNumbers/PropsStrat.lean`): **C88** (finding) One record of a fluid at rest among the averaged ones (the initial state, with the default `tmin=0`) makes the averaged `Fh` and `Gamma` `nan`, whatever the other records.
* `C88_k_max_violated` (`lean/Verif/DimNumbers/PropsStrat.lean`): **C88** (finding) With cells larger along `x` than along `z`, `k_max` is larger than the largest wavenumber kept along `x`: the flow can be announced as resolved (`k_max*eta > 1`) while the wavenumbers of the Kolmogorov scale are not in the grid along `x`.
* `C88_omegas_buoyancy_violated` (`lean/Verif/DimNumbers/PropsOmegas.lean`): **C88** (finding) Reading: a simulation can be forced on each of its variables. The buoyancy `b_fft` is a variable of ns2d.strat, but a simulation with an anisotropic force on `b_fft`, whatever the other parameters, cannot be created.
* `C89_1d_violated` (`lean/Verif/Floats/PropsTrunc.lean`): Finding: in one dimension, the last mode `nx / 3` is removed or kept depending on the size of the domain: with 30 points, the mode 10 is removed for a domain of length 1 and kept for a domain of length 3.
* `C89_diff_steps_violated` (`lean/Verif/Floats/PropsOutputs.lean`): **C89 (uneven saves, finding).** With `deltat0 = 0.1` and `period_save = 0.3` the saves are made at the steps 3, 7, 11, 14, 17: the period is not the one of the parameters.
* `C89_floor_steps_violated` (`lean/Verif/Floats/PropsOutputs.lean`): **C89 (two saves for a period, finding).** With `deltat0 = 0.1` and `period_save = 1` the output saves at the steps 10 and 11 (times 0.9999999999999999 and 1.0999999999999999), and later one step too late: at step 51 (5.099999999999998) and not at step 50 (4.999999999999998).
* `C89_spherical_violated` (`lean/Verif/Floats/PropsTrunc.lean`): Finding: the modes exactly on the sphere which are not on an axis are removed or kept depending on the roundings. Here the mode (64, 120), at the distance 136 = 408 / 3, with 408 points: removed for a domain of length 10, kept for a domain of length 22.9.
* `C89_steps_violated` (`lean/Verif/Floats/Props.lean`): **C89 (number of steps, finding).** With `deltat0 = 0.1` and `t_end = 1` the run makes 11 steps and ends at 1.0999999999999999: after 10 steps the time is 0.9999999999999999.
* `C89_stuck_violated` (`lean/Verif/Floats/Props.lean`): **C89 (a clock which stops, finding).** A run at a time `t ≥ 2^L` whose increments are smaller than half of the unit in the last place (`2^(L - 53)`) never ends: the time does not change any more.
* `C89_sum_violated` (`lean/Verif/Floats/PropsOutputs.lean`): **C89 (number of processes, finding).** The results are not equal in general: the mean of three numbers on one process, and on two processes (one number on the first one).
* `C90_gradient_force_violated` (`lean/Verif/Uxuy/PropsRuns.lean`): FINDING: a force which is the gradient of a potential (balanced by the pressure: it has no effect on an incompressible flow) changes the flow computed: the states inside a time step are not projected (with_uxuy.py 12-22), so that the tendencies are computed with velocities which have a divergence. Here the scheme is RK2, the initial state is at rest and there is a beta effect.
* `C90_initial_divergence_violated` (`lean/Verif/Uxuy/PropsRuns.lean`): FINDING: the initial velocity is not projected: a state initialised with `ux_fft` and `uy_fft` with a divergence is used and saved as it is at the first time (with_uxuy.py 31-36), so that the velocity does not always have no divergence.
* `C91_not_applied_violated` (`lean/Verif/Oper/PropsRuns.lean`): C91 (finding): in 2D, when fluidfft has nothing to truncate (`_has_to_dealiase` is false), `NO_SHEAR_MODES` has no effect: the mean over x of the state does not change.
* `C91_sizes_3d_violated` (`lean/Verif/Oper/Props.lean`): C91 (finding): in 3D, the numbers of points are not checked: for 4.9 points, the operator is created with 4 points, and the value of the parameter is changed.
* `C92_frequency_violated` (`lean/Verif/TimeSignals/Props.lean`): C92, finding: the frequencies are wrong. For an oscillation of pulsation `2 π m / (nt dt)` saved at the times `j dt`, the spectrum of each window is largest at the index `m`, and the pulsation given for this index is larger by the factor `nt / (nt - 1)`: a third for windows of 4 times, 1/15 for windows of 16 times.
* `C92_second_call_violated` (`lean/Verif/TimeSignals/Props.lean`): C92, finding: the transform created by the first call is kept. When the simulation has gone on and the number of times has (at least) doubled since then, every call fails.
* `C92_short_violated` (`lean/Verif/TimeSignals/Props.lean`): C92, finding: with 3 to 39 saved times, every spectrum is zero, whatever the signals (the windows have two times, at which the Hann window is zero); with 2 times it is nan.
* `C93_default_region_violated` (`lean/Verif/Probes/Props.lean`): C93, finding: with the default region, and a distance between the probes which is a divisor of the size of the domain, the last probes are at the end of the domain, which is not a point of the grid: the last cells of all the arrays are never written (they contain arbitrary numbers).
* `C93_equal_times_violated` (`lean/Verif/Probes/Props.lean`): C93, finding: when two successive states have been saved in a file with the same time (the times are saved in single precision), no file is written.
* `C93_initial_violated` (`lean/Verif/Probes/Props.lean`): C93, finding: when only the initial state (time 0) is selected, no file is written.
* `C93_names_violated` (`lean/Verif/Probes/Props.lean`): C93, finding: with two saved times whose names are equal, only the second one is in the directory.
* `C93_one_probe_violated` (`lean/Verif/Probes/Props.lean`): C93, finding: with only one probe in a direction (for example a plane of probes), no file is written.
* `C94_init_violated` (`lean/Verif/Sphere/Props.lean`): **C94** (finding) Initialised with a displacement that the truncation does not resolve, `sphere.sw1l` keeps the given field in physical space, although it is not in the spectral state: the variables in physical space, from which the first tendencies are computed, are not those of the state that is advanced.
* `C94_rotation_violated` (`lean/Verif/Sphere/Props.lean`): **C94** (finding) `sphere.ns2d` ignores `params.oper.omega` (the rotation of the Earth by default): its tendency is not that of the vorticity equation on the rotating sphere, `-u · ∇(ζ + 2 Ω sin(latitude))`.
* `C95_aliasing_violated` (`lean/Verif/Symmetry/PropsAliasing.lean`): C95 fails without a sufficient truncation (finding): on a 3 x 3 grid with `coef_dealiasing = 1`, the same flow with its origin moved by half a mesh does not give the same vorticity after one step of ns2d.
* `C95_strat_forcing_violated` (`lean/Verif/Symmetry/PropsCflStrat.lean`): C95, what is not consistent: `params.forcing.forcing_rate` is a rate of energy per unit of mass (`ℓ² / τ³`), and the limit which ns2d.strat computes from it, `1 / forcing_rate ** (1 / 3)`, is not a time: in the other units it is multiplied by `τ / ℓ^(2/3)`. So the time steps of a forced run of ns2d.strat depend on the unit of length.
* `C96_mean_buoyancy_violated` (`lean/Verif/Symmetry/PropsNoBuoyancy.lean`): C96 fails for a flow with a mean buoyancy (finding): in ns3d.strat a fluid at rest with a uniform buoyancy gets a mean vertical velocity, because the projection keeps the mean force (there is no pressure gradient to balance it), whereas the velocity computed from the vorticity in ns2d.strat has no mean.
* `C97_fd2d_violated` (`lean/Verif/RunName/Props.lean`): C97 fails for the finite differences in two dimensions (finding): their text begins with the lengths, so that the lengths, and not the number of points, are replaced in the name of a loaded simulation.
* `C97_hidden_violated` (`lean/Verif/RunName/Props.lean`): C97 fails for small values (finding): with the default format `.3f` all the values below 0.0005 are written 0, so that the names of the runs do not tell them apart.
* `C97_renamed_violated` (`lean/Verif/RunName/Props.lean`): C97 fails for a directory which was renamed without underscores and is given as a text (finding): the "date" is the end of the path, with its slashes, and it is put in the name of the simulation.
* `C97_spaces_violated` (`lean/Verif/RunName/Props.lean`): C97 fails for the forced runs of plate2d (finding): the format `5.0g` fills with spaces on the left a rate written with less than five characters, so that the name of the directory contains spaces.
* `C97_suffix_violated` (`lean/Verif/RunName/Props.lean`): C97 fails for a directory which was moved at the end of the run under a name which was already used (finding): the directory is `name_1` (C21), the date of the loaded simulation is then `hour_1` without the day, and its name is never the one of the directory nor the one of the run.
* `C99_replace_violated` (`lean/Verif/Build/Props.lean`): **C99** (finding): an extender which replaces a class of the solver, as the solvers do for the classes of their parents, has no effect: the classes used are the ones of the solver which is extended, whereas the description of the solver, which is saved in the files, names the new class.
* `C99_subsolvers_violated` (`lean/Verif/Build/Props.lean`): **C99** (finding): the solvers of the subpackages (`ns2d.strat`, `ns3d.strat`, `ns3d.bouss`, `sw1l.exactlin`, `sphere.ns2d`, ...) are registered in other groups: `import_simul_class_from_key` and `fluidsim-bench -s` refuse all of them, with the short key as well as with the full one. The submission scripts of the documentation use `fluidsim-bench -s ns3d.strat`.

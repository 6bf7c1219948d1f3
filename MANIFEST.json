{
 "claims": [
  {
   "property": "C01",
   "status": "proved",
   "theorems": [
    "Verif.TimeLoop.C01_loop_ends_at_first_end",
    "Verif.TimeLoop.C01_is_simul_completed",
    "Verif.TimeLoop.C01_events_of_one_step",
    "Verif.TimeLoop.C01_terminates",
    "Verif.TimeLoop.C01_number_of_steps_it_end",
    "Verif.TimeLoop.C01_number_of_steps_fixed_dt",
    "Verif.TimeLoop.C01_start"
   ],
   "note": ""
  },
  {
   "property": "C02",
   "status": "proved",
   "theorems": [
    "Verif.TimeLoop.C02_stop_after_current_step",
    "Verif.TimeLoop.C02_request_does_not_change_the_step",
    "Verif.TimeLoop.C02_no_step_when_already_stopped",
    "Verif.TimeLoop.C02_mpi_ranks_agree"
   ],
   "note": ""
  },
  {
   "property": "C03",
   "status": "partial",
   "theorems": [
    "Verif.Cfl.C03_cfl_ux",
    "Verif.Cfl.C03_cfl_uxuy",
    "Verif.Cfl.C03_cfl_uxuyuz",
    "Verif.Cfl.C03_cfl_no_exception",
    "Verif.Cfl.C03_cfl_uxuyeta",
    "Verif.Cfl.C03_cfl_uxuyb",
    "Verif.Cfl.C03_cfl_U_partial",
    "Verif.Cfl.C03_cfl_U_negative_violated",
    "Verif.Cfl.C03_wave_limit_violated",
    "Verif.Cfl.C03_deltat_max_is_the_parameter",
    "Verif.Cfl.C03_cfl_coef",
    "Verif.Cfl.C03_method_choice",
    "Verif.Cfl.C03_strat_waves",
    "Verif.Cfl.C03_strat_init",
    "Verif.Cfl.C03_strat_rate_zero_violated",
    "Verif.Cfl.C03_nb_procs_violated",
    "Verif.Cfl.C03_nb_procs_ux",
    "Verif.Cfl.C03_nb_procs_uxuy_partial"
   ],
   "note": "The bounds on the time increments (advection, gravity waves of sw1l, internal waves and forcing of ns2d.strat, deltat_max) are proved for every field, grid and number of processes (C03_cfl_*, C03_strat_waves); the increment is independent of the number of processes with one velocity component (C03_nb_procs_ux). Findings: a negative constant velocity is ignored (C03_cfl_U_negative_violated), the wave limit on deltat_max is overwritten (C03_wave_limit_violated), ns2d.strat with forcing_rate = 0 raises (C03_strat_rate_zero_violated), with two components the increment depends on the number of processes (C03_nb_procs_violated; C03_nb_procs_uxuy_partial)."
  },
  {
   "property": "C04",
   "status": "partial",
   "theorems": [
    "Verif.Schemes.C04_euler_is_classical",
    "Verif.Schemes.C04_rk2_is_classical_midpoint",
    "Verif.Schemes.C04_rk2_trapezoid_is_heun",
    "Verif.Schemes.C04_rk4_is_classical",
    "Verif.Schemes.C04_simple_schemes_are_classical",
    "Verif.Schemes.C04_phaseshift_schemes_documented",
    "Verif.Schemes.C04_phaseshift_inplace_schemes_partial",
    "Verif.Schemes.C04_phaseshift_inplace_schemes_violated",
    "Verif.Schemes.C04_rk2_phaseshift_exact_is_heun_partial",
    "Verif.Schemes.C04_scheme_names",
    "Verif.Schemes.C04_name_gives_scheme"
   ],
   "note": "Proved for Euler, RK2, RK2_trapezoid, RK4 and phaseshift variants. For the in-place phase-shift schemes the equality needs tendencies that do not depend on the destination array (C04_phaseshift_inplace_schemes_partial); without it the statement is false (violated)."
  },
  {
   "property": "C05",
   "status": "proved",
   "theorems": [
    "Verif.Schemes.C05_linear_exact",
    "Verif.Schemes.C05_linear_exact_fixed_dt",
    "Verif.Schemes.C05_no_growth"
   ],
   "note": ""
  },
  {
   "property": "C06",
   "status": "partial",
   "theorems": [
    "Verif.Schemes.C06_coefs_are_current",
    "Verif.Schemes.C06_coefs_fixed_dt_partial",
    "Verif.Schemes.C06_modified_deltat_violated"
   ],
   "note": "Proved with USE_CFL; with a fixed time step a later change of deltat leaves stale coefficients (C06_modified_deltat_violated)."
  },
  {
   "property": "C07",
   "status": "partial",
   "theorems": [
    "Verif.Fourier.C07_spherical_truncation_partial",
    "Verif.Fourier.C07_spherical_anisotropic_violated",
    "Verif.Fourier.C07_1d_truncation_partial",
    "Verif.Fourier.C07_1d_truncation_violated"
   ],
   "note": "Proved for isotropic spherical truncation and for 1D sizes with strict truncation; the anisotropic spherical case and the 1D boundary mode are violated by the code."
  },
  {
   "property": "C08",
   "status": "partial",
   "theorems": [
    "Verif.Fourier.C08_pair_average_weights",
    "Verif.Fourier.C08_weights",
    "Verif.Fourier.C08_half_shift_weights",
    "Verif.Fourier.C08_phaseshift_and_truncation_exact",
    "Verif.Fourier.C08_no_multiple_aliases_violated"
   ],
   "note": "Weights of every alias proved for arbitrary dimension and sizes; the claim that the no_multiple_aliases truncation leaves no multiple alias is false of the code (C08_no_multiple_aliases_violated)."
  },
  {
   "property": "C09",
   "status": "partial",
   "theorems": [
    "Verif.PhasePool.C09_pairs_consistent",
    "Verif.PhasePool.C09_partner_within_half_cell",
    "Verif.PhasePool.C09_renewal",
    "Verif.PhasePool.C09_default_exchange_is_overwritten",
    "Verif.PhasePool.C09_mpi_ranks_violated"
   ],
   "note": "Consistency of each pair proved for every history on one process; ranks draw independently (C09_mpi_ranks_violated)."
  },
  {
   "property": "C10",
   "status": "partial",
   "theorems": [
    "Verif.StateInit.C10_spect_sets_exactly",
    "Verif.StateInit.C10_phys_sets_exactly",
    "Verif.StateInit.C10_unknown_key_raises",
    "Verif.StateInit.C10_setitem",
    "Verif.StateInit.C10_ns2d_consistent",
    "Verif.StateInit.C10_representations_violated",
    "Verif.StateInit.C10_ns2d_phys_from_ux_violated",
    "Verif.StateInit.C10_sphere_other_variables_violated",
    "Verif.StateInit.C10_rotb_consistent",
    "Verif.StateInit.C10_strat_consistent"
   ],
   "note": "Base classes: proved for every keyword list. Consistency of the two representations and zeroing of the other variables fail for some solver methods (C10_representations_violated, C10_ns2d_phys_from_ux_violated, C10_sphere_other_variables_violated)."
  },
  {
   "property": "C11",
   "status": "partial",
   "theorems": [
    "Verif.StateInit.C11_ns2d_keeps_all",
    "Verif.StateInit.C11_with_uxuy_keeps_all",
    "Verif.StateInit.C11_ns3d_keeps_all",
    "Verif.StateInit.C11_bouss_keeps_all_partial",
    "Verif.StateInit.C11_bouss_violated",
    "Verif.StateInit.C11_bouss_not_keeps_all",
    "Verif.StateInit.C11_strat_keeps_all_partial",
    "Verif.StateInit.C11_strat_violated",
    "Verif.StateInit.C11_sw1l_keeps_all_partial",
    "Verif.StateInit.C11_sw1l_violated",
    "Verif.StateInit.C11_plate2d_keeps_all_partial",
    "Verif.StateInit.C11_plate2d_violated",
    "Verif.StateInit.C11_sphere_violated",
    "Verif.StateInit.C11_ns2d_fields",
    "Verif.StateInit.C11_strat_fields",
    "Verif.StateInit.C11_ns3d_fields",
    "Verif.StateInit.C11_sw1l_fields",
    "Verif.StateInit.C11_sw1l_qa_partial",
    "Verif.StateInit.C11_sw1l_qa_violated"
   ],
   "note": "Proved for ns2d, ns2d.with_uxuy, ns3d*; false for ns2d.bouss, ns2d.strat, sw1l, plate2d and the sphere solvers (violated theorems), with the strongest true version as _partial theorems."
  },
  {
   "property": "C12",
   "status": "proved",
   "theorems": [
    "Verif.VarCache.C12_reads_are_current",
    "Verif.VarCache.C12_step_or_clear_refreshes",
    "Verif.VarCache.C12_value_unique",
    "Verif.VarCache.C12_same_within_iteration",
    "Verif.VarCache.C12_unknown_key",
    "Verif.VarCache.C12_write_after_read_violated",
    "Verif.VarCache.C12_zeros_are_cached_violated"
   ],
   "note": "Proved for arbitrary solvers and histories. C12_write_after_read_violated and C12_zeros_are_cached_violated show that the side conditions are needed."
  },
  {
   "property": "C13",
   "status": "proved",
   "theorems": [
    "Verif.Params.C13_union",
    "Verif.Params.C13_type_error",
    "Verif.Params.C13_idempotent",
    "Verif.Params.C13_many",
    "Verif.Params.C13_merge_params_type_fft",
    "Verif.Params.C13_current_fft_kept"
   ],
   "note": ""
  },
  {
   "property": "C14",
   "status": "proved",
   "theorems": [
    "Verif.Params.C14_fix_old_params",
    "Verif.Params.C14_idempotent",
    "Verif.Params.C14_new_params_untouched"
   ],
   "note": ""
  },
  {
   "property": "C15",
   "status": "partial",
   "theorems": [
    "Verif.Cadence.C15_diff_saves_at_first_due_call",
    "Verif.Cadence.C15_floor_saves_at_first_due_call",
    "Verif.Cadence.C15_no_save_without_has_to_save",
    "Verif.Cadence.C15_no_save_with_zero_period",
    "Verif.Cadence.C15_diff_spacing",
    "Verif.Cadence.C15_diff_count",
    "Verif.Cadence.C15_diff_no_gap",
    "Verif.Cadence.C15_floor_bins_violated",
    "Verif.Cadence.C15_floor_bins_partial",
    "Verif.Cadence.C15_floor_count",
    "Verif.Cadence.C15_floor_no_gap",
    "Verif.Cadence.C15_eager_first_call",
    "Verif.Cadence.C15_final_state_saved",
    "Verif.Cadence.C15_no_final_save_without_has_to_save"
   ],
   "note": "Difference test: full. Floor test: first due call, no gap, count; 'different bins' is refuted (tolerance added on one side only) and proved under a side condition."
  },
  {
   "property": "C16",
   "status": "partial",
   "theorems": [
    "Verif.Series.C16_aligned",
    "Verif.Series.C16_earlier_records_unchanged",
    "Verif.Series.C16_crash_safe",
    "Verif.Series.C16_missing_file_raises",
    "Verif.Series.C16_unknown_key_raises",
    "Verif.Series.C16_time_signals_restart_violated",
    "Verif.Series.C16_time_signals_partial",
    "Verif.Series.C16_probes_partial",
    "Verif.Series.C16_probes_restart_before_first_save_violated",
    "Verif.Series.C16_probes_same_name_violated"
   ],
   "note": "Full for all files written by SpecificOutput (also for crashes inside a save); refuted for time_signals_fft restarts and two corner cases of the probes, with partial theorems."
  },
  {
   "property": "C17",
   "status": "partial",
   "theorems": [
    "Verif.PhysFiles.C17_never_overwrites",
    "Verif.PhysFiles.C17_state_is_saved",
    "Verif.PhysFiles.C17_names_distinct",
    "Verif.PhysFiles.C17_time_from_name",
    "Verif.PhysFiles.C17_names_sorted_partial",
    "Verif.PhysFiles.C17_names_sorted_width7_partial",
    "Verif.PhysFiles.C17_order_without_t_end_violated",
    "Verif.PhysFiles.C17_order_same_thousandth_violated",
    "Verif.PhysFiles.C17_order_iterations_violated"
   ],
   "note": "Never overwriting another iteration, distinct names and recovering the time are proved for all histories; the alphabetic order of names is proved for USE_T_END runs up to 10 t_end with saves separated by a thousandth (and width 7 up to t=999); three violations of the order are proved."
  },
  {
   "property": "C18",
   "status": "partial",
   "theorems": [
    "Verif.PhysFiles.C18_closest_file",
    "Verif.PhysFiles.C18_last_file",
    "Verif.PhysFiles.C18_default_file",
    "Verif.PhysFiles.C18_error_iff_no_file",
    "Verif.PhysFiles.C18_get_closest_time_file",
    "Verif.PhysFiles.C18_default_is_latest_partial",
    "Verif.PhysFiles.C18_default_is_latest_violated",
    "Verif.PhysFiles.C18_update_times_partial",
    "Verif.PhysFiles.C18_update_times_violated"
   ],
   "note": "Selection by number, 'last', default and errors proved. 'default is the latest' only when names sort in time order (violation proved); update_times is current only when files are only added (violation proved)."
  },
  {
   "property": "C19",
   "status": "partial",
   "theorems": [
    "Verif.PhysFiles.C19_interpolation_partial",
    "Verif.PhysFiles.C19_at_saved_time",
    "Verif.PhysFiles.C19_error_iff_no_file",
    "Verif.PhysFiles.C19_extrapolation_violated"
   ],
   "note": "Exact linear interpolation inside the saved interval and at saved times; outside the interval the weights do not sum to one (violation proved)."
  },
  {
   "property": "C20",
   "status": "proved",
   "theorems": [
    "Verif.RunDirs.C20_own_directory",
    "Verif.RunDirs.C20_existing_directories_kept",
    "Verif.RunDirs.C20_terminates",
    "Verif.RunDirs.C20_no_mixed_resolution",
    "Verif.RunDirs.C20_same_resolution_reuses",
    "Verif.RunDirs.C20_missing_path_run_violated"
   ],
   "note": ""
  },
  {
   "property": "C21",
   "status": "partial",
   "theorems": [
    "Verif.RunDirs.C21_moved",
    "Verif.RunDirs.C21_stays",
    "Verif.RunDirs.C21_move_never_destroys",
    "Verif.RunDirs.C21_concurrent_moves_violated",
    "Verif.RunDirs.C21_mpi_ranks_violated",
    "Verif.RunDirs.C21_textual_prefix_violated"
   ],
   "note": "Sequential behaviour and no-loss proved for every file system; violations proved for concurrent moves, MPI ranks and textual prefix test."
  },
  {
   "property": "C22",
   "status": "partial",
   "theorems": [
    "Verif.RunDirs.C22_lock_while_advancing_partial",
    "Verif.RunDirs.C22_no_stale_lock_partial",
    "Verif.RunDirs.C22_lock_stays_until_release",
    "Verif.RunDirs.C22_two_processes_violated",
    "Verif.RunDirs.C22_other_process_releases_violated",
    "Verif.RunDirs.C22_sigterm_violated",
    "Verif.RunDirs.C22_test_then_write_violated",
    "Verif.RunDirs.C22_moved_lock_violated"
   ],
   "note": "Serial histories proved; five violations (second process, release by another process, SIGTERM, test-then-write race, lock moved with the directory) proved."
  },
  {
   "property": "C23",
   "status": "partial",
   "theorems": [
    "Verif.Restart.C23_t_end",
    "Verif.Restart.C23_it_end_partial",
    "Verif.Restart.C23_it_end_violated",
    "Verif.Restart.C23_started_iff",
    "Verif.Restart.C23_refused_partial",
    "Verif.Restart.C23_end_before_file_violated",
    "Verif.Restart.C23_only_check",
    "Verif.Restart.C23_new_dir",
    "Verif.Restart.C23_max_elapsed",
    "Verif.Restart.C23_exit_code"
   ],
   "note": "End time, start condition, exit code, directory choice proved; --it_end adds instead of sets (violation proved); the end check uses the rounded time of the name (violation proved)."
  },
  {
   "property": "C24",
   "status": "partial",
   "theorems": [
    "Verif.Modes.C24_2d_partial",
    "Verif.Modes.C24_2d_even",
    "Verif.Modes.C24_2d_odd_violated",
    "Verif.Modes.C24_state_2d_even",
    "Verif.Modes.C24_3d_upscaling_partial",
    "Verif.Modes.C24_3d_downscaling_violated",
    "Verif.Modes.C24_state_3d_upscaling_partial",
    "Verif.Modes.C24_mini3d_partial",
    "Verif.Modes.C24_mini3d_even"
   ],
   "note": "2D and mini-operator 3D: every common mode is copied for all sizes except that odd sizes lose the row -(n-1)/2 (C24_2d_odd_violated); 3D from a simulation: exact for upscaling, wrong for downscaling (C24_3d_downscaling_violated)"
  },
  {
   "property": "C25",
   "status": "partial",
   "theorems": [
    "Verif.Modes.C25_index_wavenumber_index",
    "Verif.Modes.C25_wavenumber_index_wavenumber",
    "Verif.Modes.C25_half_axis",
    "Verif.Modes.C25_3d_index",
    "Verif.Modes.C25_3d_wavenumber",
    "Verif.Modes.C25_3d_not_implemented",
    "Verif.Modes.C25_set_get",
    "Verif.Modes.C25_order_inverse",
    "Verif.Modes.C25_order_axes",
    "Verif.Modes.C25_order_missing_violated"
   ],
   "note": "all sizes; the orders (0,2,1) and (2,0,1) are refused by the code (C25_order_missing_violated)"
  },
  {
   "property": "C26",
   "status": "partial",
   "theorems": [
    "Verif.Coarse.C26_put_3d",
    "Verif.Coarse.C26_take_3d",
    "Verif.Coarse.C26_roundtrip_3d",
    "Verif.Coarse.C26_put_2d_ok_iff",
    "Verif.Coarse.C26_put_2d",
    "Verif.Coarse.C26_take_2d",
    "Verif.Coarse.C26_roundtrip_2d",
    "Verif.Coarse.C26_2d_distributed",
    "Verif.Coarse.C26_2d_not_transposed",
    "Verif.Coarse.C26_put_distributed_partial",
    "Verif.Coarse.C26_take_distributed_partial",
    "Verif.Coarse.C26_roundtrip_distributed_partial",
    "Verif.Coarse.C26_slab_order_refused",
    "Verif.Coarse.C26_take_slab_order_violated",
    "Verif.Coarse.C26_line_two_modes_violated",
    "Verif.Coarse.C26_line_one_mode_violated"
   ],
   "note": "one process: full statement in 2D and 3D; several processes: 2D full, 3D for the storage orders and coarse sizes that the branch supports; three findings"
  },
  {
   "property": "C27",
   "status": "partial",
   "theorems": [
    "Verif.Modes.C27_2d_distributed",
    "Verif.Modes.C27_2d_sequential",
    "Verif.Modes.C27_2d_error",
    "Verif.Modes.C27_2d_ky_outside_violated",
    "Verif.Modes.C27_2d_negative_kx_violated",
    "Verif.Modes.C27_3d_slab",
    "Verif.Modes.C27_3d_slab_unique",
    "Verif.Modes.C27_3d_block",
    "Verif.Modes.C27_3d_block_error_iff",
    "Verif.Modes.C27_3d"
   ],
   "note": "rank and local indices correct for wavenumbers of the grid; 2D does not check ky nor negative kx (violated theorems)"
  },
  {
   "property": "C28",
   "status": "proved",
   "theorems": [
    "Verif.Vectors.C28_orthogonal",
    "Verif.Vectors.C28_removes_gradient",
    "Verif.Vectors.C28_divergence_free_unchanged",
    "Verif.Vectors.C28_idempotent",
    "Verif.Vectors.C28_closest",
    "Verif.Vectors.C28_radial",
    "Verif.Vectors.C28_state_after_step",
    "Verif.Vectors.C28_state_always",
    "Verif.Vectors.C28_projection_neutral",
    "Verif.Vectors.C28_projection_option",
    "Verif.Vectors.C28_projection_option_effect",
    "Verif.Vectors.C28_gradient"
   ],
   "note": "project_perpk3d itself is in fluidfft: modelled by its documented effect (v minus project_kradial3d of v)"
  },
  {
   "property": "C29",
   "status": "proved",
   "theorems": [
    "Verif.Vectors.C29_poloidal_documented",
    "Verif.Vectors.C29_spherical_covers",
    "Verif.Vectors.C29_orthogonal_idempotents",
    "Verif.Vectors.C29_decomposition",
    "Verif.Vectors.C29_parts_divergence_free",
    "Verif.Vectors.C29_scalar_roundtrip",
    "Verif.Vectors.C29_scalar_energy",
    "Verif.Vectors.C29_urud"
   ],
   "note": ""
  },
  {
   "property": "C30",
   "status": "proved",
   "theorems": [
    "Verif.Vectors.C30_laplacian",
    "Verif.Vectors.C30_inverse",
    "Verif.Vectors.C30_odd_refused",
    "Verif.Vectors.C30_even_missing",
    "Verif.Vectors.C30_stream_function"
   ],
   "note": "K{n} and K{n}_not0 are arrays of fluidfft's operator: their meaning is the hypothesis Wavenumbers"
  },
  {
   "property": "C31",
   "status": "partial",
   "theorems": [
    "Verif.Forcing.C31_particular_mode_forced",
    "Verif.Forcing.C31_particular_mode_all_but_last_partial",
    "Verif.Forcing.C31_particular_last_violated",
    "Verif.Forcing.C31_particular_single_violated",
    "Verif.Forcing.C31_rate",
    "Verif.Forcing.C31_real_roots",
    "Verif.Forcing.C31_real_roots_of_rate_nonneg",
    "Verif.Forcing.C31_no_real_root",
    "Verif.Forcing.C31_zero_raw_forcing",
    "Verif.Forcing.C31_minabs",
    "Verif.Forcing.C31_positive",
    "Verif.Forcing.C31_options",
    "Verif.Forcing.C31_first_second_violated",
    "Verif.Forcing.C31_unknown_type_violated",
    "Verif.Forcing.C31_several_keys",
    "Verif.Forcing.C31_ns2d_energy",
    "Verif.Forcing.C31_ns2d_accepted",
    "Verif.Forcing.C31_strat_ap_energy",
    "Verif.Forcing.C31_strat_rot_energy",
    "Verif.Forcing.C31_strat_ap_energyK_violated",
    "Verif.Forcing.C31_particular_mode",
    "Verif.Forcing.Kolmo.C31_kolmogorov_positive",
    "Verif.Forcing.Kolmo.C31_kolmogorov_minabs",
    "Verif.Forcing.Kolmo.C31_kolmogorov_second_violated"
   ],
   "note": "Rate proved for the 2nd degree equation (all options, several keys, ns2d and ns2d.strat energies) and for the particular-mode normalisation; minabs and positive select the documented root. The particular mode is always a forced mode (C31_particular_mode_forced). Findings: the last forced mode is never drawn and a single forced mode raises an exception (randint(0, n - 1)); first/second follow the undocumented order of np.roots, energyK with ap forced in ns2d.strat uses only part of the velocity, an unknown type is silently accepted. Kolmogorov flow with a constant rate: the array is normalised in place at each call; for minabs and positive the force still does not depend on the previous calls, up to the choice between two opposite factors for minabs (C31_kolmogorov_positive, C31_kolmogorov_minabs). Finding: with \"second\" the force changes sign from the first to the second call."
  },
  {
   "property": "C32",
   "status": "proved",
   "theorems": [
    "Verif.Forcing.C32_rate",
    "Verif.Forcing.C32_band",
    "Verif.Forcing.C32_amplifies"
   ],
   "note": "Exact increase rate*dt for every state with positive band energy (negative rates: as long as the energy to remove is available); only the band is forced."
  },
  {
   "property": "C33",
   "status": "partial",
   "theorems": [
    "Verif.Forcing.C33_repeated_call",
    "Verif.Forcing.C33_later_call",
    "Verif.Forcing.C33_once_per_time",
    "Verif.Forcing.C33_every_time",
    "Verif.Forcing.C33_time_set_back_violated"
   ],
   "note": "At most one computation per time for every call sequence, and one at each time when times do not decrease; after the time is set back the forcing is stale (C33_time_set_back_violated)."
  },
  {
   "property": "C34",
   "status": "partial",
   "theorems": [
    "Verif.Forcing.C34_convex",
    "Verif.Forcing.C34_ends",
    "Verif.Forcing.C34_continuous",
    "Verif.Forcing.C34_no_jump",
    "Verif.Forcing.C34_restart",
    "Verif.Forcing.C34_restart_earlier_partial",
    "Verif.Forcing.C34_restart_noise_partial",
    "Verif.Forcing.C34_restart_noise_violated",
    "Verif.Forcing.C34_restart_before_change_violated",
    "Verif.Forcing.C34_restart_new_directory_violated",
    "Verif.Forcing.C34_crash_while_saving_violated"
   ],
   "note": "Convexity, end values, Lipschitz continuity across changes and exact restart proved; the restart claim is false if other code uses the generator, if the fields were saved before the last change, in a new directory, or after a crash while the file is written (violated theorems)."
  },
  {
   "property": "C35",
   "status": "partial",
   "theorems": [
    "Verif.Motion.C35_genuine_motion",
    "Verif.Motion.C35_period",
    "Verif.Motion.C35_default_parameters_violated",
    "Verif.Motion.C35_sinusoidal",
    "Verif.Motion.C35_uniform"
   ],
   "note": "Proved for all non-zero speeds and 0 < 2*length_acc <= length (also sinusoidal and uniform motions). The condition is not checked and the default parameters violate it: the location is then discontinuous (C35_default_parameters_violated)."
  },
  {
   "property": "C36",
   "status": "partial",
   "theorems": [
    "Verif.ForcedRegion.C36_shell_2d",
    "Verif.ForcedRegion.C36_nyquist_2d",
    "Verif.ForcedRegion.C36_shell_3d",
    "Verif.ForcedRegion.C36_nyquist_3d",
    "Verif.ForcedRegion.C36_whole_shell_2d_partial",
    "Verif.ForcedRegion.C36_square_domain",
    "Verif.ForcedRegion.C36_whole_shell_3d_partial",
    "Verif.ForcedRegion.C36_range_checked",
    "Verif.ForcedRegion.C36_anisotropic_domain_violated",
    "Verif.ForcedRegion.C36_kmax_violated",
    "Verif.ForcedRegion.C36_nyquist_1d_violated",
    "Verif.ForcedRegion.C36_anisotropic_2d",
    "Verif.ForcedRegion.C36_anisotropic_nyquist_2d",
    "Verif.ForcedRegion.C36_whole_box_2d",
    "Verif.ForcedRegion.C36_whole_sector_2d_partial",
    "Verif.ForcedRegion.C36_sector_violated",
    "Verif.ForcedRegion.C36_anisotropic_3d_partial",
    "Verif.ForcedRegion.C36_anisotropic_3d_violated",
    "Verif.ForcedRegion.C36_angle_violated",
    "Verif.ForcedRegion.C36_plot_box_2d",
    "Verif.ForcedRegion.C36_plot_sector_2d",
    "Verif.ForcedRegion.C36_plot_visible_partial",
    "Verif.ForcedRegion.C36_plot_points_3d",
    "Verif.ForcedRegion.C36_plot_text_violated",
    "Verif.ForcedRegion.C36_plot_negative_violated",
    "Verif.ForcedRegion.C36_plot_title_violated",
    "Verif.ForcedRegion.C36_plot_ticks_violated"
   ],
   "note": "shell masks (2D and 3D) and the 2D anisotropic masks are exactly the documented sets; coverage by the coarse grid proved under conditions; findings: non-square domains cut the shell, modes of norm kmax on the axes, 1D Nyquist, 3D anisotropic mask removes the ky=-1 row, sectors crossing the horizontal, angle measured from the vertical; the figure of the anisotropic forcing (PropsPlot): the drawn rectangle or the drawn arcs and segments are the boundary of the region and the red points are the forced modes (2D), findings: delta_angle given as a text makes the function fail, mirrored modes are outside the axes, the wavenumbers of the title and the ticks use the vertical deltak"
  },
  {
   "property": "C37",
   "status": "proved",
   "theorems": [
    "Verif.Energy.C37_energy",
    "Verif.Energy.C37_energy_default",
    "Verif.Energy.C37_tendency_admissible",
    "Verif.Energy.C37_energy_constant",
    "Verif.Energy.C37_helicity",
    "Verif.Energy.C37_strat",
    "Verif.Energy.C37_bouss",
    "Verif.Energy.C37_truncation"
   ],
   "note": "for every grid, truncation (aliased or not), rotation, projection and admissible state; constancy along exact solutions, helicity without rotation, ns3d.strat and ns3d.bouss with alias-free truncation"
  },
  {
   "property": "C38",
   "status": "proved",
   "theorems": [
    "Verif.Energy.C38_enstrophy",
    "Verif.Energy.C38_mean_vorticity",
    "Verif.Energy.C38_energy",
    "Verif.Energy.C38_default_truncation"
   ],
   "note": "enstrophy, energy and mean vorticity, with beta, for alias-free truncations; the default 2/3 truncation is shown to be one"
  },
  {
   "property": "C39",
   "status": "partial",
   "theorems": [
    "Verif.Sw1l.C39_roundtrip_uxuyeta",
    "Verif.Sw1l.C39_roundtrip_qapam",
    "Verif.Sw1l.C39_mean",
    "Verif.Sw1l.C39_mean_eta_violated",
    "Verif.Sw1l.C39_init_q_a",
    "Verif.Sw1l.C39_init_qa_partial",
    "Verif.Sw1l.C39_init_qa_violated",
    "Verif.Sw1l.C39_exactlin_velocity_partial",
    "Verif.Sw1l.C39_exactlin_mean_violated",
    "Verif.Sw1l.C39_eigenmodes",
    "Verif.Sw1l.C39_inertial_violated"
   ],
   "note": "round trips, eigenmodes, initialisation from q and from a proved; findings: mean eta lost by the conversion, init_from_qafft uses uxa for uy, mean velocity of the exactlin state wrong, inertial frequency has the wrong sign for f < 0"
  },
  {
   "property": "C40",
   "status": "partial",
   "theorems": [
    "Verif.Energy.C40_energy",
    "Verif.Strat.C40_eigenmodes",
    "Verif.Strat.C40_plane_wave_tendency",
    "Verif.Strat.C40_evolution",
    "Verif.Strat.C40_init",
    "Verif.Strat.C40_wave_solution",
    "Verif.Strat.C40_check_partial",
    "Verif.Strat.C40_check_violated",
    "Verif.Strat.C40_check_rate",
    "Verif.Strat.C40_check_energy_partial"
   ],
   "note": "eigenmodes, exact evolution and nonlinear wave solutions, initialisation from ap/am and energy exchange proved; finding: check_energy_conservation accepts any dissipative tendency (signed ratio)"
  },
  {
   "property": "C41",
   "status": "partial",
   "theorems": [
    "Verif.Energy.C41_energy_partial",
    "Verif.Energy.C41_half_truncation",
    "Verif.Energy.C41_rate_of_energy",
    "Verif.Energy.C41_two_thirds_violated"
   ],
   "note": "conservation proved when triads with two kept modes and any mode of chi are not aliased (coef_dealiasing <= 1/2); finding: with 2/3 it fails, since chi_fft is not truncated (rate 5 for an explicit state on a 10 x 10 grid)"
  },
  {
   "property": "C42",
   "status": "partial",
   "theorems": [
    "Verif.Models0d.C42_lorenz_fixed_points",
    "Verif.Models0d.C42_lorenz_rho_violated",
    "Verif.Models0d.C42_lotka_fixed_points",
    "Verif.Models0d.C42_lotka_potential",
    "Verif.Models0d.C42_lotka_potential_max",
    "Verif.Models0d.C42_print_partial",
    "Verif.Models0d.C42_print_violated",
    "Verif.Models0d.C42_load",
    "Verif.Models0d.C42_load_violated"
   ],
   "note": "Fixed points, potential and its maximum, printed potentials and loading are proved; missing: rho < 1 is refused (C42_lorenz_rho_violated), the printed variation is not the one since the last print (C42_print_violated), load drops the last record (C42_load_violated)."
  },
  {
   "property": "C43",
   "status": "partial",
   "theorems": [
    "Verif.FiniteDiff.C43_derivatives",
    "Verif.FiniteDiff.C43_small_grids_refused",
    "Verif.FiniteDiff.C43_sums",
    "Verif.FiniteDiff.C43_symmetry",
    "Verif.FiniteDiff.C43_polynomials",
    "Verif.FiniteDiff.C43_step_mean",
    "Verif.FiniteDiff.C43_step_equation",
    "Verif.FiniteDiff.C43_step_solvable",
    "Verif.FiniteDiff.C43_step_energy",
    "Verif.FiniteDiff.C43_accuracy",
    "Verif.FiniteDiff.C43_convergence",
    "Verif.FiniteDiff.C43_2d_operators_partial",
    "Verif.FiniteDiff.C43_2d_created_violated",
    "Verif.FiniteDiff.C43_2d_pyy_violated",
    "Verif.FiniteDiff.C43_2d_grid_violated"
   ],
   "note": "1D operators, Crank-Nicolson solvability, budget and convergence to the exact solution are proved; missing: the 2D operators (C43_2d_created_violated, C43_2d_pyy_violated, C43_2d_grid_violated)."
  },
  {
   "property": "C44",
   "status": "partial",
   "theorems": [
    "Verif.Dissip.C44_value",
    "Verif.Dissip.C44_small_scales",
    "Verif.Dissip.C44_hypo",
    "Verif.Dissip.C44_computed_partial",
    "Verif.Dissip.C44_hypo_1d_violated",
    "Verif.Dissip.C44_never_injects",
    "Verif.Dissip.C44_run_never_injects",
    "Verif.Dissip.C44_plate"
   ],
   "note": "The damping never injects and is exact over whole runs; in 1D a simulation with nu_m4 different from 0 cannot be created (C44_hypo_1d_violated)."
  },
  {
   "property": "C45",
   "status": "partial",
   "theorems": [
    "Verif.Preproc.C45_energy_partial",
    "Verif.Preproc.C45_enstrophy",
    "Verif.Preproc.C45_enstrophy_forcing",
    "Verif.Preproc.C45_unity",
    "Verif.Preproc.C45_energy_strat_violated",
    "Verif.Preproc.C45_viscosity",
    "Verif.Preproc.C45_viscosity_requested",
    "Verif.Preproc.C45_viscosity_rate",
    "Verif.Preproc.C45_time_scale",
    "Verif.Preproc.C45_time_partial",
    "Verif.Preproc.C45_time_violated",
    "Verif.Preproc.C45_units",
    "Verif.Preproc.C45_forcing_wavenumber",
    "Verif.Preproc.C45_energy_units_violated",
    "Verif.Preproc.C45_rate_units",
    "Verif.Preproc.C45_kolmogorov",
    "Verif.Preproc.C45_large_scale_violated"
   ],
   "note": "Normalised energies proved for states without buoyancy; ns2d.strat states with buoyancy lose it (C45_energy_strat_violated); preprocessing sets the time of a restarted simulation back to 0 (C45_time_violated). Viscosities follow the units and put the Kolmogorov scale at the requested length (C45_units, C45_kolmogorov, C45_rate_units), except with the scale energy (C45_energy_units_violated) and with a forcing wavenumber 0 (C45_large_scale_violated)."
  },
  {
   "property": "C46",
   "status": "partial",
   "theorems": [
    "Verif.Reduce.C46_mean_space",
    "Verif.Reduce.C46_pdf",
    "Verif.Reduce.C46_pdf_integral",
    "Verif.Reduce.C46_extrema",
    "Verif.Reduce.C46_horizontal_mean",
    "Verif.Reduce.C46_fluctuations",
    "Verif.Reduce.C46_flux",
    "Verif.Reduce.C46_flux_whole_domain",
    "Verif.Reduce.C46_fluxes",
    "Verif.Reduce.C46_region_partial",
    "Verif.Reduce.C46_region_violated",
    "Verif.Reduce.C46_region_after_violated"
   ],
   "note": "Means, histograms, extrema, horizontal means and fluxes proved for every distribution; means over regions only if x is not distributed (C46_region_violated)."
  },
  {
   "property": "C47",
   "status": "partial",
   "theorems": [
    "Verif.Extend.C47_original_unchanged",
    "Verif.Extend.C47_new_class",
    "Verif.Extend.C47_others_unchanged_partial",
    "Verif.Extend.C47_extended_class_violated",
    "Verif.Extend.C47_names",
    "Verif.Extend.C47_from_path"
   ],
   "note": "Never-extended classes are never modified; extending an extended class modifies it (C47_extended_class_violated)."
  },
  {
   "property": "C48",
   "status": "partial",
   "theorems": [
    "Verif.Increm.C48_separations_increasing",
    "Verif.Increm.C48_separations_least",
    "Verif.Increm.C48_separations",
    "Verif.Increm.C48_increments",
    "Verif.Increm.C48_structure_function",
    "Verif.Increm.C48_structure_function_error",
    "Verif.Increm.C48_absolute_violated",
    "Verif.Increm.C48_shells_partial",
    "Verif.Increm.C48_shells_violated",
    "Verif.Increm.C48_slots_partial",
    "Verif.Increm.C48_slots_violated",
    "Verif.Increm.C48_period_violated"
   ],
   "note": "Separations fully proved for every nx; shells and slots of time_signals_fft only under the stated conditions (C48_shells_violated, C48_slots_violated)."
  },
  {
   "property": "C49",
   "status": "partial",
   "theorems": [
    "Verif.Restart.C49_seconds_partial",
    "Verif.Restart.C49_number",
    "Verif.Restart.C49_day_or_more_violated"
   ],
   "note": "All texts HH:MM:SS of a time of the day; durations of 24 h or more are refused (violation proved). Unicode digits not modelled."
  },
  {
   "property": "C50",
   "status": "partial",
   "theorems": [
    "Verif.Restart.C50_returns_file_iff",
    "Verif.Restart.C50_raises_last_error_partial",
    "Verif.Restart.C50_error_hidden_violated",
    "Verif.Restart.C50_bounded"
   ],
   "note": "All failure patterns; an OSError without 'errno = ' becomes IndexError (violation proved)."
  },
  {
   "property": "C51",
   "status": "partial",
   "theorems": [
    "Verif.Burgers.C51_skew_quarter",
    "Verif.Burgers.C51_conserved_partial",
    "Verif.Burgers.C51_mean",
    "Verif.Burgers.C51_violated",
    "Verif.Burgers.C51_nl1d"
   ],
   "note": "Energy conserved by both Burgers forms for truncations with 3|k|<nx; the code's skew form does not conserve the energy of aliased states (finding), its rate is a quarter of that of the convective form for every state. nl1d: energy never increases."
  },
  {
   "property": "C52",
   "status": "partial",
   "theorems": [
    "Verif.Smagorinsky.C52_twice_documented",
    "Verif.Smagorinsky.C52_never_injects",
    "Verif.Smagorinsky.C52_solver",
    "Verif.Smagorinsky.C52_no_mean_force",
    "Verif.Smagorinsky.C52_galilean",
    "Verif.Smagorinsky.C52_documented_violated",
    "Verif.Smagorinsky.C52_type"
   ],
   "note": "The term never injects energy (all grids, truncations, real fields; also inside ns3d), no mean force, Galilean invariant; it is exactly twice the documented term (finding)."
  },
  {
   "property": "C53",
   "status": "partial",
   "theorems": [
    "Verif.Tendencies.C53_ns2d",
    "Verif.Tendencies.C53_ns2d_strat",
    "Verif.Tendencies.C53_ns3d",
    "Verif.Tendencies.C53_ns3d_bouss",
    "Verif.Tendencies.C53_sw1l",
    "Verif.Tendencies.C53_one_variable",
    "Verif.Tendencies.C53_ns3d_strat_inplace_value",
    "Verif.Tendencies.C53_ns3d_strat_violated",
    "Verif.Tendencies.C53_ns3d_strat_partial",
    "Verif.Tendencies.C53_ns3d_turb_model_violated",
    "Verif.Tendencies.C53_plate2d_inplace_value",
    "Verif.Tendencies.C53_plate2d_violated"
   ],
   "note": "Proved for ns2d, ns2d.strat, ns3d, ns3d.bouss, sw1l and one-variable solvers; false for ns3d.strat, plate2d and ns3d with a turbulence model (violated theorems)."
  },
  {
   "property": "C54",
   "status": "proved",
   "theorems": [
    "Verif.Sw1l.C54_energy"
   ],
   "note": "for every real state and alias-free truncation"
  },
  {
   "property": "C55",
   "status": "partial",
   "theorems": [
    "Verif.Sw1l.C55_onlywaves_partial",
    "Verif.Sw1l.C55_global_state_violated",
    "Verif.Sw1l.C55_negative_f_violated"
   ],
   "note": "holds for f = 0 or for the current state with f > 0; findings: global state used when f > 0, vorticity dropped when f < 0"
  },
  {
   "property": "C56",
   "status": "proved",
   "theorems": [
    "Verif.Sw1l.C56_exactlin_same_equations",
    "Verif.Sw1l.C56_mass"
   ],
   "note": "for states without mean q; for the mean mode f >= 0 is assumed (negative f: C39_inertial_violated)"
  },
  {
   "property": "C57",
   "status": "partial",
   "theorems": [
    "Verif.Galerkin.C57_no_alias",
    "Verif.Galerkin.C57_ns2d",
    "Verif.Galerkin.C57_ns2d_strat",
    "Verif.Galerkin.C57_ns2d_bouss",
    "Verif.Galerkin.C57_ns3d",
    "Verif.Galerkin.C57_ns3d_strat",
    "Verif.Galerkin.C57_sw1l",
    "Verif.Galerkin.C57_burgers",
    "Verif.Galerkin.C57_plate2d_partial",
    "Verif.Galerkin.C57_plate2d_violated",
    "Verif.Galerkin.C57_sw1l_modified",
    "Verif.Galerkin.C57_sw1l_exactlin_modified_partial",
    "Verif.Galerkin.C57_sw1l_exactlin_modified_violated"
   ],
   "note": "Exact Galerkin truncation proved for the quadratic solvers under the alias-free truncations; plate2d: only with a 1/2 truncation, and the 2/3 rule (default) is proved to leave aliasing of the cubic term. sw1l.modified: advection by the rotational part (C57_sw1l_modified); sw1l.exactlin.modified: the same equations on the global state (C57_sw1l_exactlin_modified_partial), but the vorticity used for intermediate Runge-Kutta states is the one of the global state (C57_sw1l_exactlin_modified_violated)."
  },
  {
   "property": "C58",
   "status": "partial",
   "theorems": [
    "Verif.SpectBudget.C58_ns2d",
    "Verif.SpectBudget.C58_ns2d_sums",
    "Verif.SpectBudget.C58_strat",
    "Verif.SpectBudget.C58_strat_sums",
    "Verif.SpectBudget.C58_ns3d",
    "Verif.SpectBudget.C58_ns3d_partial",
    "Verif.SpectBudget.C58_hypo_violated",
    "Verif.SpectBudget.C58_ns3d_sum",
    "Verif.SpectBudget.C58_assert_violated",
    "Verif.SpectBudget.C58_ns3d_components_partial",
    "Verif.SpectBudget.C58_ns3d_strat",
    "Verif.SpectBudget.C58_ns3d_strat_sum",
    "Verif.SpectBudget.C58_flux",
    "Verif.SpectBudget.C58_flux_kzkh",
    "Verif.SpectBudget.C58_flux_last",
    "Verif.SpectBudget.C58_coriolis_violated",
    "Verif.SpectBudget.C58_strat_epsilon_partial",
    "Verif.SpectBudget.C58_strat_epsilon_violated"
   ],
   "note": "Proved for ns2d and ns2d.strat, and for ns3d and ns3d.strat up to the hypo-dissipation, which the saved dissipation leaves out (C58_hypo_violated). With rotation the horizontal and vertical budgets do not close separately (C58_coriolis_violated; C58_ns3d_components_partial without rotation). The check made after each computation is one-sided. The distribution of modes over bins (fluidfft) is a contract; the budget of sw1l is not modelled. C58_strat_epsilon_partial and C58_strat_epsilon_violated: the dissipation rates saved with the budget of ns2d.strat (the width of the bins is missing)."
  },
  {
   "property": "C59",
   "status": "partial",
   "theorems": [
    "Verif.SpatialMeans.C59_ns2d_means",
    "Verif.SpatialMeans.C59_ns2d_injection",
    "Verif.SpatialMeans.C59_ns2d_budget",
    "Verif.SpatialMeans.C59_strat_energies",
    "Verif.SpatialMeans.C59_strat_injection",
    "Verif.SpatialMeans.C59_strat_budget",
    "Verif.SpatialMeans.C59_strat_PA2_violated",
    "Verif.SpatialMeans.C59_ns3d_means",
    "Verif.SpatialMeans.C59_ns3d_injection",
    "Verif.SpatialMeans.C59_ns3d_budget",
    "Verif.SpatialMeans.C59_ns3d_hyper",
    "Verif.SpatialMeans.C59_ns3dstrat_energies",
    "Verif.SpatialMeans.C59_ns3dstrat_injection",
    "Verif.SpatialMeans.C59_ns3dstrat_budget",
    "Verif.SpatialMeans.C59_plate_energies",
    "Verif.SpatialMeans.C59_plate_injection",
    "Verif.SpatialMeans.C59_plate_budget",
    "Verif.SpatialMeans.C59_exactlin_injection_partial",
    "Verif.SpatialMeans.C59_rotdiv_force",
    "Verif.SpatialMeans.C59_onlywaves_force_partial",
    "Verif.SpatialMeans.C59_onlywaves_injection_violated",
    "Verif.SpatialMeans.C59_dissipation_parts",
    "Verif.SpatialMeans.C59_ns3d_hyper_columns",
    "Verif.SpatialMeans.C59_msw_rotational",
    "Verif.SpatialMeans.C59_sw1l_rotational_partial",
    "Verif.SpatialMeans.C59_sw1l_rotational_violated",
    "Verif.SpatialMeans.C59_msw_injection",
    "Verif.SpatialMeans.C59_msw_dissipation",
    "Verif.SpatialMeans.C59_sw1l_means",
    "Verif.SpatialMeans.C59_sw1l_dissipation",
    "Verif.SpatialMeans.C59_sw1l_injection_partial",
    "Verif.SpatialMeans.C59_sw1l_injection_violated",
    "Verif.SpatialMeans.C59_sw1l_conversion",
    "Verif.SpatialMeans.C59_sw1l_kurtosis_partial",
    "Verif.SpatialMeans.C59_sw1l_kurtosis_violated"
   ],
   "note": "Proved for ns2d, ns3d, ns3d.strat, plate2d, sw1l.modified, and for ns2d.strat but the printed PA2 (C59_strat_PA2_violated). For sw1l the energies, the dissipations, PA and PK1 are exact (C59_sw1l_injection_partial); PK2 has half of the quadratic term (C59_sw1l_injection_violated); the kurtosis is right sequentially (C59_sw1l_kurtosis_partial) and local to a process with MPI (C59_sw1l_kurtosis_violated). The text format is C60; EKr of sw1l is modelled, without a theorem. Force used for the injection rates of the shallow-water solvers in other variables: sw1l.exactlin (C59_exactlin_injection_partial), vorticity and divergence (C59_rotdiv_force), sw1l.onlywaves (C59_onlywaves_force_partial); not true of the code: for sw1l.onlywaves the divergent part of the force is dropped, so that the saved injection rates can be zero although the force gives energy (C59_onlywaves_injection_violated)."
  },
  {
   "property": "C60",
   "status": "partial",
   "theorems": [
    "Verif.MeansFile.C60_round_trip",
    "Verif.MeansFile.C60_incomplete_partial",
    "Verif.MeansFile.C60_incomplete_violated",
    "Verif.MeansFile.C60_first_record_violated",
    "Verif.MeansFile.C60_cut_number_violated",
    "Verif.MeansFile.C60_crash_restart_violated",
    "Verif.MeansFile.C60_nu4_restart_violated",
    "Verif.MeansFile.C60_nu4_restart_shift_violated",
    "Verif.MeansFile.C60_time_first",
    "Verif.MeansFile.C60_time_first_violated",
    "Verif.MeansFile.C60_time_last",
    "Verif.MeansFile.C60_time_last_short",
    "Verif.MeansFile.C60_json_time_first",
    "Verif.MeansFile.C60_json_time_last_partial",
    "Verif.MeansFile.C60_sw1l_time_last_violated",
    "Verif.MeansFile.C60_time_means_partial",
    "Verif.MeansFile.C60_time_means_restart_violated",
    "Verif.MeansFile.C60_time_means_end"
   ],
   "note": "The round trip holds for every sequence of complete records with the same options (C60_round_trip) and the first and last times are right (C60_time_first, C60_time_last, C60_time_last_short, C60_json_time_first). An interruption between two lines is harmless only for ns3d and ns3d.strat with a complete record before and no restart after (C60_incomplete_partial; C60_incomplete_violated, C60_first_record_violated, C60_crash_restart_violated); an interruption inside a number gives a wrong number (C60_cut_number_violated); adding nu_4 at a restart makes load fail or shift the arrays (C60_nu4_restart_violated, C60_nu4_restart_shift_violated); time_first_saved loops for ever without time in the file; time_last_saved of the JSON file fails when the record is longer than 1000 bytes, which is usual for the forced sw1l (C60_json_time_last_partial, C60_sw1l_time_last_violated); the time means use records out of the interval after a restart from an earlier time (C60_time_means_restart_violated). Formatting and parsing of one number, and json.dumps/loads, are contracts (NumOk, JsonOk). pd.read_json and load_dataset are not modelled."
  },
  {
   "property": "C61",
   "status": "partial",
   "theorems": [
    "Verif.Spectra.C61_one_process",
    "Verif.Spectra.C61_restarts",
    "Verif.Spectra.C61_kzkh_cadence_partial",
    "Verif.Spectra.C61_kzkh_cadence_violated",
    "Verif.Spectra.C61_kills",
    "Verif.Spectra.C61_kill_at_creation_violated",
    "Verif.Spectra.C61_enable_at_restart_violated",
    "Verif.Spectra.C61_loaded_strat",
    "Verif.Spectra.C61_loaded_ns3d_violated",
    "Verif.Spectra.C61_loaded_kzkh_violated",
    "Verif.Spectra.C61_loaded_keys",
    "Verif.Spectra.C61_cross_pairs",
    "Verif.Spectra.C61_cross_only_pairs",
    "Verif.Spectra.C61_cross_names",
    "Verif.Spectra.C61_cross_values",
    "Verif.Spectra.C61_cross_total",
    "Verif.Spectra.C61_cross_bound",
    "Verif.Spectra.C61_cross_small_key",
    "Verif.Spectra.C61_mean_all",
    "Verif.Spectra.C61_mean_bounds",
    "Verif.Spectra.C61_mean_additive",
    "Verif.Spectra.C61_mean_restart_violated",
    "Verif.Spectra.C61_spectra_relations",
    "Verif.Spectra.C61_isotropy",
    "Verif.Spectra.C61_length_scales"
   ],
   "note": "Proved: one process (C61_one_process), the two main files over restarts and kills (C61_restarts, C61_kills), the relations between the spectra and the energy (C61_spectra_relations), the means with increasing times (C61_mean_*), the isotropy coefficient and the length scales. Not true of the code: the cadence of the (kz, kh) spectra is shifted by each restart (C61_kzkh_cadence_violated; exact description in C61_kzkh_cadence_partial); enabling kzkh_periodicity at a restart makes the simulation raise (C61_enable_at_restart_violated); a kill between the creations of the files makes every restart raise (C61_kill_at_creation_violated); Khr and Khd of ns3d are not loaded by load1d_mean and load3d_mean, and load_kzkh_mean() without key loads no spectrum (C61_loaded_ns3d_violated, C61_loaded_kzkh_violated); the means after a restart from an earlier time (C61_mean_restart_violated). fluidfft's mode-to-bin function is a contract (IsSpectrum). Cross-correlations (cross_corr3d.py): pairs of variables, names, totals, relation to the energy spectra, bound in each bin (C61_cross_*)."
  },
  {
   "property": "C62",
   "status": "partial",
   "theorems": [
    "Verif.SpatioTemporal.C62_placement",
    "Verif.SpatioTemporal.C62_no_empty_cell",
    "Verif.SpatioTemporal.C62_load_from_start",
    "Verif.SpatioTemporal.C62_load_partial",
    "Verif.SpatioTemporal.C62_load_violated",
    "Verif.SpatioTemporal.C62_load_error_violated",
    "Verif.SpatioTemporal.C62_axes_partial",
    "Verif.SpatioTemporal.C62_axes_violated",
    "Verif.SpatioTemporal.C62_temporal_load_partial",
    "Verif.SpatioTemporal.C62_temporal_tmax_violated",
    "Verif.SpatioTemporal.C62_temporal_files_violated",
    "Verif.SpatioTemporal.C62_urud",
    "Verif.SpatioTemporal.C62_kinetic_energy",
    "Verif.SpatioTemporal.C62_plot_kh",
    "Verif.SpatioTemporal.C62_plot_kz",
    "Verif.SpatioTemporal.C62_plot_omega_partial",
    "Verif.SpatioTemporal.C62_plot_omega_violated",
    "Verif.SpatioTemporal.C62_resonant",
    "Verif.SpatioTemporal.C62_compensated",
    "Verif.SpatioTemporal.C62_default_tmin_violated",
    "Verif.SpatioTemporal.C62_default_tmin_partial",
    "Verif.SpatioTemporal.C62_reuse_partial",
    "Verif.SpatioTemporal.C62_reuse_violated",
    "Verif.SpatioTemporal.C62_temporal_file_names",
    "Verif.SpatioTemporal.C62_temporal_requests",
    "Verif.SpatioTemporal.C62_tplot_key",
    "Verif.SpatioTemporal.C62_tplot_strat",
    "Verif.SpatioTemporal.C62_tplot_key_violated",
    "Verif.SpatioTemporal.C62_tplot_unknown_key_violated",
    "Verif.SpatioTemporal.C62_parseval",
    "Verif.SpatioTemporal.C62_normalisation_violated",
    "Verif.SpatioTemporal.C62_onesided_partial",
    "Verif.SpatioTemporal.C62_onesided_violated",
    "Verif.SpatioTemporal.C62_frequencies_violated",
    "Verif.SpatioTemporal.C62_temporal_sum",
    "Verif.SpatioTemporal.C62_temporal_compute_partial",
    "Verif.SpatioTemporal.C62_temporal_compute_violated",
    "Verif.SpatioTemporal.C62_kzkh_total",
    "Verif.SpatioTemporal.C62_kzkh_moment",
    "Verif.SpatioTemporal.C62_kzkh_rows",
    "Verif.SpatioTemporal.C62_kzkh_vs_temporal",
    "Verif.SpatioTemporal.C62_omega_emp",
    "Verif.SpatioTemporal.C62_delta_omega",
    "Verif.SpatioTemporal.C62_path_partial",
    "Verif.SpatioTemporal.C62_path_interval",
    "Verif.SpatioTemporal.C62_path_violated",
    "Verif.SpatioTemporal.C62_single_precision_violated"
   ],
   "note": "Proved: placement of the modes (C62_placement, C62_no_empty_cell), loading from the start (C62_load_from_start) and for regular files (C62_load_partial), Parseval for the first spectrum (C62_parseval), folding for an odd number of times, sums over the Fourier space (C62_temporal_sum), (kz, kh) bins (C62_kzkh_*), empirical frequency (C62_omega_emp, C62_delta_omega). Not true of the code: files of unequal duration (C62_load_violated, C62_load_error_violated), axis orders which are cyclic permutations (C62_axes_violated), temporal_spectra with a tmax before the last file or processes with fewer files (C62_temporal_tmax_violated, C62_temporal_files_violated), a second spectrum with another number of times (C62_normalisation_violated), the Nyquist frequency for an even number of times (C62_onesided_violated, C62_frequencies_violated), compute_temporal_spectra when Lx is not 2 pi (C62_temporal_compute_violated), files found without dtype (C62_path_violated), times in single precision (C62_single_precision_violated). The Fourier transform of scipy.signal.periodogram is a contract (dft, periodogram). Toroidal and poloidal spectra (C62_urud, C62_kinetic_energy), figures (C62_plot_*, C62_resonant, C62_compensated), reuse of saved spectra (C62_reuse_partial); not true of the code: plot_kzkhomega with plot_omega_emp at constant frequency (C62_plot_omega_violated), default tmin without saved spectra (C62_default_tmin_violated), stale temporal spectra (C62_reuse_violated). Files of the temporal spectra: different requests have different files (C62_temporal_file_names) and every sequence of plot_spectra, save_spectra and load_spectra gives each call the spectra of its own request (C62_temporal_requests); figure of the temporal spectra (C62_tplot_key, C62_tplot_strat); not true of the code: with a stratification the argument key is ignored, even an unknown key (C62_tplot_key_violated, C62_tplot_unknown_key_violated)."
  },
  {
   "property": "C63",
   "status": "partial",
   "theorems": [
    "Verif.Prescribed.C63_objects",
    "Verif.Prescribed.C63_solid_inside",
    "Verif.Prescribed.C63_solid_outside",
    "Verif.Prescribed.C63_solid_motion",
    "Verif.Prescribed.C63_solid_long_violated",
    "Verif.Prescribed.C63_relaxation",
    "Verif.Prescribed.C63_relaxation_y",
    "Verif.Prescribed.C63_decay_violated",
    "Verif.Prescribed.C63_force",
    "Verif.Prescribed.C63_force_z_violated",
    "Verif.Prescribed.C63_force_ns2d_partial",
    "Verif.Prescribed.C63_force_ns2d_violated",
    "Verif.Prescribed.C63_coarse_partial",
    "Verif.Prescribed.C63_coarse_violated",
    "Verif.Prescribed.C63_taylor_green",
    "Verif.Prescribed.C63_taylor_green_divergence_partial",
    "Verif.Prescribed.C63_taylor_green_divergence_violated",
    "Verif.Prescribed.C63_kolmo_setup",
    "Verif.Prescribed.C63_kolmo_modes",
    "Verif.Prescribed.C63_kolmo_ns2d",
    "Verif.Prescribed.C63_kolmo_own_direction_violated",
    "Verif.Prescribed.C63_kolmo_normalized_violated",
    "Verif.Prescribed.C63_watu_signal",
    "Verif.Prescribed.C63_watu_samples",
    "Verif.Prescribed.C63_watu_mask",
    "Verif.Prescribed.C63_watu_width",
    "Verif.Prescribed.C63_watu_relaxation",
    "Verif.Prescribed.C63_watu_boards_partial",
    "Verif.Prescribed.C63_watu_boards_violated"
   ],
   "note": "Proved: positions of the objects (C63_objects), solid field inside and outside of the objects and of all their periodic images (C63_solid_inside, C63_solid_outside) for the uniform motion and for motions of length at most 2 Lx (C63_solid_motion), relaxation without overshoot (C63_relaxation, C63_relaxation_y, C63_watu_relaxation), Taylor-Green force in domains with Lx = Ly, modes of the Kolmogorov flow and its velocity in ns2d, signals and masks of the wave makers. Not true of the code: motions longer than 2 Lx (C63_solid_long_violated), decay announced in the comment (C63_decay_violated), vertical component (C63_force_z_violated), y component in the vorticity solvers (C63_force_ns2d_violated), ny of the coarse grid (C63_coarse_violated), divergence when Lx differs from Ly, gradient along the own direction of the component, normalised Kolmogorov flow with ik above the size of the coarse grid, signals left by another simulation."
  },
  {
   "property": "C64",
   "status": "partial",
   "theorems": [
    "Verif.InitFields.C64_cutoff",
    "Verif.InitFields.C64_length",
    "Verif.InitFields.C64_length_violated",
    "Verif.InitFields.C64_noise_ns2d",
    "Verif.InitFields.C64_noise_ns2d_modes",
    "Verif.InitFields.C64_noise_plate2d_partial",
    "Verif.InitFields.C64_noise_plate2d_violated",
    "Verif.InitFields.C64_noise_ns3d",
    "Verif.InitFields.C64_noise_ns3d_buoyancy_partial",
    "Verif.InitFields.C64_noise_ns3d_buoyancy_violated",
    "Verif.InitFields.C64_noise_base",
    "Verif.InitFields.C64_ad1d_gaussian_shape",
    "Verif.InitFields.C64_jet_amplitude",
    "Verif.InitFields.C64_dipole_vortices",
    "Verif.InitFields.C64_dipole_images",
    "Verif.InitFields.C64_linear_mode_error",
    "Verif.InitFields.C64_from_file_legacy",
    "Verif.InitFields.C64_constant_partial",
    "Verif.InitFields.C64_constant_violated",
    "Verif.InitFields.C64_ad1d_gaussian",
    "Verif.InitFields.C64_ad1d_cos_violated",
    "Verif.InitFields.C64_jet",
    "Verif.InitFields.C64_dipole",
    "Verif.InitFields.C64_wave_partial",
    "Verif.InitFields.C64_wave_violated",
    "Verif.InitFields.C64_vortex_signs",
    "Verif.InitFields.C64_vortex_grid",
    "Verif.InitFields.C64_linear_mode_partial",
    "Verif.InitFields.C64_linear_mode_violated",
    "Verif.InitFields.C64_from_file_partial",
    "Verif.InitFields.C64_from_file_mismatch",
    "Verif.InitFields.C64_from_file_violated",
    "Verif.InitFields.C64_selection"
   ],
   "note": "Proved for every draw: C64_cutoff, C64_noise_ns2d, C64_noise_ns2d_modes, C64_noise_ns3d (maximum, divergence, mean, truncation); other types and files with the names of the axes. Not true of the code: default lengths, maximum of w in plate2d, truncation of the buoyancy in ns3d, constant in ns2d, cosine in the pseudo-spectral ad1d, amplitude of the wave of sw1l, linear modes outside of the square of side min(nkx, nky), 3D files without axes. Missing: the noise of sw1l, the spectra of init_fields, the manual type."
  },
  {
   "property": "C65",
   "status": "partial",
   "theorems": [
    "Verif.Spectra2d.C65_files_partial",
    "Verif.Spectra2d.C65_files_agree",
    "Verif.Spectra2d.C65_creation_violated",
    "Verif.Spectra2d.C65_load_means",
    "Verif.Spectra2d.C65_load1d_axis_partial",
    "Verif.Spectra2d.C65_load1d_axis_violated",
    "Verif.Spectra2d.C65_load1d_means_partial",
    "Verif.Spectra2d.C65_load1d_means_violated",
    "Verif.Spectra2d.C65_plot_times_partial",
    "Verif.Spectra2d.C65_plot_times_violated",
    "Verif.Spectra2d.C65_plot_keys_partial",
    "Verif.Spectra2d.C65_plot_keys_violated",
    "Verif.Spectra2d.C65_plot_rows",
    "Verif.Spectra2d.C65_plot_rows_violated",
    "Verif.Spectra2d.C65_curves_partial",
    "Verif.Spectra2d.C65_curves_step",
    "Verif.Spectra2d.C65_curves_violated",
    "Verif.Spectra2d.C65_plate_curves_partial",
    "Verif.Spectra2d.C65_plate_curves_violated",
    "Verif.Spectra2d.C65_sw1l_select",
    "Verif.Spectra2d.C65_plot_diss_partial",
    "Verif.Spectra2d.C65_plot_diss_violated",
    "Verif.Spectra2d.C65_start_keeps",
    "Verif.Spectra2d.C65_load1d_means_select",
    "Verif.Spectra2d.C65_load2d_axis",
    "Verif.Spectra2d.C65_sw1l_same",
    "Verif.Spectra2d.C65_ns2d",
    "Verif.Spectra2d.C65_ns2dstrat",
    "Verif.Spectra2d.C65_plate2d",
    "Verif.Spectra2d.C65_sw1l_linear",
    "Verif.Spectra2d.C65_normal_modes_partial",
    "Verif.Spectra2d.C65_qda_energies_violated",
    "Verif.Spectra2d.C65_msw",
    "Verif.Spectra2d.C65_sw1l",
    "Verif.Spectra2d.C65_sw1l_linear_spectra_partial",
    "Verif.Spectra2d.C65_sw1l_linear_spectra_violated"
   ],
   "note": "Proved: C65_files_partial and C65_files_agree (all histories), C65_load_means, C65_plot_rows, C65_curves_step, C65_sw1l_select, C65_ns2d, C65_ns2dstrat, C65_plate2d, C65_msw, C65_sw1l, C65_sw1l_linear. Not true of the code: a kill between the creations of the two files, wavenumbers along ky, files with one record, the last record of plot, keys of plot, odd numbers of points, plate at rest, two viscosities in plot_diss, mean mode in the linear spectra, halves of compute_qda_energies_fft. Missing: online plots, movies of the spectra, the Ertel potential enstrophy; fluidfft's binning is a contract."
  },
  {
   "property": "C66",
   "status": "partial",
   "theorems": [
    "Verif.StdOut.C66_load_partial",
    "Verif.StdOut.C66_load_violated",
    "Verif.StdOut.C66_load_cut",
    "Verif.StdOut.C66_load_restart_violated",
    "Verif.StdOut.C66_full_clock_partial",
    "Verif.StdOut.C66_times_damaged",
    "Verif.StdOut.C66_duration_damaged",
    "Verif.StdOut.C66_plot_clock_partial",
    "Verif.StdOut.C66_plot_mean_violated",
    "Verif.StdOut.C66_plot_short_violated",
    "Verif.StdOut.C66_duration_text",
    "Verif.StdOut.C66_times_partial",
    "Verif.StdOut.C66_times_it_end_violated",
    "Verif.StdOut.C66_estimates",
    "Verif.StdOut.C66_clock_partial",
    "Verif.StdOut.C66_clock_violated",
    "Verif.StdOut.C66_start_last_partial",
    "Verif.StdOut.C66_start_last_saved",
    "Verif.StdOut.C66_start_last_stale_violated",
    "Verif.StdOut.C66_start_last_no_info_violated",
    "Verif.StdOut.C66_last_duration",
    "Verif.StdOut.C66_no_duration_partial"
   ],
   "note": "Proved: C66_load_partial (all logs over restarts), C66_load_cut (every cut of the last message), C66_duration_text (all durations), C66_times_partial, C66_estimates, C66_clock_partial (recovered clock time within the rounding), C66_start_last_partial, C66_start_last_saved, C66_last_duration, C66_no_duration_partial. Not true of the code: the last information is never loaded, energies shifted with respect to the times after an interrupted information and a restart, UnboundLocalError of _load_times for simulations with it_end, zero clock time when two printed times are equal, times_start_last_from_path returning the first time as last one or never returning. The formatting of numbers is a contract; models0d are not modelled. Figure of the clock times (PropsPlot): C66_plot_clock_partial; findings C66_plot_mean_violated (the printed mean is over the lines of the log), C66_plot_short_violated (IndexError for one estimate of zero seconds)."
  },
  {
   "property": "C67",
   "status": "partial",
   "theorems": [
    "Verif.Pdf.C67_pdf",
    "Verif.Pdf.C67_pdf_empty",
    "Verif.Pdf.C67_structure_error",
    "Verif.Pdf.C67_record",
    "Verif.Pdf.C67_load_mean_partial",
    "Verif.Pdf.C67_load_one",
    "Verif.Pdf.C67_load_mean_violated",
    "Verif.Pdf.C67_load_empty",
    "Verif.Pdf.C67_pdf_u_partial",
    "Verif.Pdf.C67_pdf_u_violated",
    "Verif.Pdf.C67_sw1l_structure_partial",
    "Verif.Pdf.C67_sw1l_structure_violated",
    "Verif.Pdf.C67_interp",
    "Verif.Pdf.C67_figure_curve",
    "Verif.Pdf.C67_figure_partial",
    "Verif.Pdf.C67_figure_one_record_violated",
    "Verif.Pdf.C67_online_figure_violated",
    "Verif.Pdf.C67_flatness",
    "Verif.Pdf.C67_plot_partial",
    "Verif.Pdf.C67_plot_one_record_violated",
    "Verif.Pdf.C67_plot_sw1l_partial",
    "Verif.Pdf.C67_plot_sw1l_violated",
    "Verif.Pdf.C67_flatness_violated",
    "Verif.Pdf.C67_plot_units",
    "Verif.Pdf.C67_plot_pdf",
    "Verif.Pdf.C67_plot_pdf_colors_violated",
    "Verif.Pdf.C67_plot_pdf_repeated_violated",
    "Verif.Pdf.C67_plot_kolmo",
    "Verif.Pdf.C67_plot_kolmo_violated"
   ],
   "note": "Proved: C67_pdf, C67_pdf_empty, C67_structure_error (all orders), C67_record, C67_load_one, C67_load_mean_partial (same ranges), C67_load_empty, C67_pdf_u_partial, C67_sw1l_structure_partial. Not true of the code: the pdf averaged over records of different ranges is not normalised (the integral is unbounded), pdf_u with MPI uses the mean of each process, the structure functions of sw1l with MPI only contain the lines of the first process. Figures (PropsPlot): C67_plot_partial (abscissas, ordinates up to the width of the bins, flatness at least one), C67_plot_units, C67_flatness, C67_plot_pdf, C67_plot_sw1l_partial, C67_plot_kolmo. Not true of the code: plot with one record raises, the flatness over records of different ranges can be smaller than one, plot_pdf with more than seven densities raises and repeats densities if there are fewer separations, plot of sw1l with one record and delta_t=0 divides by zero, the curves of plot_Kolmo compared to one are not divided by the rate of energy. Figure of the probability density functions (C67_figure_curve, C67_figure_partial: two records or more, delta_t not negative, tmin before tmax); not true of the code: plot(delta_t=0) with one record raises (C67_figure_one_record_violated), the online figure is shifted by half a bin (C67_online_figure_violated)."
  },
  {
   "property": "C68",
   "status": "partial",
   "theorems": [
    "Verif.MeanValues.C68_range",
    "Verif.MeanValues.C68_range_numbers",
    "Verif.MeanValues.C68_range_error",
    "Verif.MeanValues.C68_names",
    "Verif.MeanValues.C68_no_cache",
    "Verif.MeanValues.C68_cache_partial",
    "Verif.MeanValues.C68_appended",
    "Verif.MeanValues.C68_stale_violated",
    "Verif.MeanValues.C68_customize_violated",
    "Verif.MeanValues.C68_killed_violated",
    "Verif.MeanValues.C68_not_serialisable_violated",
    "Verif.MeanValues.C68_dataframe",
    "Verif.MeanValues.C68_average",
    "Verif.MeanValues.C68_isotropy",
    "Verif.MeanValues.C68_isotropy_values",
    "Verif.MeanValues.C68_isotropy_nu4_violated",
    "Verif.MeanValues.C68_isotropy_nu8_violated",
    "Verif.MeanValues.C68_dissipation_range_partial",
    "Verif.MeanValues.C68_dissipation_range_violated",
    "Verif.MeanValues.C68_records"
   ],
   "note": "Proved: C68_range, C68_range_numbers, C68_range_error, C68_names, C68_no_cache, C68_cache_partial (every history without kill during a write, ranges which are over), C68_appended, C68_dataframe, C68_isotropy, C68_isotropy_values, C68_records, C68_dissipation_range_partial. Not true of the code: a numeric tmax after the last saved time leaves an old result in the cache; two customize functions with the same source share an entry; a call killed while writing, or an unserialisable result, makes all later calls raise JSONDecodeError; I_dissipation ignores tmax; it is not 1 for a symmetric spectrum with nu_4 and is not finite with only nu_8."
  },
  {
   "property": "C69",
   "status": "partial",
   "theorems": [
    "Verif.Linear.C69_advection",
    "Verif.Linear.C69_waves_step",
    "Verif.Linear.C69_waves_decay",
    "Verif.Linear.C69_waves_violated",
    "Verif.Linear.C69_waves_hermitian_violated",
    "Verif.Linear.C69_conversions",
    "Verif.Linear.C69_velocity",
    "Verif.Linear.C69_units_partial",
    "Verif.Linear.C69_units_violated",
    "Verif.Linear.C69_dispersion",
    "Verif.Linear.C69_dispersion_violated"
   ],
   "note": "Proved: C69_advection, C69_waves_step, C69_conversions, C69_velocity, C69_units_partial (sigma = 0), C69_dispersion. Not true of the code: waves2d leaves f constant and turns g instead of solving the documented equations, and breaks the symmetry of the stored modes of real fields; the unit of displacement of the converter uses 6 (1 - sigma) instead of 6 (1 - sigma^2), so that converted solutions are not solutions for sigma /= 0; the dispersion relation is omega = sqrt(C) k^2."
  },
  {
   "property": "C70",
   "status": "partial",
   "theorems": [
    "Verif.Sections.C70_index",
    "Verif.Sections.C70_value_partial",
    "Verif.Sections.C70_value_exact",
    "Verif.Sections.C70_value_distance",
    "Verif.Sections.C70_state_file",
    "Verif.Sections.C70_axes",
    "Verif.Sections.C70_refused",
    "Verif.Sections.C70_refused_effect_violated",
    "Verif.Sections.C70_last_call",
    "Verif.Sections.C70_coarse_axes_violated",
    "Verif.Sections.C70_coarse_value_violated",
    "Verif.Sections.C70_coarse_index",
    "Verif.Sections.C70_online_3d_violated",
    "Verif.Sections.C70_first_frame",
    "Verif.Sections.C70_first_frame_2d",
    "Verif.Sections.C70_stride",
    "Verif.Sections.C70_key",
    "Verif.Sections.C70_plot",
    "Verif.Sections.C70_plot2d_time",
    "Verif.Sections.C70_plot_default",
    "Verif.Sections.C70_array_violated",
    "Verif.Sections.C70_plot_mean_partial",
    "Verif.Sections.C70_plot_mean_default",
    "Verif.Sections.C70_plot_mean_empty",
    "Verif.Sections.C70_plot_mean_violated",
    "Verif.Sections.C70_before_first_violated",
    "Verif.Sections.C70_key_default"
   ],
   "note": "Proved: C70_index, C70_value_partial (operators of a running simulation), C70_value_exact, C70_value_distance, C70_state_file, C70_axes, C70_refused, C70_last_call, C70_coarse_index, C70_first_frame, C70_key, C70_plot, C70_plot2d_time, C70_plot_default, C70_plot_mean_partial (distinct times), C70_plot_mean_default, C70_plot_mean_empty. Not true of the code: with load_sim_for_plot all the coordinates are multiplied by n / (n - 1) and a section by coordinate can be another plane; a refused equation stays in the object; plot(array) always raises ValueError; the online plot of the solvers in space always fails; plot_mean reads the first of two files of the same thousandth twice; before the first file a constant field is shown multiplied by a factor."
  },
  {
   "property": "C71",
   "status": "partial",
   "theorems": [
    "Verif.Movies.C71_times",
    "Verif.Movies.C71_final_time_violated",
    "Verif.Movies.C71_default",
    "Verif.Movies.C71_default_violated",
    "Verif.Movies.C71_one_file",
    "Verif.Movies.C71_refused",
    "Verif.Movies.C71_spectra",
    "Verif.Movies.C71_spectra_one_violated",
    "Verif.Movies.C71_loaded_1d_violated",
    "Verif.Movies.C71_frame",
    "Verif.Movies.C71_repeat",
    "Verif.Movies.C71_repeat_violated",
    "Verif.Movies.C71_player",
    "Verif.Movies.C71_play",
    "Verif.Movies.C71_wrap",
    "Verif.Movies.C71_one_step",
    "Verif.Movies.C71_arrows",
    "Verif.Movies.C71_arrows_violated",
    "Verif.Movies.C71_quiver",
    "Verif.Movies.C71_quiver_violated",
    "Verif.Movies.C71_median",
    "Verif.Movies.C71_times_1d",
    "Verif.Movies.C71_repeat_zero",
    "Verif.Movies.C71_buttons"
   ],
   "note": "Proved: C71_times, C71_default, C71_one_file, C71_refused, C71_spectra, C71_frame, C71_repeat, C71_player, C71_play, C71_wrap, C71_one_step, C71_arrows, C71_quiver. Not true of the code: the final time is never shown; irregular files can be refused with the default step; repeat=True does not loop; one saved spectrum gives an empty movie and ZeroDivisionError; movies of loaded one-dimensional simulations are empty or refused; normalize_vectors is ignored on the first frame by default and forced on the following ones; step >= 2 with vectors raises ValueError. Not modelled: matplotlib (the figures, the timer and the call of the generator for the first drawing)."
  },
  {
   "property": "C72",
   "status": "partial",
   "theorems": [
    "Verif.Launcher.C72_grid",
    "Verif.Launcher.C72_deltak",
    "Verif.Launcher.C72_waves",
    "Verif.Launcher.C72_angle",
    "Verif.Launcher.C72_range",
    "Verif.Launcher.C72_resolved",
    "Verif.Launcher.C72_viscosity",
    "Verif.Launcher.C72_viscosity4",
    "Verif.Launcher.C72_viscosity4_auto",
    "Verif.Launcher.C72_coef_nu4_violated",
    "Verif.Launcher.C72_deltat",
    "Verif.Launcher.C72_arguments",
    "Verif.Launcher.C72_refused",
    "Verif.Launcher.C72_modify",
    "Verif.Launcher.C72_default",
    "Verif.Launcher.C72_truncated_violated",
    "Verif.Launcher.C72_projection",
    "Verif.Launcher.C72_dry_run",
    "Verif.Launcher.C72_forced_field",
    "Verif.Launcher.C72_name"
   ],
   "note": "Proved: C72_grid, C72_deltak, C72_waves, C72_angle, C72_range, C72_resolved, C72_viscosity, C72_viscosity4, C72_viscosity4_auto, C72_deltat, C72_arguments, C72_refused, C72_modify, C72_default, C72_projection, C72_dry_run, for every rounding which meets the contract of round(x, 3). Not true of the code: coef_nu4 = 0 raises ZeroDivisionError; the forced range is not limited to the dealiased modes (C72_truncated_violated). Not modelled: argparse, the text of the numbers in the name of the run."
  },
  {
   "property": "C73",
   "status": "partial",
   "theorems": [
    "Verif.Sw1lForcing.C73_waves",
    "Verif.Sw1lForcing.C73_waves_ageostrophic",
    "Verif.Sw1lForcing.C73_waves_none",
    "Verif.Sw1lForcing.C73_potential",
    "Verif.Sw1lForcing.C73_potential_key",
    "Verif.Sw1lForcing.C73_waves_vortices_partial",
    "Verif.Sw1lForcing.C73_waves_vortices_violated",
    "Verif.Sw1lForcing.C73_waves_vortices_keys",
    "Verif.Sw1lForcing.C73_types",
    "Verif.Sw1lForcing.C73_complete",
    "Verif.Sw1lForcing.C73_default_keys",
    "Verif.Sw1lForcing.C73_geostrophic_default_violated"
   ],
   "note": "Proved: C73_waves, C73_waves_ageostrophic, C73_waves_none, C73_potential, C73_potential_key, C73_waves_vortices_partial (f = 0 or wavenumbers with opposite components), C73_waves_vortices_keys, C73_types, C73_complete, C73_default_keys. Not true of the code: waves_vortices injects more than the rate with rotation (C73_waves_vortices_violated, through init_from_qafft); the tcrandom and proportional classes of sw1l which force q_fft are never used (C73_geostrophic_default_violated). Pairs of complex roots (negative rates) are outside the model."
  },
  {
   "property": "C74",
   "status": "partial",
   "theorems": [
    "Verif.Sw1lBudget.C74_normal_modes",
    "Verif.Sw1lBudget.C74_groups_partial",
    "Verif.Sw1lBudget.C74_budget_partial",
    "Verif.Sw1lBudget.C74_conservative",
    "Verif.Sw1lBudget.C74_exchanges",
    "Verif.Sw1lBudget.C74_group_matrix",
    "Verif.Sw1lBudget.C74_group_tables",
    "Verif.Sw1lBudget.C74_enstrophy",
    "Verif.Sw1lBudget.C74_msw_kinetic",
    "Verif.Sw1lBudget.C74_msw_potential",
    "Verif.Sw1lBudget.C74_msw_conservative",
    "Verif.Sw1lBudget.C74_modified_groups",
    "Verif.Sw1lBudget.C74_msw_enstrophy_partial",
    "Verif.Sw1lBudget.C74_groups_violated",
    "Verif.Sw1lBudget.C74_budget_violated",
    "Verif.Sw1lBudget.C74_plot_partial",
    "Verif.Sw1lBudget.C74_plot_step",
    "Verif.Sw1lBudget.C74_plot_nearest",
    "Verif.Sw1lBudget.C74_plot_violated"
   ],
   "note": "Proved: C74_normal_modes, C74_groups_partial, C74_conservative, C74_exchanges, C74_group_matrix and C74_group_tables (the grouping of the interactions), C74_enstrophy (transfer of enstrophy), C74_budget_partial (sw1l, mean-free flows without dissipation, with the exact term the budget omits), C74_msw_kinetic, C74_msw_potential, C74_msw_conservative, C74_msw_enstrophy_partial (flows without divergence), C74_modified_groups, C74_plot_partial, C74_plot_nearest. Not true of the code: the products of a geostrophic mode with two different waves are put in the group of equal waves (C74_groups_violated); the nonquadratic transfer of sw1l has the advection of eta*u instead of eta times the advection of u, so the budget does not balance (C74_budget_violated, 3/32 missing for ux = cos x, eta = sin x); the mean of the plots leaves out the last record, and is over no record when tmin = tmax (C74_plot_violated)."
  },
  {
   "property": "C75",
   "status": "partial",
   "theorems": [
    "Verif.CorrelFreq.C75_correl4_partial",
    "Verif.CorrelFreq.C75_correl4_shifted",
    "Verif.CorrelFreq.C75_correl4_violated",
    "Verif.CorrelFreq.C75_correl2",
    "Verif.CorrelFreq.C75_processes",
    "Verif.CorrelFreq.C75_indices",
    "Verif.CorrelFreq.C75_windows",
    "Verif.CorrelFreq.C75_plate_partial",
    "Verif.CorrelFreq.C75_history",
    "Verif.CorrelFreq.C75_restart",
    "Verif.CorrelFreq.C75_frequencies_partial",
    "Verif.CorrelFreq.C75_frequencies_violated",
    "Verif.CorrelFreq.C75_points_partial",
    "Verif.CorrelFreq.C75_points_violated",
    "Verif.CorrelFreq.C75_symmetric",
    "Verif.CorrelFreq.C75_corr_norm_partial",
    "Verif.CorrelFreq.C75_cumulant_partial",
    "Verif.CorrelFreq.C75_cumulant_violated",
    "Verif.CorrelFreq.C75_scale",
    "Verif.CorrelFreq.C75_corr2_bound",
    "Verif.CorrelFreq.C75_online_plot_partial",
    "Verif.CorrelFreq.C75_online_plot_violated",
    "Verif.CorrelFreq.C75_plot_corr4_partial",
    "Verif.CorrelFreq.C75_plot_corr4_iff",
    "Verif.CorrelFreq.C75_window",
    "Verif.CorrelFreq.C75_plot_corr4_violated",
    "Verif.CorrelFreq.C75_pick",
    "Verif.CorrelFreq.C75_run_signals",
    "Verif.CorrelFreq.C75_run_corr2_bound"
   ],
   "note": "Proved: C75_correl2, C75_processes, C75_indices, C75_windows, C75_history, C75_restart, C75_symmetric, C75_scale, C75_corr2_bound, C75_run_signals, C75_run_corr2_bound, C75_pick, C75_window, C75_plot_corr4_iff. Partial because not true of the code: for an even number of times (default 100) and w3 + w4 - w1 above the largest frequency the index is wrong by one (C75_correl4_partial, C75_correl4_shifted, C75_correl4_violated, C75_plate_partial, C75_corr_norm_partial); the Gaussian part is wrong for w3 + w4 < w1 (C75_cumulant_partial, C75_cumulant_violated); a period different from 1 gives wrong frequencies (C75_frequencies_partial, C75_frequencies_violated); the decimated points depend on the processes (C75_points_partial, C75_points_violated); the online plot needs two frequencies (C75_online_plot_*), plot_corr4 fails with five (C75_plot_corr4_*)."
  },
  {
   "property": "C76",
   "status": "partial",
   "theorems": [
    "Verif.Hexa.C76_keys_vectors",
    "Verif.Hexa.C76_key_scalar",
    "Verif.Hexa.C76_movie_variable_partial",
    "Verif.Hexa.C76_movie_variable_violated",
    "Verif.Hexa.C76_axes_partial",
    "Verif.Hexa.C76_equation_spaces_violated",
    "Verif.Hexa.C76_default_plane",
    "Verif.Hexa.C76_cut_z",
    "Verif.Hexa.C76_cut_z_box",
    "Verif.Hexa.C76_same_points",
    "Verif.Hexa.C76_cut_vertical_first_layer",
    "Verif.Hexa.C76_cut_vertical_violated",
    "Verif.Hexa.C76_edges_box",
    "Verif.Hexa.C76_edges_shared",
    "Verif.Hexa.C76_extrema",
    "Verif.Hexa.C76_arrows_partial",
    "Verif.Hexa.C76_approx_sorted",
    "Verif.Hexa.C76_arrows_none",
    "Verif.Hexa.C76_arrows_violated",
    "Verif.Hexa.C76_cursor",
    "Verif.Hexa.C76_cursor_cell",
    "Verif.Hexa.C76_interpolated_partial",
    "Verif.Hexa.C76_interpolated_time_violated",
    "Verif.Hexa.C76_movie_arrows",
    "Verif.Hexa.C76_movie_arrows_violated",
    "Verif.Hexa.C76_update_times_partial",
    "Verif.Hexa.C76_update_times_violated",
    "Verif.Hexa.C76_axes_order",
    "Verif.Hexa.C76_edges_mean"
   ],
   "note": "Proved: C76_keys_vectors, C76_key_scalar, C76_default_plane, C76_cut_z, C76_cut_z_box, C76_same_points, C76_edges_box, C76_edges_shared, C76_extrema, C76_cursor, C76_cursor_cell, C76_approx_sorted, C76_movie_arrows. Partial because not true of the code: vertical cuts always show the first layer of the elements (C76_cut_vertical_first_layer, C76_cut_vertical_violated); the arrows start at the height of the left end (C76_arrows_partial, C76_arrows_none, C76_arrows_violated); equations with spaces (C76_axes_partial, C76_equation_spaces_violated); abbreviated keys in movies (C76_movie_variable_partial/_violated); time and arrows of interpolated fields (C76_interpolated_partial, C76_interpolated_time_violated, C76_movie_arrows_violated); update_times compares only the numbers of files (C76_update_times_partial/_violated)."
  },
  {
   "property": "C77",
   "status": "partial",
   "theorems": [
    "Verif.StateVars.C77_history_partial",
    "Verif.StateVars.C77_sw1l",
    "Verif.StateVars.C77_exactlin_partial",
    "Verif.StateVars.C77_exactlin_mean_a_violated",
    "Verif.StateVars.C77_onlywaves_partial",
    "Verif.StateVars.C77_onlywaves_uy_violated",
    "Verif.StateVars.C77_modified_partial",
    "Verif.StateVars.C77_modified_rot_violated",
    "Verif.StateVars.C77_ns2d",
    "Verif.StateVars.C77_strat_waves",
    "Verif.StateVars.C77_announced",
    "Verif.StateVars.C77_announced_violated",
    "Verif.StateVars.C77_ns3d",
    "Verif.StateVars.C77_poltor",
    "Verif.StateVars.C77_announced_3d",
    "Verif.StateVars.C77_plate2d_partial",
    "Verif.StateVars.C77_plate2d_lapz_violated",
    "Verif.StateVars.C77_announced_plate",
    "Verif.StateVars.C77_exactlin_modes",
    "Verif.StateVars.C77_onlywaves_modes",
    "Verif.StateVars.C77_mean_velocity_violated",
    "Verif.StateVars.C77_strat_announces_all"
   ],
   "note": "Proved: C77_history_partial (all but onlywaves), C77_sw1l, C77_ns2d, C77_strat_waves, C77_ns3d, C77_poltor, C77_plate2d_partial, C77_announced, C77_announced_3d, C77_announced_plate. Partial because not true of the code: sw1l.exactlin with a mean flow (C77_exactlin_partial, C77_exactlin_mean_a_violated); uy_fft of sw1l.onlywaves raises unless ux_fft was read before (C77_onlywaves_partial, C77_onlywaves_uy_violated); sw1l.modified computes rot and div with ux in the place of uy (C77_modified_partial, C77_modified_rot_violated; the array feeds the enstrophy and the Ertel potential vorticity of its outputs); has_vars answers no for readable variables (C77_announced_violated). In plate2d lapz_fft is the bilaplacian (C77_plate2d_lapz_violated). The normal modes (C77_exactlin_modes, C77_onlywaves_modes) and C77_strat_announces_all hold; the mean velocity of the two solvers is wrong (C77_mean_velocity_violated)."
  },
  {
   "property": "C78",
   "status": "partial",
   "theorems": [
    "Verif.Xmf.C78_describes",
    "Verif.Xmf.C78_vectors_3d",
    "Verif.Xmf.C78_vectors_2d_violated",
    "Verif.Xmf.C78_1d_violated",
    "Verif.Xmf.C78_no_file",
    "Verif.Xmf.C78_time_order_violated",
    "Verif.Xmf.C78_resolution_violated"
   ],
   "note": "Proved: C78_describes, C78_vectors_3d, C78_no_file. Partial because not true of the code: in two dimensions each vector refers to a third component which does not exist (C78_vectors_2d_violated); one-dimensional simulations always raise UnboundLocalError (C78_1d_violated); the grids follow the order of the names, not of the times (C78_time_order_violated); the geometry of all files is the one of the first (C78_resolution_violated). The text around the values is not modelled."
  },
  {
   "property": "C79",
   "status": "partial",
   "theorems": [
    "Verif.ModifResol.C79_2d",
    "Verif.ModifResol.C79_3d",
    "Verif.ModifResol.C79_same_values",
    "Verif.ModifResol.C79_mean",
    "Verif.ModifResol.C79_nyquist_violated",
    "Verif.ModifResol.C79_directories",
    "Verif.ModifResol.C79_same_grid",
    "Verif.ModifResol.C79_complete",
    "Verif.ModifResol.C79_new_size"
   ],
   "note": "Proved: C79_2d, C79_3d (even numbers of points along y and z, any number along x), C79_same_values, C79_mean, C79_directories. Partial because the modes at the Nyquist wavenumber are not conserved (C79_nyquist_violated) and, for odd numbers of points along y or z, the row -(n-1)/2 is lost (C24_2d_odd_violated). The transforms of FFTW are represented by their definition. A file for the same grid is unchanged, Nyquist modes included (C79_same_grid, 2D); C79_complete, C79_new_size."
  },
  {
   "property": "C80",
   "status": "partial",
   "theorems": [
    "Verif.StateFile.C80_round_trip",
    "Verif.StateFile.C80_spectral_state",
    "Verif.StateFile.C80_other_grid",
    "Verif.StateFile.C80_missing_variable_violated",
    "Verif.StateFile.C80_legacy_violated",
    "Verif.StateFile.C80_parallel",
    "Verif.StateFile.C80_old_file",
    "Verif.StateFile.C80_missing_size",
    "Verif.StateFile.C80_time"
   ],
   "note": "Proved: C80_round_trip, C80_spectral_state, C80_other_grid, C80_parallel. Partial because not true of the code: a missing variable is silently zero (C80_missing_variable_violated); files without attribute axes are checked along x and y only (C80_legacy_violated). gather_Xspace and scatter_Xspace (fluidfft) are contracts. Old files: C80_old_file, C80_missing_size, C80_time. The deadlock is modelled in C86."
  },
  {
   "property": "C81",
   "status": "partial",
   "theorems": [
    "Verif.Regions.C81_limits",
    "Verif.Regions.C81_limits_grid",
    "Verif.Regions.C81_number_of_limits",
    "Verif.Regions.C81_last_limit_violated",
    "Verif.Regions.C81_lines_partial",
    "Verif.Regions.C81_budget_partial",
    "Verif.Regions.C81_injection",
    "Verif.Regions.C81_no_forcing_violated",
    "Verif.Regions.C81_N_zero_violated",
    "Verif.Regions.C81_vertical_force",
    "Verif.Regions.C81_file",
    "Verif.Regions.C81_other_limits",
    "Verif.Regions.C81_restart_violated",
    "Verif.Regions.C81_pressure_partial",
    "Verif.Regions.C81_whole_domain",
    "Verif.Regions.C81_rotation_violated"
   ],
   "note": "Proved: C81_limits, C81_limits_grid, C81_number_of_limits, C81_lines_partial (x axis not split, at least two planes), C81_budget_partial, C81_injection, C81_whole_domain, C81_pressure_partial (no rotation), C81_vertical_force, C81_file, C81_other_limits. Not true of the code: without forcing nothing can be saved (C81_no_forcing_violated); with rotation the pressure of the Coriolis force is missing (C81_rotation_violated); a limit at the end of the domain is one grid step before it (C81_last_limit_violated); a restart repeats a line (C81_restart_violated). The continuous theorem (divergence theorem) behind the surface fluxes is not modelled. With N = 0 nothing can be saved (C81_N_zero_violated)."
  },
  {
   "property": "C82",
   "status": "partial",
   "theorems": [
    "Verif.Continuation.C82_files",
    "Verif.Continuation.C82_restart",
    "Verif.Continuation.C82_restart_cfl_partial",
    "Verif.Continuation.C82_cfl_close_partial",
    "Verif.Continuation.C82_cfl_violated",
    "Verif.Continuation.C82_periodic"
   ],
   "note": "Proved: C82_files, C82_restart (fixed time step), C82_periodic (the spectral state is recovered exactly from the saved fields for all real truncated states, any grid and dimension, all the deterministic schemes). With the CFL condition: C82_restart_cfl_partial (same run when the first increment is the same) and C82_cfl_close_partial (it differs by 4 % at most); not true in general: the time step in use is not saved, C82_cfl_violated. The schemes with random phase shifts are excluded; forcings are functions of the time and of the state (tcrandom is C34); the file is exact (C80, floats idealised)."
  },
  {
   "property": "C83",
   "status": "partial",
   "theorems": [
    "Verif.Convergence.C83_euler",
    "Verif.Convergence.C83_rk2",
    "Verif.Convergence.C83_rk2_trapezoid",
    "Verif.Convergence.C83_phaseshift_dealiased",
    "Verif.Convergence.C83_phaseshift_exact",
    "Verif.Convergence.C83_phaseshift_no_aliasing",
    "Verif.Convergence.C83_forced_partial",
    "Verif.Convergence.C83_constant_force",
    "Verif.Convergence.C83_forced_order_violated",
    "Verif.Convergence.C83_phaseshift_force",
    "Verif.Convergence.C83_phaseshift_force_violated",
    "Verif.Convergence.C83_rk4",
    "Verif.Convergence.C83_orders_sharp",
    "Verif.Convergence.C83_phaseshift_aliasing_sharp",
    "Verif.Convergence.C83_rounding_errors"
   ],
   "note": "Proved: C83_euler, C83_rk2, C83_rk2_trapezoid, C83_rk4, C83_phaseshift_dealiased, C83_phaseshift_exact, C83_phaseshift_no_aliasing; the orders are exact: C83_orders_sharp, C83_phaseshift_aliasing_sharp; constant forces: C83_constant_force. Findings: with a force which depends on the time or on the state the orders 2 and 4 are lost, because the force is computed once per time step (C83_forced_order_violated; C83_forced_partial gives the order 1), and with the phase shifts the force is divided by the shift, so that the simulation does not converge to the solution with this force (C83_phaseshift_force_violated; C83_phaseshift_force gives the limit). Missing: real and complex numbers instead of floats; the existence of the solution is an hypothesis here (see C87). With perturbations of the initial state and of each step (rounding errors): C83_rounding_errors, the error is bounded by C (ε0 + h^p + ε/hmin)."
  },
  {
   "property": "C84",
   "status": "partial",
   "theorems": [
    "Verif.Bench.C84_box_2d",
    "Verif.Bench.C84_axes_violated",
    "Verif.Bench.C84_box_3d_iff",
    "Verif.Bench.C84_box_3d_violated",
    "Verif.Bench.C84_args",
    "Verif.Bench.C84_args_shape",
    "Verif.Bench.C84_args_dim_ignored_violated",
    "Verif.Bench.C84_args_third_violated",
    "Verif.Bench.C84_dim_of_class",
    "Verif.Bench.C84_dim_sphere_violated",
    "Verif.Bench.C84_weak_2d",
    "Verif.Bench.C84_weak_3d_violated",
    "Verif.Bench.C84_weak_3d_work_violated",
    "Verif.Bench.C84_weak_errors",
    "Verif.Bench.C84_load_iff",
    "Verif.Bench.C84_load_other_violated",
    "Verif.Bench.C84_load_short_name_violated",
    "Verif.Bench.C84_strong",
    "Verif.Bench.C84_weak_efficiency_iff",
    "Verif.Bench.C84_weak_efficiency_violated",
    "Verif.Bench.C84_dirs_violated",
    "Verif.Bench.C84_profile_kind_le",
    "Verif.Bench.C84_profile_pyx_violated",
    "Verif.Bench.C84_profile_total_violated",
    "Verif.Bench.C84_pie",
    "Verif.Bench.C84_pie_names_violated",
    "Verif.Bench.C84_load_package",
    "Verif.Bench.C84_load_package_only",
    "Verif.Bench.C84_load_module_violated",
    "Verif.Bench.C84_profile_fft"
   ],
   "note": "Proved: C84_box_2d, C84_args, C84_args_shape, C84_dim_of_class, C84_weak_2d, C84_weak_errors, C84_strong, C84_profile_kind_le, C84_pie. Not true of the code: cubes in 3D (C84_box_3d_iff), shapes in 3D for the weak scaling (C84_weak_3d_violated: the third number is lost), results of one solver only (C84_load_iff, C84_load_other_violated, C84_load_short_name_violated), efficiency of the weak scaling (C84_weak_efficiency_iff), several directories (C84_dirs_violated), sum of the kinds (C84_profile_total_violated), functions of the same name (C84_pie_names_violated), solvers on the sphere (C84_dim_sphere_violated). Not modelled: the grouping of repeated measures by quantiles, the text printed, the figures; logarithms and times are exact. Also C84_load_package, C84_load_package_only, C84_profile_fft; the full name of the module of a solver loads nothing (C84_load_module_violated)."
  },
  {
   "property": "C85",
   "status": "partial",
   "theorems": [
    "Verif.Loading.C85_append_only",
    "Verif.Loading.C85_records",
    "Verif.Loading.C85_no_save",
    "Verif.Loading.C85_load_for_plot",
    "Verif.Loading.C85_load_state",
    "Verif.Loading.C85_no_save_end_partial",
    "Verif.Loading.C85_loaded_directory_moved_violated",
    "Verif.Loading.C85_load_state_writes_violated",
    "Verif.Loading.C85_restart_params",
    "Verif.Loading.C85_state_params",
    "Verif.Loading.C85_plot_params",
    "Verif.Loading.C85_missing_directory",
    "Verif.Loading.C85_continued_directory",
    "Verif.Loading.C85_new_directory",
    "Verif.Loading.C85_last_records"
   ],
   "note": "Proved: C85_append_only, C85_records, C85_no_save, C85_load_for_plot, C85_load_state. Not true of the code: a directory outside FLUIDSIM_PATH loaded with load_state_phys_file, without saving, and advanced is moved at the end (C85_loaded_directory_moved_violated; C85_no_save_end_partial says when it is not), and load_state_phys_file with modif_save_params=False adds records as soon as the simulation is loaded (C85_load_state_writes_violated). Not modelled: merge_missing_params and fix_old_params (C14), the release of the lock (C22), the caches written by calls of the user (C68), what the records contain. Also C85_restart_params, C85_state_params, C85_plot_params (the parameters of the loaded simulations), C85_missing_directory, C85_continued_directory, C85_new_directory (the files of a launch), C85_last_records."
  },
  {
   "property": "C86",
   "status": "partial",
   "theorems": [
    "Verif.Procs.C86_mean_space",
    "Verif.Procs.C86_hmean",
    "Verif.Procs.C86_collect_modes",
    "Verif.Procs.C86_put_coarse",
    "Verif.Procs.C86_where",
    "Verif.Procs.C86_where_memories",
    "Verif.Procs.C86_coarse_seq3",
    "Verif.Procs.C86_save_files",
    "Verif.Procs.C86_probes_files",
    "Verif.Procs.C86_time_increment",
    "Verif.Procs.C86_reduce",
    "Verif.Procs.C86_probes_restart",
    "Verif.Procs.C86_probes_values",
    "Verif.Procs.C86_probes_violated",
    "Verif.Procs.C86_move_completes",
    "Verif.Procs.C86_move_violated",
    "Verif.Procs.C86_time_loop",
    "Verif.Procs.C86_time_loop_it",
    "Verif.Procs.C86_save",
    "Verif.Procs.C86_from_file",
    "Verif.Procs.C86_from_file_violated",
    "Verif.Procs.C86_forcing_init",
    "Verif.Procs.C86_forcing_init_violated",
    "Verif.Procs.C86_output_init",
    "Verif.Procs.C86_output_init_violated",
    "Verif.Procs.C86_load_for_restart",
    "Verif.Procs.C86_load_for_restart_violated",
    "Verif.Procs.C86_nan_none",
    "Verif.Procs.C86_nan_violated"
   ],
   "note": "Proved for every number of processes and every interleaving: C86_mean_space, C86_hmean, C86_collect_modes, C86_put_coarse, C86_where, C86_where_memories, C86_coarse_seq3, C86_time_loop, C86_time_loop_it, C86_save, C86_save_files (the directory at the end), C86_reduce, C86_time_increment (the one of C03), C86_probes_files, C86_from_file, C86_forcing_init, C86_output_init, C86_load_for_restart, C86_nan_none, C86_probes_restart, C86_probes_values, C86_move_completes. Not true of the code: an error found by process 0 only (state file, number of forced modes, directory of the run, files of the parameters) or a nan in the part of one process leaves the others waiting for ever (C86_from_file_violated, C86_forcing_init_violated, C86_output_init_violated, C86_load_for_restart_violated, C86_nan_violated; an exception ends its process only, without mpi4py.run); a process which lists the directory of the probes late silently has no probes (C86_probes_violated); a process which looks late for the name of the final directory has another one (C86_move_violated). Not modelled: the transforms, the parallel HDF5 files, the first file of the time signals and of the increments."
  },
  {
   "property": "C87",
   "status": "partial",
   "theorems": [
    "Verif.EndToEnd.C87_ns2d",
    "Verif.EndToEnd.C87_ns2d_default",
    "Verif.EndToEnd.C87_ns2d_strat",
    "Verif.EndToEnd.C87_ns3d",
    "Verif.EndToEnd.C87_force_order",
    "Verif.EndToEnd.C87_admissible_default",
    "Verif.EndToEnd.C87_ns2d_bouss",
    "Verif.EndToEnd.C87_burgers",
    "Verif.EndToEnd.C87_sw1l_exists",
    "Verif.EndToEnd.C87_sw1l",
    "Verif.EndToEnd.C87_sw1l_modified",
    "Verif.EndToEnd.C87_sw1l_exactlin",
    "Verif.EndToEnd.C87_plate2d",
    "Verif.EndToEnd.C87_ns2d_rounding",
    "Verif.EndToEnd.C87_ns2d_strat_rounding",
    "Verif.EndToEnd.C87_sw1l_rounding",
    "Verif.EndToEnd.C87_ns3d_strat",
    "Verif.EndToEnd.C87_ns2d_time_partial",
    "Verif.EndToEnd.C87_ns2d_strat_time_partial",
    "Verif.EndToEnd.C87_ns3d_time_partial"
   ],
   "note": "Proved: C87_ns2d, C87_ns2d_default, C87_ns2d_strat, C87_ns2d_bouss, C87_ns3d, C87_ns3d_strat, C87_burgers (both forms), C87_sw1l_modified, C87_plate2d (coef_dealiasing <= 1/2), C87_admissible_default, C87_force_order: existence and uniqueness of the solution of the truncated documented equations on every interval and convergence of the simulations with the orders of the schemes; C87_sw1l_exists, C87_sw1l, C87_sw1l_exactlin: existence for a short time, uniqueness and convergence as long as the solution exists; with forces which depend on the time: C87_ns2d_time_partial, C87_ns2d_strat_time_partial, C87_ns3d_time_partial (order 1 only, see C83_forced_order_violated). Missing: hypo-viscosity (nu_m4), no_vz_kz0 with stratification, the phase-shift schemes, the other solvers, forces which depend on the state, rounding errors. With rounding errors: C87_ns2d_rounding, C87_ns2d_strat_rounding, C87_sw1l_rounding (the sizes of the errors of the steps are hypotheses)."
  },
  {
   "property": "C88",
   "status": "partial",
   "theorems": [
    "Verif.DimNumbers.C88_ns3d",
    "Verif.DimNumbers.C88_omegas",
    "Verif.DimNumbers.C88_omegas_absent",
    "Verif.DimNumbers.C88_omegas_units",
    "Verif.DimNumbers.C88_froude_waves",
    "Verif.DimNumbers.C88_omegas_errors",
    "Verif.DimNumbers.C88_omegas_buoyancy_violated",
    "Verif.DimNumbers.C88_strat_numbers",
    "Verif.DimNumbers.C88_strat_state",
    "Verif.DimNumbers.C88_dimensionless",
    "Verif.DimNumbers.C88_average_partial",
    "Verif.DimNumbers.C88_average_empty",
    "Verif.DimNumbers.C88_average_rest_violated",
    "Verif.DimNumbers.C88_k_max_partial",
    "Verif.DimNumbers.C88_k_max_violated"
   ],
   "note": "Proved: C88_ns3d (from the state to the energies, the Kolmogorov length and the part of the viscosity), C88_strat_numbers and C88_strat_state (Fh, R2, R4, R8, Gamma), C88_dimensionless (independence of the units, same errors), C88_average_partial, C88_k_max_partial. For ns2d.strat with an anisotropic forcing (PropsOmegas): C88_omegas (F and gamma from the angle, N, the injection rate and the length of the force), C88_omegas_units, C88_froude_waves, C88_omegas_errors, C88_omegas_absent. Findings: a force on the buoyancy makes the construction fail (C88_omegas_buoyancy_violated); one record at rest makes the averages nan (C88_average_rest_violated); k_max is the largest wavenumber along z only (C88_k_max_violated). Rounding and the selection of the records (C68) are elsewhere or not modelled."
  },
  {
   "property": "C89",
   "status": "partial",
   "theorems": [
    "Verif.Floats.C89_rounding",
    "Verif.Floats.C89_clock_monotone",
    "Verif.Floats.C89_clock_drift",
    "Verif.Floats.C89_ends",
    "Verif.Floats.C89_stuck_violated",
    "Verif.Floats.C89_steps_partial",
    "Verif.Floats.C89_steps_violated",
    "Verif.Floats.C89_floorDiv",
    "Verif.Floats.C89_tolerance_lost",
    "Verif.Floats.C89_tolerance",
    "Verif.Floats.C89_floor_test",
    "Verif.Floats.C89_floor_bins",
    "Verif.Floats.C89_floor_steps_violated",
    "Verif.Floats.C89_diff_test",
    "Verif.Floats.C89_diff_saves",
    "Verif.Floats.C89_diff_steps_violated",
    "Verif.Floats.C89_sum",
    "Verif.Floats.C89_sum_order",
    "Verif.Floats.C89_sum_violated",
    "Verif.Floats.C89_mean",
    "Verif.Floats.C89_aliased",
    "Verif.Floats.C89_aliased_iff",
    "Verif.Floats.C89_spherical_two_thirds",
    "Verif.Floats.C89_spherical",
    "Verif.Floats.C89_spherical_violated",
    "Verif.Floats.C89_1d_violated"
   ],
   "note": "Proved: C89_rounding (the model of the rounding is the nearest float, ties to even), C89_clock_monotone, C89_clock_drift, C89_ends, C89_steps_partial (the number of steps differs by at most one from the exact one), C89_floorDiv (the Python operator // is the exact floor), C89_tolerance_lost, C89_floor_test, C89_floor_bins (one save per period from t = 16), C89_diff_test, C89_diff_saves, C89_sum, C89_sum_order, C89_mean, C89_aliased, C89_aliased_iff, C89_spherical_two_thirds (the spherical truncation in floats removes all the modes from nx/3), C89_spherical. Findings: with deltat0 = 0.1 and t_end = 1 the run makes 11 steps (C89_steps_violated); with period_save = 1 the steps 10 and 11 both save and later saves are one step late (C89_floor_steps_violated); with period_save = 0.3 the saves are made at the steps 3, 7, 11, 14 (C89_diff_steps_violated); increments below half a unit in the last place never end (C89_stuck_violated); the means depend on the number of processes (C89_sum_violated). the modes on the sphere of radius nx/3 outside the axes (C89_spherical_violated) and the mode nx/3 in 1d (C89_1d_violated) are removed or kept depending on the size of the domain. Overflow and nan are not modelled. C89_tolerance: the tolerance of the outputs for small times."
  },
  {
   "property": "C90",
   "status": "partial",
   "theorems": [
    "Verif.Uxuy.C90_same_flow",
    "Verif.Uxuy.C90_same_vorticity",
    "Verif.Uxuy.C90_incompressible",
    "Verif.Uxuy.C90_energy",
    "Verif.Uxuy.C90_equation",
    "Verif.Uxuy.C90_momentum",
    "Verif.Uxuy.C90_mean_flow",
    "Verif.Uxuy.C90_converges",
    "Verif.Uxuy.C90_energy_fft",
    "Verif.Uxuy.C90_initial_divergence_violated",
    "Verif.Uxuy.C90_gradient_force_violated"
   ],
   "note": "Proved: C90_same_flow, C90_same_vorticity (all schemes, all steps), C90_incompressible, C90_mean_flow, C90_equation, C90_momentum, C90_energy (energy and enstrophy, with a mean flow), C90_converges (existence, uniqueness and order of convergence), C90_energy_fft. Findings: the initial velocity is not projected (C90_initial_divergence_violated); a gradient force changes the flow with a scheme of several stages, because the states inside a step are not projected (C90_gradient_force_violated). The force is constant in time in the runs; convergence with a mean flow is not proved."
  },
  {
   "property": "C91",
   "status": "partial",
   "theorems": [
    "Verif.Oper.C91_created_2d",
    "Verif.Oper.C91_removed_2d",
    "Verif.Oper.C91_sizes_3d_violated",
    "Verif.Oper.C91_created_3d_partial",
    "Verif.Oper.C91_removed_3d",
    "Verif.Oper.C91_no_shear_2d",
    "Verif.Oper.C91_no_ky0",
    "Verif.Oper.C91_no_shear_velocity",
    "Verif.Oper.C91_no_shear_3d",
    "Verif.Oper.C91_real",
    "Verif.Oper.C91_conservation_2d",
    "Verif.Oper.C91_not_applied_violated"
   ],
   "note": "Proved: C91_created_2d, C91_removed_2d, C91_created_3d_partial (integer sizes), C91_removed_3d, C91_no_shear_2d, C91_no_ky0, C91_no_shear_velocity, C91_no_shear_3d (every scheme, every step), C91_real, C91_conservation_2d. Findings: in 3D a non-integer number of points is silently truncated (C91_sizes_3d_violated); in 2D the options have no effect when fluidfft has nothing to truncate (C91_not_applied_violated). The truncation of fluidfft and its attribute _has_to_dealiase are arbitrary; sizes are positive; the initial state (before the first step) is not considered."
  },
  {
   "property": "C92",
   "status": "partial",
   "theorems": [
    "Verif.TimeSignals.C92_window_size",
    "Verif.TimeSignals.C92_windows",
    "Verif.TimeSignals.C92_total",
    "Verif.TimeSignals.C92_peak",
    "Verif.TimeSignals.C92_frequency_violated",
    "Verif.TimeSignals.C92_short_violated",
    "Verif.TimeSignals.C92_defined",
    "Verif.TimeSignals.C92_shell_total",
    "Verif.TimeSignals.C92_calls",
    "Verif.TimeSignals.C92_call_iff",
    "Verif.TimeSignals.C92_second_call_violated"
   ],
   "note": "Proved: C92_window_size, C92_windows, C92_total, C92_shell_total, C92_peak, C92_defined, C92_calls, C92_call_iff. Findings: the frequencies are too large by the factor nt/(nt-1) (C92_frequency_violated); all spectra are zero with 3 to 39 times and nan with 2 (C92_short_violated); a second call fails once the number of times has doubled (C92_second_call_violated). Real numbers instead of floats; the transform of fluiddyn is taken as the discrete Fourier transform divided by the number of points."
  },
  {
   "property": "C93",
   "status": "partial",
   "theorems": [
    "Verif.Probes.C93_positions",
    "Verif.Probes.C93_values",
    "Verif.Probes.C93_arrays_partial",
    "Verif.Probes.C93_names",
    "Verif.Probes.C93_names_violated",
    "Verif.Probes.C93_complete",
    "Verif.Probes.C93_default_region_violated",
    "Verif.Probes.C93_one_probe_violated",
    "Verif.Probes.C93_equal_times_violated",
    "Verif.Probes.C93_initial_violated"
   ],
   "note": "Proved: C93_positions, C93_values, C93_arrays_partial (increasing times, two probes at least in each direction, a positive time), C93_names, C93_complete. Findings: with the default region the last cells are never written (C93_default_region_violated); one probe in a direction (C93_one_probe_violated), two equal times (C93_equal_times_violated) or only the initial time (C93_initial_violated) give an exception; times nearer than a thousandth overwrite each other (C93_names_violated). Exact arithmetic on rational numbers; three dimensions."
  },
  {
   "property": "C94",
   "status": "partial",
   "theorems": [
    "Verif.Sphere.C94_divrot",
    "Verif.Sphere.C94_velocity",
    "Verif.Sphere.C94_roundtrip",
    "Verif.Sphere.C94_ns2d_equation",
    "Verif.Sphere.C94_enstrophy",
    "Verif.Sphere.C94_energy",
    "Verif.Sphere.C94_printed_sum",
    "Verif.Sphere.C94_low_modes",
    "Verif.Sphere.C94_angular_momentum",
    "Verif.Sphere.C94_rotation_violated",
    "Verif.Sphere.C94_sw1l_momentum",
    "Verif.Sphere.C94_sw1l_continuity",
    "Verif.Sphere.C94_sw1l_means",
    "Verif.Sphere.C94_mass",
    "Verif.Sphere.C94_init",
    "Verif.Sphere.C94_init_violated"
   ],
   "note": "Proved: C94_velocity, C94_roundtrip, C94_ns2d_equation, C94_enstrophy, C94_energy, C94_printed_sum, C94_low_modes, C94_angular_momentum, C94_sw1l_momentum, C94_divrot, C94_sw1l_continuity, C94_sw1l_means, C94_mass, C94_init. Findings: sphere.ns2d ignores params.oper.omega (C94_rotation_violated); sphere.sw1l initialised with unresolved fields keeps them in physical space (C94_init_violated). The library fluidsht is modelled by what it computes (exact transforms and derivatives); runs without forcing; the energy of sphere.sw1l is not treated (the truncation does not conserve it)."
  },
  {
   "property": "C95",
   "status": "partial",
   "theorems": [
    "Verif.Symmetry.C95_transformed",
    "Verif.Symmetry.C95_ns2d",
    "Verif.Symmetry.C95_ns2d_strat",
    "Verif.Symmetry.C95_ns3d",
    "Verif.Symmetry.C95_ns3d_strat",
    "Verif.Symmetry.C95_aliasing_violated",
    "Verif.Symmetry.C95_cfl_exists",
    "Verif.Symmetry.C95_cfl_exists_ns3d",
    "Verif.Symmetry.C95_ns2d_cfl",
    "Verif.Symmetry.C95_ns3d_cfl",
    "Verif.Symmetry.C95_ns3d_strat_cfl",
    "Verif.Symmetry.C95_ns2d_strat_cfl",
    "Verif.Symmetry.C95_strat_forcing_violated",
    "Verif.Symmetry.C95_plate2d",
    "Verif.Symmetry.C95_sw1l",
    "Verif.Symmetry.C95_sw1l_modified"
   ],
   "note": "Proved: C95_transformed (meaning of the transformation), C95_ns2d, C95_ns2d_strat, C95_ns3d, C95_ns3d_strat, C95_sw1l, C95_sw1l_modified, C95_plate2d (coef_dealiasing <= 1/2) with given time steps; with the time steps chosen by the CFL condition (one process, the new origin being a point of the grid): C95_ns2d_cfl, C95_ns2d_strat_cfl (without forcing), C95_ns3d_cfl, C95_ns3d_strat_cfl, and C95_cfl_exists, C95_cfl_exists_ns3d (such runs exist). Findings: without a truncation which removes the aliasing, a shift by half a mesh changes the result (C95_aliasing_violated); the limit on the time step which ns2d.strat computes from the forcing rate is not a time (C95_strat_forcing_violated). Missing: sw1l.exactlin; the CFL condition of sw1l; hypo-viscosity of plate2d."
  },
  {
   "property": "C96",
   "status": "partial",
   "theorems": [
    "Verif.Symmetry.C96_no_buoyancy_3d",
    "Verif.Symmetry.C96_no_buoyancy_2d",
    "Verif.Symmetry.C96_mean_buoyancy_violated",
    "Verif.Symmetry.C96_horizontal",
    "Verif.Symmetry.C96_vertical"
   ],
   "note": "Proved: C96_horizontal (ns3d / ns2d, projection none or toroidal), C96_vertical (ns3d.strat / ns2d.strat), C96_no_buoyancy_3d, C96_no_buoyancy_2d. Finding: with a mean buoyancy, ns3d.strat accelerates a mean vertical velocity which does not exist in ns2d.strat (C96_mean_buoyancy_violated). Missing: flows with a mean velocity, the choice of the time steps by the CFL condition."
  },
  {
   "property": "C97",
   "status": "partial",
   "theorems": [
    "Verif.RunName.C97_number",
    "Verif.RunName.C97_integer",
    "Verif.RunName.C97_distinct",
    "Verif.RunName.C97_ns3d_strat",
    "Verif.RunName.C97_hidden_violated",
    "Verif.RunName.C97_loaded",
    "Verif.RunName.C97_suffix_violated",
    "Verif.RunName.C97_renamed_violated",
    "Verif.RunName.C97_solver_first",
    "Verif.RunName.C97_spaces_violated",
    "Verif.RunName.C97_coarse",
    "Verif.RunName.C97_coarse_1d",
    "Verif.RunName.C97_fd2d_violated",
    "Verif.RunName.C97_says",
    "Verif.RunName.C97_kept",
    "Verif.RunName.C97_milestone",
    "Verif.RunName.C97_watu",
    "Verif.RunName.C97_taylor_green"
   ],
   "note": "Proved: C97_number, C97_integer, C97_distinct, C97_ns3d_strat, C97_loaded, C97_solver_first, C97_coarse, C97_coarse_1d. Findings: values below 0.0005 are all written 0 (C97_hidden_violated); the loaded name loses the day after a move with a suffix (C97_suffix_violated) and contains slashes for a renamed directory given as a text (C97_renamed_violated); spaces in the names of forced runs of plate2d (C97_spaces_violated); the text of the finite differences in two dimensions is in the wrong order (C97_fd2d_violated). Missing: the texts of the format g and of the operators of fluidfft."
  },
  {
   "property": "C98",
   "status": "partial",
   "theorems": [
    "Verif.Symmetry.C98_ns2d_cfl",
    "Verif.Symmetry.C98_ns3d_cfl",
    "Verif.Symmetry.C98_ns3d_strat_cfl",
    "Verif.Symmetry.C98_ns2d_strat_cfl",
    "Verif.Symmetry.C98_limits",
    "Verif.Symmetry.C98_image",
    "Verif.Symmetry.C98_truncation",
    "Verif.Symmetry.C98_ns2d",
    "Verif.Symmetry.C98_ns2d_strat",
    "Verif.Symmetry.C98_ns3d",
    "Verif.Symmetry.C98_ns3d_strat",
    "Verif.Symmetry.C98_kept",
    "Verif.Symmetry.C98_kept_ns2d",
    "Verif.Symmetry.C98_beta",
    "Verif.Symmetry.C98_plate2d",
    "Verif.Symmetry.C98_plate2d_kept",
    "Verif.Symmetry.C98_sw1l",
    "Verif.Symmetry.C98_sw1l_modified",
    "Verif.Symmetry.C98_coriolis"
   ],
   "note": "Proved: C98_image (meaning of the image), C98_truncation (the box truncation has the symmetries), C98_ns2d, C98_ns2d_strat, C98_ns3d, C98_ns3d_strat, C98_sw1l, C98_sw1l_modified, C98_plate2d (coef_dealiasing <= 1/2; also the plate turned over), C98_plate2d_kept, C98_kept, C98_kept_ns2d; with the time steps chosen by the CFL condition (one process): C98_ns2d_cfl, C98_ns2d_strat_cfl, C98_ns3d_cfl, C98_ns3d_strat_cfl, C98_limits; C98_beta and C98_coriolis show that the hypotheses on beta and on the Coriolis force are necessary. Missing: rounding errors; runs with aliasing; modes of the Nyquist frequency (initial fields and forces without removed modes); sw1l.exactlin; the CFL condition of sw1l."
  },
  {
   "property": "C99",
   "status": "partial",
   "theorems": [
    "Verif.Build.C99_key",
    "Verif.Build.C99_key_full",
    "Verif.Build.C99_key_unknown",
    "Verif.Build.C99_key_order",
    "Verif.Build.C99_pyproject_one",
    "Verif.Build.C99_subsolvers_violated",
    "Verif.Build.C99_dir",
    "Verif.Build.C99_dir_again",
    "Verif.Build.C99_dir_home",
    "Verif.Build.C99_imported",
    "Verif.Build.C99_classes_partial",
    "Verif.Build.C99_extenders",
    "Verif.Build.C99_classes_again",
    "Verif.Build.C99_replace_violated",
    "Verif.Build.C99_replace_turb",
    "Verif.Build.C99_info",
    "Verif.Build.C99_order",
    "Verif.Build.C99_ok_iff",
    "Verif.Build.C99_enabled",
    "Verif.Build.C99_task_iff"
   ],
   "note": "Proved: C99_key, C99_key_full, C99_key_unknown, C99_key_order, C99_pyproject_one, C99_dir, C99_dir_again, C99_dir_home, C99_imported (the classes which are imported), C99_classes_partial (with extenders which forget the dictionary kept when they change the classes), C99_extenders (the extenders of the repository do), C99_classes_again, C99_replace_turb, C99_info, C99_order, C99_ok_iff, C99_enabled, C99_task_iff. Findings: C99_subsolvers_violated (the solvers of the subpackages, as ns3d.strat, are refused by key), C99_replace_violated (an extender which replaces a class of the solver has no effect). Missing: the import of the modules, the type of params, ~name in the paths, the content of the objects (in the other properties)."
  },
  {
   "property": "C100",
   "status": "partial",
   "theorems": [
    "Verif.BudgetCurves.C100_curves",
    "Verif.BudgetCurves.C100_exact",
    "Verif.BudgetCurves.C100_two_records",
    "Verif.BudgetCurves.C100_enstrophy_partial",
    "Verif.BudgetCurves.C100_enstrophy_violated",
    "Verif.BudgetCurves.C100_plate",
    "Verif.BudgetCurves.C100_plate_two_records",
    "Verif.BudgetCurves.C100_strat_partial",
    "Verif.BudgetCurves.C100_strat_violated",
    "Verif.BudgetCurves.C100_rates",
    "Verif.BudgetCurves.C100_rates_keys",
    "Verif.BudgetCurves.C100_rates_string_violated",
    "Verif.BudgetCurves.C100_rates_mean_violated",
    "Verif.BudgetCurves.C100_ns2d_forced",
    "Verif.BudgetCurves.C100_ns2d_unforced",
    "Verif.BudgetCurves.C100_ns3d_forced"
   ],
   "note": "Proved: C100_curves and C100_exact (ns2d, ns3d, ns3d.strat), C100_two_records, C100_enstrophy_partial (with a forcing), C100_plate, C100_plate_two_records, C100_strat_partial (the curve of the derivative), C100_rates, C100_rates_keys. For the solutions of the documented equations (C87): C100_ns2d_forced, C100_ns2d_unforced, C100_ns3d_forced (the curves converge when the records get closer; with a constant force they differ by the second term of the injection rate). Findings: C100_enstrophy_violated (plot_dt_enstrophy fails without forcing), C100_strat_violated (the budget of ns2d.strat is drawn half an interval too late), C100_rates_string_violated (a key given as a string of several characters), C100_rates_mean_violated (the legend is the mean of the absolute values). Missing: records with equal times, the labels and the axes."
  },
  {
   "property": "C101",
   "status": "partial",
   "theorems": [
    "Verif.Invariants.C101_mean_ns2d",
    "Verif.Invariants.C101_mean_ns2d_strat",
    "Verif.Invariants.C101_mean_ns2d_bouss",
    "Verif.Invariants.C101_mass_sw1l",
    "Verif.Invariants.C101_mass_sw1l_modified",
    "Verif.Invariants.C101_mean_burgers",
    "Verif.Invariants.C101_momentum_ns3d",
    "Verif.Invariants.C101_momentum_ns3d_strat",
    "Verif.Invariants.C101_no_mean_ns3d_strat",
    "Verif.Invariants.C101_energy_ns2d",
    "Verif.Invariants.C101_energy_ns2d_strat",
    "Verif.Invariants.C101_energy_ns3d",
    "Verif.Invariants.C101_energy_ns3d_strat",
    "Verif.Invariants.C101_energy_burgers",
    "Verif.Invariants.C101_energy_sw1l_modified",
    "Verif.Invariants.C101_energy_plate2d",
    "Verif.Invariants.C101_runHypo_zero",
    "Verif.Invariants.C101_mass_hypo_sw1l_violated"
   ],
   "note": "Proved: the mean values over whole runs (C101_mean_ns2d, C101_mean_ns2d_strat, C101_mean_ns2d_bouss, C101_mass_sw1l, C101_mass_sw1l_modified, C101_mean_burgers, C101_momentum_ns3d, C101_momentum_ns3d_strat, C101_no_mean_ns3d_strat), the energies along the runs of the schemes of orders 2 and 4 (C101_energy_ns2d, C101_energy_ns2d_strat, C101_energy_ns3d, C101_energy_ns3d_strat, C101_energy_burgers, C101_energy_sw1l_modified, C101_energy_plate2d). Finding: C101_mass_hypo_sw1l_violated (with nu_m4 the mean and therefore the mass decay). Missing: the random phase-shift schemes for the energies, the energies with hypo-viscosity or a force, the energies of sw1l and sw1l.onlywaves along runs, rotation for the mean velocity."
  },
  {
   "property": "C102",
   "status": "partial",
   "theorems": [
    "Verif.SpecFigs.C102_average_partial",
    "Verif.SpecFigs.C102_tmax",
    "Verif.SpecFigs.C102_records",
    "Verif.SpecFigs.C102_one_time_violated",
    "Verif.SpecFigs.C102_threshold_violated",
    "Verif.SpecFigs.C102_times_partial",
    "Verif.SpecFigs.C102_times_one_record_violated",
    "Verif.SpecFigs.C102_sw1l_plot1d_partial",
    "Verif.SpecFigs.C102_plot1d_shape_violated",
    "Verif.SpecFigs.C102_plot1d_axes_violated",
    "Verif.SpecFigs.C102_plate_average_violated",
    "Verif.SpecFigs.C102_plate_delta_violated",
    "Verif.SpecFigs.C102_plate_plot2d_partial",
    "Verif.SpecFigs.C102_plate_mask_violated",
    "Verif.SpecFigs.C102_plate_one_record_violated",
    "Verif.SpecFigs.C102_strat_compensate_violated",
    "Verif.SpecFigs.C102_strat_dealiasing_violated",
    "Verif.SpecFigs.C102_cumul_diss",
    "Verif.SpecFigs.C102_cumul_diss_hyper_violated",
    "Verif.SpecFigs.C102_cumul_diss_kzkh",
    "Verif.SpecFigs.C102_dissipative_scales",
    "Verif.SpecFigs.C102_forced_band_partial",
    "Verif.SpecFigs.C102_forced_band_violated",
    "Verif.SpecFigs.C102_strat_averages_partial",
    "Verif.SpecFigs.C102_strat_names",
    "Verif.SpecFigs.C102_strat_poloidal_violated",
    "Verif.SpecFigs.C102_strat_vortical_violated"
   ],
   "note": "Proved: C102_average_partial and C102_times_partial (values of at least 1e-15), C102_records, C102_tmax, C102_sw1l_plot1d_partial, C102_plate_plot2d_partial, C102_cumul_diss, C102_cumul_diss_kzkh, C102_dissipative_scales, C102_forced_band_partial (with delta_angle). Not true of the code: an absolute threshold hides slow flows; one time with delta_t, or one record, raises; sw1l and plate2d add the spectra versus kx and ky (raises for different numbers of points, mixes different wavenumbers for Lx != Ly); plate2d does not draw the average of plot1d, draws no record for a small delta_t, masks the potential energies with the kinetic one and fails with one record; ns2d.strat ignores coef_compensate in plot2d and hides kept modes in plot1d; the cumulated dissipation has no nu_8; the band of kh is drawn for kx. Missing: plot2d of sw1l, the reference lines. C102_strat_averages_partial and C102_strat_names: the averages of ns3d.strat (C102_strat_poloidal_violated, C102_strat_vortical_violated)."
  },
  {
   "property": "C103",
   "status": "partial",
   "theorems": [
    "Verif.HorizMeans.C103_profiles",
    "Verif.HorizMeans.C103_bounds",
    "Verif.HorizMeans.C103_energy",
    "Verif.HorizMeans.C103_vz",
    "Verif.HorizMeans.C103_profile_modes",
    "Verif.HorizMeans.C103_budget",
    "Verif.HorizMeans.C103_galilean",
    "Verif.HorizMeans.C103_shift",
    "Verif.HorizMeans.C103_load",
    "Verif.HorizMeans.C103_plot",
    "Verif.HorizMeans.C103_window",
    "Verif.HorizMeans.C103_total_covariance",
    "Verif.HorizMeans.C103_covariance_violated",
    "Verif.HorizMeans.C103_tmin_violated",
    "Verif.HorizMeans.C103_order_violated",
    "Verif.HorizMeans.C103_empty_violated"
   ],
   "note": "Proved: what is saved, bounds, decomposition of energy, mean vertical velocity, budget of the mean profiles without viscosity and forcing, invariances, loading, figure, total covariance. Missing: rounding errors; the viscous and forcing terms of the budget. Findings: the loaded covariances are not around the loaded means; the nearest record of tmin can be before tmin; tmin after tmax gives nan; a file without record cannot be loaded."
  },
  {
   "property": "C104",
   "status": "partial",
   "theorems": [
    "Verif.Galilean.C104_moving",
    "Verif.Galilean.C104_burgers",
    "Verif.Galilean.C104_ns3d",
    "Verif.Galilean.C104_uniform",
    "Verif.Galilean.C104_ns3d_strat",
    "Verif.Galilean.C104_sw1l",
    "Verif.Galilean.C104_finite_step_violated",
    "Verif.Galilean.C104_sw1l_modified_violated"
   ],
   "note": "Proved: C104_moving (meaning), C104_burgers, C104_ns3d, C104_ns3d_strat, C104_sw1l (as long as the solution exists), C104_uniform. Findings: with a finite time step the states are not invariant (C104_finite_step_violated); in sw1l.modified a uniform velocity does not advect the flow (C104_sw1l_modified_violated). Missing: hypo-viscosity, random phase-shift schemes, floats."
  },
  {
   "property": "C105",
   "status": "partial",
   "theorems": [
    "Verif.NonInterference.C105_start",
    "Verif.NonInterference.C105_loop",
    "Verif.NonInterference.C105_in_script",
    "Verif.NonInterference.C105_continued_partial",
    "Verif.NonInterference.C105_preprocess_partial",
    "Verif.NonInterference.C105_continued_violated",
    "Verif.NonInterference.C105_changed_state_violated",
    "Verif.NonInterference.C105_forcing_constructed_twice",
    "Verif.NonInterference.C105_preprocess_violated"
   ],
   "note": "Proved: C105_start, C105_loop (also the force and the random generator), C105_in_script (the state is given by a script), C105_continued_partial (several calls of start), C105_preprocess_partial, C105_forcing_constructed_twice. Findings: with USE_CFL and a normalised force a second call of start depends on HAS_TO_SAVE (C105_continued_violated); so does a run whose initialised state is changed by a script (C105_changed_state_violated) and a run with preprocessing and a random forcing (C105_preprocess_violated). Missing: the output objects are assumed to change nothing else than themselves; max_elapsed; floats."
  },
  {
   "property": "C106",
   "status": "partial",
   "theorems": [
    "Verif.Reversal.C106_ns2d",
    "Verif.Reversal.C106_ns2d_strat",
    "Verif.Reversal.C106_ns2d_bouss",
    "Verif.Reversal.C106_ns3d",
    "Verif.Reversal.C106_ns3d_strat",
    "Verif.Reversal.C106_sw1l",
    "Verif.Reversal.C106_sw1l_modified",
    "Verif.Reversal.C106_plate2d",
    "Verif.Reversal.C106_burgers",
    "Verif.Reversal.C106_viscosity_needed"
   ],
   "note": "Proved: C106_ns2d, C106_ns2d_strat, C106_ns2d_bouss, C106_ns3d, C106_ns3d_strat, C106_sw1l (as long as the equations have a solution), C106_sw1l_modified, C106_plate2d (coef_dealiasing <= 1/2), C106_burgers; C106_viscosity_needed shows that the hypothesis on the viscosity is needed. Missing: schemes with phase shifts, sw1l.exactlin and onlywaves, truncations which leave aliases, time dependent forces, floats (the rounding errors are in C87 and C83)."
  },
  {
   "property": "C107",
   "status": "partial",
   "theorems": [
    "Verif.Replicas.C107_copies",
    "Verif.Replicas.C107_copies_period",
    "Verif.Replicas.C107_truncations",
    "Verif.Replicas.C107_ns2d",
    "Verif.Replicas.C107_ns2d_strat",
    "Verif.Replicas.C107_ns2d_bouss",
    "Verif.Replicas.C107_sw1l",
    "Verif.Replicas.C107_sw1l_modified",
    "Verif.Replicas.C107_plate2d",
    "Verif.Replicas.C107_burgers",
    "Verif.Replicas.C107_ns3d",
    "Verif.Replicas.C107_ns3d_strat",
    "Verif.Replicas.C107_period_kept",
    "Verif.Replicas.C107_ns2d_cfl",
    "Verif.Replicas.C107_ns3d_cfl"
   ],
   "note": "Proved: C107_ns2d, C107_ns2d_strat, C107_ns2d_bouss, C107_ns3d, C107_ns3d_strat (with ns3d.bouss), C107_sw1l, C107_sw1l_modified, C107_plate2d (coef_dealiasing <= 1/2), C107_burgers; C107_ns2d_cfl and C107_ns3d_cfl with the CFL condition; C107_copies, C107_copies_period and C107_truncations give the meaning of the definitions; C107_period_kept is the observable form. Missing: truncations which leave aliases, the CFL condition of the other solvers, sw1l.exactlin and onlywaves, the forcing classes (the force is given), floats."
  },
  {
   "property": "C108",
   "status": "partial",
   "theorems": [
    "Verif.ExactFlows.C108_ns2d",
    "Verif.ExactFlows.C108_ns2d_flow",
    "Verif.ExactFlows.C108_ns2d_zonal",
    "Verif.ExactFlows.C108_ns2d_strat",
    "Verif.ExactFlows.C108_sw1l",
    "Verif.ExactFlows.C108_sw1l_modified",
    "Verif.ExactFlows.C108_ns3d_beltrami",
    "Verif.ExactFlows.C108_ns3d_parallel",
    "Verif.ExactFlows.C108_ns3d_strat"
   ],
   "note": "For ns2d (with and without the beta effect), ns2d.strat, ns3d (Beltrami and parallel flows), ns3d.strat/bouss, sw1l and sw1l.modified. Missing: rounding, hypo-viscosity, the exact solutions with waves (their linear terms are in the tendencies and not integrated exactly), the plates, sw1l.exactlin and the solvers on the sphere."
  },
  {
   "property": "C109",
   "status": "partial",
   "theorems": [
    "Verif.BudgetFigs.C109_ns2d_partial",
    "Verif.BudgetFigs.C109_conserved",
    "Verif.BudgetFigs.C109_last_record_violated",
    "Verif.BudgetFigs.C109_one_time_violated",
    "Verif.BudgetFigs.C109_abscissa_violated",
    "Verif.BudgetFigs.C109_sw1l_partial",
    "Verif.BudgetFigs.C109_sw1l_conversion_violated",
    "Verif.BudgetFigs.C109_sw1l_thin_violated",
    "Verif.BudgetFigs.C109_modes_partial",
    "Verif.BudgetFigs.C109_ns3d",
    "Verif.BudgetFigs.C109_ns3d_ends",
    "Verif.BudgetFigs.C109_ns3d_injection",
    "Verif.BudgetFigs.C109_ns3d_strat",
    "Verif.BudgetFigs.C109_ns3d_strat_stationary",
    "Verif.BudgetFigs.C109_strat_partial",
    "Verif.BudgetFigs.C109_strat_dealiasing_violated",
    "Verif.BudgetFigs.C109_strat_zero_violated"
   ],
   "note": "C109_ns3d, C109_ns3d_ends, C109_ns3d_injection, C109_ns3d_strat and C109_ns3d_strat_stationary: the curves of plot_fluxes for every file and every range. Partial for the 2D solvers because of the code: the record closest to tmax is never used by plot of ns2d and sw1l (C109_last_record_violated) and a range with one record gives nan (C109_one_time_violated); the points of ns2d are drawn one or two wavenumbers too far (C109_abscissa_violated); the conversion of sw1l is shifted with respect to the fluxes of the same figure (C109_sw1l_conversion_violated) and its thin curves do not stop at the same record (C109_sw1l_thin_violated); in ns2d.strat the index of the truncation is always -1, because argmin is used without abs (C109_strat_dealiasing_violated), and the dissipation of the modes kx = 0 is not counted (C109_strat_zero_violated). Proved parts: C109_ns2d_partial, C109_conserved, C109_sw1l_partial, C109_modes_partial, C109_strat_partial. Not modelled: texts, colors, vertical lines, normalisation of ns2d.strat by the spatial means, online figures, exchange curves of sw1l; exact arithmetic."
  },
  {
   "property": "C110",
   "status": "proved",
   "theorems": [
    "Verif.Reality.C110_real_iff_conjugate",
    "Verif.Reality.C110_shifts",
    "Verif.Reality.C110_ns2d",
    "Verif.Reality.C110_ns2d_strat",
    "Verif.Reality.C110_ns2d_bouss",
    "Verif.Reality.C110_sw1l",
    "Verif.Reality.C110_sw1l_modified",
    "Verif.Reality.C110_plate2d",
    "Verif.Reality.C110_burgers",
    "Verif.Reality.C110_ns3d",
    "Verif.Reality.C110_ns3d_strat",
    "Verif.Reality.C110_hypoviscosity",
    "Verif.Reality.C110_half_spectrum",
    "Verif.Reality.C110_with_uxuy"
   ],
   "note": "One theorem per solver (C110_ns2d, C110_ns2d_strat, C110_ns2d_bouss, C110_with_uxuy, C110_ns3d, C110_ns3d_strat, C110_sw1l, C110_sw1l_modified, C110_plate2d, C110_burgers; C110_hypoviscosity for nu_m4). C110_real_iff_conjugate: real values on the grid and conjugate coefficients are the same; C110_half_spectrum: the stored half gives the field; C110_shifts: the phase shifts of the code meet the hypothesis. Exact arithmetic. The variables of sw1l.exactlin and of sw1l.onlywaves (ap_fft, am_fft) are not the coefficients of real fields and are not considered here (see C56, and C69_waves_hermitian_violated)."
  },
  {
   "property": "C111",
   "status": "partial",
   "theorems": [
    "Verif.RealForce.C111_projection",
    "Verif.RealForce.C111_projection_odd_violated",
    "Verif.RealForce.C111_random",
    "Verif.RealForce.C111_tcrandom",
    "Verif.RealForce.C111_particular_k",
    "Verif.RealForce.C111_shell",
    "Verif.RealForce.C111_real_arrays",
    "Verif.RealForce.C111_ns2d",
    "Verif.RealForce.C111_complex_coefficient",
    "Verif.RealForce.C111_not_real",
    "Verif.RealForce.C111_negative_rate_violated",
    "Verif.RealForce.C111_projection_fft",
    "Verif.RealForce.C111_tcrandom_3d",
    "Verif.RealForce.C111_shell_opposite",
    "Verif.RealForce.C111_projection_needed"
   ],
   "note": "C111_random, C111_tcrandom, C111_particular_k, C111_shell, C111_real_arrays, C111_ns2d (with C110), C111_projection. In 3D, where project_fft_on_realX is fft(ifft(f)), at the level of the wavevectors (the copy between the arrays is C26): C111_projection_fft, C111_tcrandom_3d, C111_shell_opposite, C111_projection_needed. Missing: several processes; and the property fails for negative rates: np.roots gives complex roots when the discriminant is negative and the force is multiplied by a complex number (C111_negative_rate_violated, C111_complex_coefficient, C111_not_real). For odd numbers of rows project_fft_on_realX does not give a real field (C111_projection_odd_violated; the coarse grids have even sizes)."
  },
  {
   "property": "C112",
   "status": "partial",
   "theorems": [
    "Verif.Smooth.C112_ns2d",
    "Verif.Smooth.C112_ns2d_strat",
    "Verif.Smooth.C112_ns2d_bouss",
    "Verif.Smooth.C112_sw1l",
    "Verif.Smooth.C112_sw1l_modified",
    "Verif.Smooth.C112_sw1l_exactlin",
    "Verif.Smooth.C112_plate2d",
    "Verif.Smooth.C112_burgers",
    "Verif.Smooth.C112_burgers_skew",
    "Verif.Smooth.C112_hypoviscosity",
    "Verif.Smooth.C112_proportional",
    "Verif.Smooth.C112_ns3d",
    "Verif.Smooth.C112_ns3d_strat",
    "Verif.Smooth.C112_continuity",
    "Verif.Smooth.C112_sensitivity",
    "Verif.Smooth.C112_cfl_violated",
    "Verif.Smooth.C112_viscosity_ns2d",
    "Verif.Smooth.C112_viscosity_ns2d_strat",
    "Verif.Smooth.C112_viscosity_sw1l",
    "Verif.Smooth.C112_viscosity_ns3d",
    "Verif.Smooth.C112_viscosity_ns3d_strat",
    "Verif.Smooth.C112_negative_viscosity_violated",
    "Verif.Smooth.C112_beta_ns2d",
    "Verif.Smooth.C112_N_ns2d_strat",
    "Verif.Smooth.C112_f_c2_sw1l",
    "Verif.Smooth.C112_f_c2_sw1l_modified",
    "Verif.Smooth.C112_f_ns3d",
    "Verif.Smooth.C112_f_N_ns3d_strat",
    "Verif.Smooth.C112_parameter_continuity",
    "Verif.Smooth.C112_parameter_sensitivity"
   ],
   "note": "C112_<solver> state the smoothness for each solver, for any normed space of parameters; C112_continuity (epsilon-eta) and C112_sensitivity (limit of the difference quotients) are what a user sees, for any run with the property. C112_cfl_violated: with USE_CFL, the 2% hysteresis makes the fields after one step discontinuous (a decaying shear flow, all the schemes). C112_viscosity_*: the viscosities can also depend on the parameter (if they are not negative, C112_negative_viscosity_violated). C112_beta_ns2d, C112_N_ns2d_strat, C112_f_c2_sw1l, C112_f_c2_sw1l_modified, C112_f_ns3d and C112_f_N_ns3d_strat: so can beta, N, f and c2, including at the values zero where the code takes another path; C112_parameter_continuity and C112_parameter_sensitivity are the corresponding statements for a user. C112_hypoviscosity and C112_proportional (forces proportional to the state) for ns2d. Missing: burgers1d.skew_sym when aliased modes are kept, the Crank-Nicolson schemes of the finite-difference solvers, the sphere, the normalised forces (they depend on the state through the roots of a polynomial)."
  }
 ]
}

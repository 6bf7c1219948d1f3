'Verif.TimeLoop.C01_loop_ends_at_first_end' depends on axioms: [propext, Classical.choice, Quot.sound]
'Verif.TimeLoop.C01_is_simul_completed' depends on axioms: [propext, Quot.sound]
'Verif.TimeLoop.C01_events_of_one_step' depends on axioms: [propext, Classical.choice, Quot.sound]
'Verif.TimeLoop.C01_terminates' depends on axioms: [propext, Classical.choice, Quot.sound]
'Verif.TimeLoop.C01_number_of_steps_it_end' depends on axioms: [propext, Classical.choice, Quot.sound]
'Verif.TimeLoop.C01_number_of_steps_fixed_dt' depends on axioms: [propext, Classical.choice, Quot.sound]
'Verif.TimeLoop.C01_start' depends on axioms: [propext, Quot.sound]
'Verif.TimeLoop.C02_stop_after_current_step' depends on axioms: [propext, Classical.choice, Quot.sound]
'Verif.TimeLoop.C02_request_does_not_change_the_step' depends on axioms: [propext, Classical.choice, Quot.sound]
'Verif.TimeLoop.C02_no_step_when_already_stopped' depends on axioms: [propext, Quot.sound]
'Verif.TimeLoop.C02_mpi_ranks_agree' depends on axioms: [propext, Classical.choice, Quot.sound]
'Verif.Cfl.C03_cfl_ux' depends on axioms: [propext, Classical.choice, Quot.sound]
'Verif.Cfl.C03_cfl_uxuy' depends on axioms: [propext, Classical.choice, Quot.sound]
'Verif.Cfl.C03_cfl_uxuyuz' depends on axioms: [propext, Classical.choice, Quot.sound]
'Verif.Cfl.C03_cfl_no_exception' depends on axioms: [propext, Quot.sound]
'Verif.Cfl.C03_cfl_uxuyeta' depends on axioms: [propext, Classical.choice, Quot.sound]
'Verif.Cfl.C03_cfl_uxuyb' depends on axioms: [propext, Classical.choice, Quot.sound]
'Verif.Cfl.C03_cfl_U_partial' depends on axioms: [propext, Classical.choice, Quot.sound]
'Verif.Cfl.C03_cfl_U_negative_violated' depends on axioms: [propext, Classical.choice, Quot.sound]
'Verif.Cfl.C03_wave_limit_violated' depends on axioms: [propext, Classical.choice, Quot.sound]
'Verif.Cfl.C03_deltat_max_is_the_parameter' depends on axioms: [propext, Classical.choice, Quot.sound]
'Verif.Cfl.C03_cfl_coef' depends on axioms: [propext, Classical.choice, Quot.sound]
'Verif.Cfl.C03_method_choice' depends on axioms: [propext]
'Verif.Cfl.C03_strat_waves' depends on axioms: [propext, Classical.choice, Quot.sound]
'Verif.Cfl.C03_strat_init' depends on axioms: [propext, Classical.choice, Quot.sound]
'Verif.Cfl.C03_strat_rate_zero_violated' depends on axioms: [propext, Classical.choice, Quot.sound]
'Verif.Cfl.C03_nb_procs_violated' depends on axioms: [propext, Classical.choice, Quot.sound]
'Verif.Cfl.C03_nb_procs_ux' depends on axioms: [propext, Classical.choice, Quot.sound]
'Verif.Cfl.C03_nb_procs_uxuy_partial' depends on axioms: [propext, Classical.choice, Quot.sound]
'Verif.Schemes.C04_euler_is_classical' depends on axioms: [propext, Classical.choice, Quot.sound]
'Verif.Schemes.C04_rk2_is_classical_midpoint' depends on axioms: [propext, Classical.choice, Quot.sound]
'Verif.Schemes.C04_rk2_trapezoid_is_heun' depends on axioms: [propext, Classical.choice, Quot.sound]
'Verif.Schemes.C04_rk4_is_classical' depends on axioms: [propext, Classical.choice, Quot.sound]
'Verif.Schemes.C04_simple_schemes_are_classical' depends on axioms: [propext, Classical.choice, Quot.sound]
'Verif.Schemes.C04_phaseshift_schemes_documented' depends on axioms: [propext, Classical.choice, Quot.sound]
'Verif.Schemes.C04_phaseshift_inplace_schemes_partial' depends on axioms: [propext, Classical.choice, Quot.sound]
'Verif.Schemes.C04_phaseshift_inplace_schemes_violated' depends on axioms: [propext, Classical.choice, Quot.sound]
'Verif.Schemes.C04_rk2_phaseshift_exact_is_heun_partial' depends on axioms: [propext, Classical.choice, Quot.sound]
'Verif.Schemes.C04_scheme_names' depends on axioms: [propext, Classical.choice, Quot.sound]
'Verif.Schemes.C04_name_gives_scheme' depends on axioms: [propext, Classical.choice, Quot.sound]
'Verif.Schemes.C05_linear_exact' depends on axioms: [propext, Classical.choice, Quot.sound]
'Verif.Schemes.C05_linear_exact_fixed_dt' depends on axioms: [propext, Classical.choice, Quot.sound]
'Verif.Schemes.C05_no_growth' depends on axioms: [propext, Classical.choice, Quot.sound]
'Verif.Schemes.C06_coefs_are_current' depends on axioms: [propext, Classical.choice, Quot.sound]
'Verif.Schemes.C06_coefs_fixed_dt_partial' depends on axioms: [propext, Classical.choice, Quot.sound]
'Verif.Schemes.C06_modified_deltat_violated' depends on axioms: [propext, Classical.choice, Quot.sound]
'Verif.Fourier.C07_spherical_truncation_partial' depends on axioms: [propext, Classical.choice, Quot.sound]
'Verif.Fourier.C07_spherical_anisotropic_violated' depends on axioms: [propext, Classical.choice, Quot.sound]
'Verif.Fourier.C07_1d_truncation_partial' depends on axioms: [propext, Classical.choice, Quot.sound]
'Verif.Fourier.C07_1d_truncation_violated' depends on axioms: [propext, Classical.choice, Quot.sound]
'Verif.Fourier.C08_pair_average_weights' depends on axioms: [propext, Classical.choice, Quot.sound]
'Verif.Fourier.C08_weights' depends on axioms: [propext, Classical.choice, Quot.sound]
'Verif.Fourier.C08_half_shift_weights' depends on axioms: [propext, Classical.choice, Quot.sound]
'Verif.Fourier.C08_phaseshift_and_truncation_exact' depends on axioms: [propext, Classical.choice, Quot.sound]
'Verif.Fourier.C08_no_multiple_aliases_violated' depends on axioms: [propext, Classical.choice, Quot.sound]
'Verif.PhasePool.C09_pairs_consistent' depends on axioms: [propext, Classical.choice, Quot.sound]
'Verif.PhasePool.C09_partner_within_half_cell' depends on axioms: [propext, Classical.choice, Quot.sound]
'Verif.PhasePool.C09_renewal' depends on axioms: [propext, Classical.choice, Quot.sound]
'Verif.PhasePool.C09_default_exchange_is_overwritten' depends on axioms: [propext, Quot.sound]
'Verif.PhasePool.C09_mpi_ranks_violated' depends on axioms: [propext, Classical.choice, Quot.sound]
'Verif.StateInit.C10_spect_sets_exactly' depends on axioms: [propext, Classical.choice, Quot.sound]
'Verif.StateInit.C10_phys_sets_exactly' depends on axioms: [propext, Classical.choice, Quot.sound]
'Verif.StateInit.C10_unknown_key_raises' depends on axioms: [propext]
'Verif.StateInit.C10_setitem' depends on axioms: [propext]
'Verif.StateInit.C10_ns2d_consistent' depends on axioms: [propext, Classical.choice, Quot.sound]
'Verif.StateInit.C10_representations_violated' depends on axioms: [propext]
'Verif.StateInit.C10_ns2d_phys_from_ux_violated' depends on axioms: [propext, Classical.choice, Quot.sound]
'Verif.StateInit.C10_sphere_other_variables_violated' depends on axioms: [propext, Classical.choice, Quot.sound]
'Verif.StateInit.C10_rotb_consistent' depends on axioms: [propext, Classical.choice, Quot.sound]
'Verif.StateInit.C10_strat_consistent' depends on axioms: [propext, Classical.choice, Quot.sound]
'Verif.StateInit.C11_ns2d_keeps_all' depends on axioms: [propext, Quot.sound]
'Verif.StateInit.C11_with_uxuy_keeps_all' depends on axioms: [propext, Classical.choice, Quot.sound]
'Verif.StateInit.C11_ns3d_keeps_all' depends on axioms: [propext, Classical.choice, Quot.sound]
'Verif.StateInit.C11_bouss_keeps_all_partial' depends on axioms: [propext, Classical.choice, Quot.sound]
'Verif.StateInit.C11_bouss_violated' depends on axioms: [propext, Classical.choice, Quot.sound]
'Verif.StateInit.C11_bouss_not_keeps_all' depends on axioms: [propext, Classical.choice, Quot.sound]
'Verif.StateInit.C11_strat_keeps_all_partial' depends on axioms: [propext, Classical.choice, Quot.sound]
'Verif.StateInit.C11_strat_violated' depends on axioms: [propext]
'Verif.StateInit.C11_sw1l_keeps_all_partial' depends on axioms: [propext, Classical.choice, Quot.sound]
'Verif.StateInit.C11_sw1l_violated' depends on axioms: [propext, Classical.choice, Quot.sound]
'Verif.StateInit.C11_plate2d_keeps_all_partial' depends on axioms: [propext, Classical.choice, Quot.sound]
'Verif.StateInit.C11_plate2d_violated' depends on axioms: [propext, Classical.choice, Quot.sound]
'Verif.StateInit.C11_sphere_violated' depends on axioms: [propext]
'Verif.StateInit.C11_ns2d_fields' depends on axioms: [propext, Classical.choice, Quot.sound]
'Verif.StateInit.C11_strat_fields' depends on axioms: [propext, Classical.choice, Quot.sound]
'Verif.StateInit.C11_ns3d_fields' depends on axioms: [propext, Classical.choice, Quot.sound]
'Verif.StateInit.C11_sw1l_fields' depends on axioms: [propext, Classical.choice, Quot.sound]
'Verif.StateInit.C11_sw1l_qa_partial' depends on axioms: [propext, Classical.choice, Quot.sound]
'Verif.StateInit.C11_sw1l_qa_violated' depends on axioms: [propext, Classical.choice, Quot.sound]
'Verif.VarCache.C12_reads_are_current' depends on axioms: [propext, Quot.sound]
'Verif.VarCache.C12_step_or_clear_refreshes' depends on axioms: [propext, Quot.sound]
'Verif.VarCache.C12_value_unique' depends on axioms: [propext]
'Verif.VarCache.C12_same_within_iteration' depends on axioms: [propext, Quot.sound]
'Verif.VarCache.C12_unknown_key' depends on axioms: [propext]
'Verif.VarCache.C12_write_after_read_violated' depends on axioms: [propext]
'Verif.VarCache.C12_zeros_are_cached_violated' depends on axioms: [propext]
'Verif.Params.C13_union' depends on axioms: [propext, Quot.sound]
'Verif.Params.C13_type_error' does not depend on any axioms
'Verif.Params.C13_idempotent' depends on axioms: [propext, Quot.sound]
'Verif.Params.C13_many' depends on axioms: [propext, Quot.sound]
'Verif.Params.C13_merge_params_type_fft' depends on axioms: [propext, Classical.choice, Quot.sound]
'Verif.Params.C13_current_fft_kept' depends on axioms: [propext, Classical.choice, Quot.sound]
'Verif.Params.C14_fix_old_params' depends on axioms: [propext, Classical.choice, Quot.sound]
'Verif.Params.C14_idempotent' depends on axioms: [propext, Classical.choice, Quot.sound]
'Verif.Params.C14_new_params_untouched' depends on axioms: [propext, Classical.choice, Quot.sound]
'Verif.Cadence.C15_diff_saves_at_first_due_call' depends on axioms: [propext, Quot.sound]
'Verif.Cadence.C15_floor_saves_at_first_due_call' depends on axioms: [propext, Classical.choice, Quot.sound]
'Verif.Cadence.C15_no_save_without_has_to_save' depends on axioms: [propext, Quot.sound]
'Verif.Cadence.C15_no_save_with_zero_period' depends on axioms: [propext, Quot.sound]
'Verif.Cadence.C15_diff_spacing' depends on axioms: [propext, Quot.sound]
'Verif.Cadence.C15_diff_count' depends on axioms: [propext, Classical.choice, Quot.sound]
'Verif.Cadence.C15_diff_no_gap' depends on axioms: [propext, Classical.choice, Quot.sound]
'Verif.Cadence.C15_floor_bins_violated' depends on axioms: [propext, Classical.choice, Quot.sound]
'Verif.Cadence.C15_floor_bins_partial' depends on axioms: [propext, Classical.choice, Quot.sound]
'Verif.Cadence.C15_floor_count' depends on axioms: [propext, Classical.choice, Quot.sound]
'Verif.Cadence.C15_floor_no_gap' depends on axioms: [propext, Classical.choice, Quot.sound]
'Verif.Cadence.C15_eager_first_call' depends on axioms: [propext, Classical.choice, Quot.sound]
'Verif.Cadence.C15_final_state_saved' depends on axioms: [propext, Quot.sound]
'Verif.Cadence.C15_no_final_save_without_has_to_save' depends on axioms: [propext, Quot.sound]
'Verif.Series.C16_aligned' depends on axioms: [propext, Classical.choice, Quot.sound]
'Verif.Series.C16_earlier_records_unchanged' depends on axioms: [propext, Classical.choice, Quot.sound]
'Verif.Series.C16_crash_safe' depends on axioms: [propext, Classical.choice, Quot.sound]
'Verif.Series.C16_missing_file_raises' does not depend on any axioms
'Verif.Series.C16_unknown_key_raises' depends on axioms: [propext, Classical.choice, Quot.sound]
'Verif.Series.C16_time_signals_restart_violated' depends on axioms: [propext]
'Verif.Series.C16_time_signals_partial' depends on axioms: [propext, Classical.choice, Quot.sound]
'Verif.Series.C16_probes_partial' depends on axioms: [propext, Classical.choice, Quot.sound]
'Verif.Series.C16_probes_restart_before_first_save_violated' depends on axioms: [propext]
'Verif.Series.C16_probes_same_name_violated' depends on axioms: [propext]
'Verif.PhysFiles.C17_never_overwrites' depends on axioms: [propext, Classical.choice, Quot.sound]
'Verif.PhysFiles.C17_state_is_saved' depends on axioms: [propext, Classical.choice, Quot.sound]
'Verif.PhysFiles.C17_names_distinct' depends on axioms: [propext, Classical.choice, Quot.sound]
'Verif.PhysFiles.C17_time_from_name' depends on axioms: [propext, Classical.choice, Quot.sound]
'Verif.PhysFiles.C17_names_sorted_partial' depends on axioms: [propext, Classical.choice, Quot.sound]
'Verif.PhysFiles.C17_names_sorted_width7_partial' depends on axioms: [propext, Classical.choice, Quot.sound]
'Verif.PhysFiles.C17_order_without_t_end_violated' depends on axioms: [propext, Classical.choice, Quot.sound]
'Verif.PhysFiles.C17_order_same_thousandth_violated' depends on axioms: [propext, Classical.choice, Quot.sound]
'Verif.PhysFiles.C17_order_iterations_violated' depends on axioms: [propext, Classical.choice, Quot.sound]
'Verif.PhysFiles.C18_closest_file' depends on axioms: [propext, Classical.choice, Quot.sound]
'Verif.PhysFiles.C18_last_file' depends on axioms: [propext, Classical.choice, Quot.sound]
'Verif.PhysFiles.C18_default_file' depends on axioms: [propext, Quot.sound]
'Verif.PhysFiles.C18_error_iff_no_file' depends on axioms: [propext, Quot.sound]
'Verif.PhysFiles.C18_get_closest_time_file' depends on axioms: [propext, Classical.choice, Quot.sound]
'Verif.PhysFiles.C18_default_is_latest_partial' depends on axioms: [propext, Quot.sound]
'Verif.PhysFiles.C18_default_is_latest_violated' depends on axioms: [propext, Classical.choice, Quot.sound]
'Verif.PhysFiles.C18_update_times_partial' does not depend on any axioms
'Verif.PhysFiles.C18_update_times_violated' does not depend on any axioms
'Verif.PhysFiles.C19_interpolation_partial' depends on axioms: [propext, Classical.choice, Quot.sound]
'Verif.PhysFiles.C19_at_saved_time' depends on axioms: [propext, Classical.choice, Quot.sound]
'Verif.PhysFiles.C19_error_iff_no_file' depends on axioms: [propext, Classical.choice, Quot.sound]
'Verif.PhysFiles.C19_extrapolation_violated' depends on axioms: [propext, Classical.choice, Quot.sound]
'Verif.RunDirs.C20_own_directory' depends on axioms: [propext, Quot.sound]
'Verif.RunDirs.C20_existing_directories_kept' depends on axioms: [propext]
'Verif.RunDirs.C20_terminates' depends on axioms: [propext, Classical.choice, Quot.sound]
'Verif.RunDirs.C20_no_mixed_resolution' depends on axioms: [propext, Quot.sound]
'Verif.RunDirs.C20_same_resolution_reuses' depends on axioms: [propext, Quot.sound]
'Verif.RunDirs.C20_missing_path_run_violated' depends on axioms: [propext]
'Verif.RunDirs.C21_moved' depends on axioms: [propext, Classical.choice, Quot.sound]
'Verif.RunDirs.C21_stays' depends on axioms: [propext, Quot.sound]
'Verif.RunDirs.C21_move_never_destroys' depends on axioms: [propext, Classical.choice, Quot.sound]
'Verif.RunDirs.C21_concurrent_moves_violated' depends on axioms: [propext, Classical.choice, Quot.sound]
'Verif.RunDirs.C21_mpi_ranks_violated' depends on axioms: [propext, Classical.choice, Quot.sound]
'Verif.RunDirs.C21_textual_prefix_violated' depends on axioms: [propext, Classical.choice, Quot.sound]
'Verif.RunDirs.C22_lock_while_advancing_partial' depends on axioms: [propext, Quot.sound]
'Verif.RunDirs.C22_no_stale_lock_partial' depends on axioms: [propext, Quot.sound]
'Verif.RunDirs.C22_lock_stays_until_release' depends on axioms: [propext]
'Verif.RunDirs.C22_two_processes_violated' depends on axioms: [propext]
'Verif.RunDirs.C22_other_process_releases_violated' depends on axioms: [propext]
'Verif.RunDirs.C22_sigterm_violated' depends on axioms: [propext, Quot.sound]
'Verif.RunDirs.C22_test_then_write_violated' depends on axioms: [propext]
'Verif.RunDirs.C22_moved_lock_violated' depends on axioms: [propext]
'Verif.Restart.C23_t_end' depends on axioms: [propext, Quot.sound]
'Verif.Restart.C23_it_end_partial' depends on axioms: [propext, Quot.sound]
'Verif.Restart.C23_it_end_violated' depends on axioms: [propext, Classical.choice, Quot.sound]
'Verif.Restart.C23_started_iff' depends on axioms: [propext, Quot.sound]
'Verif.Restart.C23_refused_partial' depends on axioms: [propext, Classical.choice, Quot.sound]
'Verif.Restart.C23_end_before_file_violated' depends on axioms: [propext, Classical.choice, Quot.sound]
'Verif.Restart.C23_only_check' depends on axioms: [propext, Quot.sound]
'Verif.Restart.C23_new_dir' depends on axioms: [propext, Quot.sound]
'Verif.Restart.C23_max_elapsed' depends on axioms: [propext, Quot.sound]
'Verif.Restart.C23_exit_code' does not depend on any axioms
'Verif.Modes.C24_2d_partial' depends on axioms: [propext, Classical.choice, Quot.sound]
'Verif.Modes.C24_2d_even' depends on axioms: [propext, Classical.choice, Quot.sound]
'Verif.Modes.C24_2d_odd_violated' depends on axioms: [propext, Classical.choice, Quot.sound]
'Verif.Modes.C24_state_2d_even' depends on axioms: [propext, Classical.choice, Quot.sound]
'Verif.Modes.C24_3d_upscaling_partial' depends on axioms: [propext, Classical.choice, Quot.sound]
'Verif.Modes.C24_3d_downscaling_violated' depends on axioms: [propext, Classical.choice, Quot.sound]
'Verif.Modes.C24_state_3d_upscaling_partial' depends on axioms: [propext, Classical.choice, Quot.sound]
'Verif.Modes.C24_mini3d_partial' depends on axioms: [propext, Classical.choice, Quot.sound]
'Verif.Modes.C24_mini3d_even' depends on axioms: [propext, Classical.choice, Quot.sound]
'Verif.Modes.C25_index_wavenumber_index' depends on axioms: [propext, Classical.choice, Quot.sound]
'Verif.Modes.C25_wavenumber_index_wavenumber' depends on axioms: [propext, Classical.choice, Quot.sound]
'Verif.Modes.C25_half_axis' depends on axioms: [propext]
'Verif.Modes.C25_3d_index' depends on axioms: [propext, Classical.choice, Quot.sound]
'Verif.Modes.C25_3d_wavenumber' depends on axioms: [propext, Classical.choice, Quot.sound]
'Verif.Modes.C25_3d_not_implemented' does not depend on any axioms
'Verif.Modes.C25_set_get' depends on axioms: [propext, Classical.choice, Quot.sound]
'Verif.Modes.C25_order_inverse' depends on axioms: [propext, Quot.sound]
'Verif.Modes.C25_order_axes' depends on axioms: [propext, Classical.choice, Quot.sound]
'Verif.Modes.C25_order_missing_violated' does not depend on any axioms
'Verif.Coarse.C26_put_3d' depends on axioms: [propext, Classical.choice, Quot.sound]
'Verif.Coarse.C26_take_3d' depends on axioms: [propext, Classical.choice, Quot.sound]
'Verif.Coarse.C26_roundtrip_3d' depends on axioms: [propext, Classical.choice, Quot.sound]
'Verif.Coarse.C26_put_2d_ok_iff' depends on axioms: [propext, Classical.choice, Quot.sound]
'Verif.Coarse.C26_put_2d' depends on axioms: [propext, Classical.choice, Quot.sound]
'Verif.Coarse.C26_take_2d' depends on axioms: [propext, Classical.choice, Quot.sound]
'Verif.Coarse.C26_roundtrip_2d' depends on axioms: [propext, Classical.choice, Quot.sound]
'Verif.Coarse.C26_2d_distributed' depends on axioms: [propext, Classical.choice, Quot.sound]
'Verif.Coarse.C26_2d_not_transposed' depends on axioms: [propext, Quot.sound]
'Verif.Coarse.C26_put_distributed_partial' depends on axioms: [propext, Classical.choice, Quot.sound]
'Verif.Coarse.C26_take_distributed_partial' depends on axioms: [propext, Classical.choice, Quot.sound]
'Verif.Coarse.C26_roundtrip_distributed_partial' depends on axioms: [propext, Classical.choice, Quot.sound]
'Verif.Coarse.C26_slab_order_refused' depends on axioms: [propext, Quot.sound]
'Verif.Coarse.C26_take_slab_order_violated' depends on axioms: [propext, Classical.choice, Quot.sound]
'Verif.Coarse.C26_line_two_modes_violated' depends on axioms: [propext, Classical.choice, Quot.sound]
'Verif.Coarse.C26_line_one_mode_violated' depends on axioms: [propext, Classical.choice, Quot.sound]
'Verif.Modes.C27_2d_distributed' depends on axioms: [propext, Classical.choice, Quot.sound]
'Verif.Modes.C27_2d_sequential' depends on axioms: [propext, Classical.choice, Quot.sound]
'Verif.Modes.C27_2d_error' depends on axioms: [propext, Quot.sound]
'Verif.Modes.C27_2d_ky_outside_violated' depends on axioms: [propext, Classical.choice, Quot.sound]
'Verif.Modes.C27_2d_negative_kx_violated' depends on axioms: [propext, Classical.choice, Quot.sound]
'Verif.Modes.C27_3d_slab' depends on axioms: [propext, Classical.choice, Quot.sound]
'Verif.Modes.C27_3d_slab_unique' depends on axioms: [propext, Quot.sound]
'Verif.Modes.C27_3d_block' depends on axioms: [propext, Classical.choice, Quot.sound]
'Verif.Modes.C27_3d_block_error_iff' depends on axioms: [propext, Classical.choice, Quot.sound]
'Verif.Modes.C27_3d' depends on axioms: [propext, Classical.choice, Quot.sound]
'Verif.Vectors.C28_orthogonal' depends on axioms: [propext, Classical.choice, Quot.sound]
'Verif.Vectors.C28_removes_gradient' depends on axioms: [propext, Classical.choice, Quot.sound]
'Verif.Vectors.C28_divergence_free_unchanged' depends on axioms: [propext, Classical.choice, Quot.sound]
'Verif.Vectors.C28_idempotent' depends on axioms: [propext, Classical.choice, Quot.sound]
'Verif.Vectors.C28_closest' depends on axioms: [propext, Classical.choice, Quot.sound]
'Verif.Vectors.C28_radial' depends on axioms: [propext, Classical.choice, Quot.sound]
'Verif.Vectors.C28_state_after_step' depends on axioms: [propext, Classical.choice, Quot.sound]
'Verif.Vectors.C28_state_always' depends on axioms: [propext, Classical.choice, Quot.sound]
'Verif.Vectors.C28_projection_neutral' depends on axioms: [propext, Classical.choice, Quot.sound]
'Verif.Vectors.C28_projection_option' depends on axioms: [propext, Classical.choice, Quot.sound]
'Verif.Vectors.C28_projection_option_effect' depends on axioms: [propext, Classical.choice, Quot.sound]
'Verif.Vectors.C28_gradient' depends on axioms: [propext, Classical.choice, Quot.sound]
'Verif.Vectors.C29_poloidal_documented' depends on axioms: [propext, Classical.choice, Quot.sound]
'Verif.Vectors.C29_spherical_covers' depends on axioms: [propext, Classical.choice, Quot.sound]
'Verif.Vectors.C29_orthogonal_idempotents' depends on axioms: [propext, Classical.choice, Quot.sound]
'Verif.Vectors.C29_decomposition' depends on axioms: [propext, Classical.choice, Quot.sound]
'Verif.Vectors.C29_parts_divergence_free' depends on axioms: [propext, Classical.choice, Quot.sound]
'Verif.Vectors.C29_scalar_roundtrip' depends on axioms: [propext, Classical.choice, Quot.sound]
'Verif.Vectors.C29_scalar_energy' depends on axioms: [propext, Classical.choice, Quot.sound]
'Verif.Vectors.C29_urud' depends on axioms: [propext, Classical.choice, Quot.sound]
'Verif.Vectors.C30_laplacian' depends on axioms: [propext, Classical.choice, Quot.sound]
'Verif.Vectors.C30_inverse' depends on axioms: [propext, Classical.choice, Quot.sound]
'Verif.Vectors.C30_odd_refused' depends on axioms: [propext, Classical.choice, Quot.sound]
'Verif.Vectors.C30_even_missing' depends on axioms: [propext, Classical.choice, Quot.sound]
'Verif.Vectors.C30_stream_function' depends on axioms: [propext, Classical.choice, Quot.sound]
'Verif.Forcing.C31_particular_mode_forced' depends on axioms: [propext, Classical.choice, Quot.sound]
'Verif.Forcing.C31_particular_mode_all_but_last_partial' depends on axioms: [propext, Classical.choice, Quot.sound]
'Verif.Forcing.C31_particular_last_violated' depends on axioms: [propext, Classical.choice, Quot.sound]
'Verif.Forcing.C31_particular_single_violated' depends on axioms: [propext, Classical.choice, Quot.sound]
'Verif.Forcing.C31_rate' depends on axioms: [propext, Classical.choice, Quot.sound]
'Verif.Forcing.C31_real_roots' depends on axioms: [propext, Classical.choice, Quot.sound]
'Verif.Forcing.C31_real_roots_of_rate_nonneg' depends on axioms: [propext, Classical.choice, Quot.sound]
'Verif.Forcing.C31_no_real_root' depends on axioms: [propext, Classical.choice, Quot.sound]
'Verif.Forcing.C31_zero_raw_forcing' depends on axioms: [propext, Classical.choice, Quot.sound]
'Verif.Forcing.C31_minabs' depends on axioms: [propext, Classical.choice, Quot.sound]
'Verif.Forcing.C31_positive' depends on axioms: [propext, Classical.choice, Quot.sound]
'Verif.Forcing.C31_options' depends on axioms: [propext, Classical.choice, Quot.sound]
'Verif.Forcing.C31_first_second_violated' depends on axioms: [propext, Classical.choice, Quot.sound]
'Verif.Forcing.C31_unknown_type_violated' depends on axioms: [propext, Classical.choice, Quot.sound]
'Verif.Forcing.C31_several_keys' depends on axioms: [propext, Classical.choice, Quot.sound]
'Verif.Forcing.C31_ns2d_energy' depends on axioms: [propext, Classical.choice, Quot.sound]
'Verif.Forcing.C31_ns2d_accepted' depends on axioms: [propext, Classical.choice, Quot.sound]
'Verif.Forcing.C31_strat_ap_energy' depends on axioms: [propext, Classical.choice, Quot.sound]
'Verif.Forcing.C31_strat_rot_energy' depends on axioms: [propext, Classical.choice, Quot.sound]
'Verif.Forcing.C31_strat_ap_energyK_violated' depends on axioms: [propext, Classical.choice, Quot.sound]
'Verif.Forcing.C31_particular_mode' depends on axioms: [propext, Classical.choice, Quot.sound]
'Verif.Forcing.Kolmo.C31_kolmogorov_positive' depends on axioms: [propext, Classical.choice, Quot.sound]
'Verif.Forcing.Kolmo.C31_kolmogorov_minabs' depends on axioms: [propext, Classical.choice, Quot.sound]
'Verif.Forcing.Kolmo.C31_kolmogorov_second_violated' depends on axioms: [propext, Classical.choice, Quot.sound]
'Verif.Forcing.C32_rate' depends on axioms: [propext, Classical.choice, Quot.sound]
'Verif.Forcing.C32_band' depends on axioms: [propext, Classical.choice, Quot.sound]
'Verif.Forcing.C32_amplifies' depends on axioms: [propext, Classical.choice, Quot.sound]
'Verif.Forcing.C33_repeated_call' depends on axioms: [propext, Classical.choice, Quot.sound]
'Verif.Forcing.C33_later_call' depends on axioms: [propext, Classical.choice, Quot.sound]
'Verif.Forcing.C33_once_per_time' depends on axioms: [propext, Classical.choice, Quot.sound]
'Verif.Forcing.C33_every_time' depends on axioms: [propext, Classical.choice, Quot.sound]
'Verif.Forcing.C33_time_set_back_violated' depends on axioms: [propext, Classical.choice, Quot.sound]
'Verif.Forcing.C34_convex' depends on axioms: [propext, Classical.choice, Quot.sound]
'Verif.Forcing.C34_ends' depends on axioms: [propext, Classical.choice, Quot.sound]
'Verif.Forcing.C34_continuous' depends on axioms: [propext, Classical.choice, Quot.sound]
'Verif.Forcing.C34_no_jump' depends on axioms: [propext, Classical.choice, Quot.sound]
'Verif.Forcing.C34_restart' depends on axioms: [propext, Classical.choice, Quot.sound]
'Verif.Forcing.C34_restart_earlier_partial' depends on axioms: [propext, Classical.choice, Quot.sound]
'Verif.Forcing.C34_restart_noise_partial' depends on axioms: [propext, Classical.choice, Quot.sound]
'Verif.Forcing.C34_restart_noise_violated' depends on axioms: [propext, Classical.choice, Quot.sound]
'Verif.Forcing.C34_restart_before_change_violated' depends on axioms: [propext, Classical.choice, Quot.sound]
'Verif.Forcing.C34_restart_new_directory_violated' depends on axioms: [propext, Classical.choice, Quot.sound]
'Verif.Forcing.C34_crash_while_saving_violated' depends on axioms: [propext, Classical.choice, Quot.sound]
'Verif.Motion.C35_genuine_motion' depends on axioms: [propext, Classical.choice, Quot.sound]
'Verif.Motion.C35_period' depends on axioms: [propext, Classical.choice, Quot.sound]
'Verif.Motion.C35_default_parameters_violated' depends on axioms: [propext, Classical.choice, Quot.sound]
'Verif.Motion.C35_sinusoidal' depends on axioms: [propext, Classical.choice, Quot.sound]
'Verif.Motion.C35_uniform' depends on axioms: [propext, Classical.choice, Quot.sound]
'Verif.ForcedRegion.C36_shell_2d' depends on axioms: [propext, Classical.choice, Quot.sound]
'Verif.ForcedRegion.C36_nyquist_2d' depends on axioms: [propext, Classical.choice, Quot.sound]
'Verif.ForcedRegion.C36_shell_3d' depends on axioms: [propext, Classical.choice, Quot.sound]
'Verif.ForcedRegion.C36_nyquist_3d' depends on axioms: [propext, Classical.choice, Quot.sound]
'Verif.ForcedRegion.C36_whole_shell_2d_partial' depends on axioms: [propext, Classical.choice, Quot.sound]
'Verif.ForcedRegion.C36_square_domain' depends on axioms: [propext, Classical.choice, Quot.sound]
'Verif.ForcedRegion.C36_whole_shell_3d_partial' depends on axioms: [propext, Classical.choice, Quot.sound]
'Verif.ForcedRegion.C36_range_checked' depends on axioms: [propext, Classical.choice, Quot.sound]
'Verif.ForcedRegion.C36_anisotropic_domain_violated' depends on axioms: [propext, Classical.choice, Quot.sound]
'Verif.ForcedRegion.C36_kmax_violated' depends on axioms: [propext, Classical.choice, Quot.sound]
'Verif.ForcedRegion.C36_nyquist_1d_violated' depends on axioms: [propext, Classical.choice, Quot.sound]
'Verif.ForcedRegion.C36_anisotropic_2d' depends on axioms: [propext, Classical.choice, Quot.sound]
'Verif.ForcedRegion.C36_anisotropic_nyquist_2d' depends on axioms: [propext, Classical.choice, Quot.sound]
'Verif.ForcedRegion.C36_whole_box_2d' depends on axioms: [propext, Classical.choice, Quot.sound]
'Verif.ForcedRegion.C36_whole_sector_2d_partial' depends on axioms: [propext, Classical.choice, Quot.sound]
'Verif.ForcedRegion.C36_sector_violated' depends on axioms: [propext, Classical.choice, Quot.sound]
'Verif.ForcedRegion.C36_anisotropic_3d_partial' depends on axioms: [propext, Classical.choice, Quot.sound]
'Verif.ForcedRegion.C36_anisotropic_3d_violated' depends on axioms: [propext, Classical.choice, Quot.sound]
'Verif.ForcedRegion.C36_angle_violated' depends on axioms: [propext, Classical.choice, Quot.sound]
'Verif.ForcedRegion.C36_plot_box_2d' depends on axioms: [propext, Classical.choice, Quot.sound]
'Verif.ForcedRegion.C36_plot_sector_2d' depends on axioms: [propext, Classical.choice, Quot.sound]
'Verif.ForcedRegion.C36_plot_visible_partial' depends on axioms: [propext, Classical.choice, Quot.sound]
'Verif.ForcedRegion.C36_plot_points_3d' depends on axioms: [propext, Classical.choice, Quot.sound]
'Verif.ForcedRegion.C36_plot_text_violated' depends on axioms: [propext, Classical.choice, Quot.sound]
'Verif.ForcedRegion.C36_plot_negative_violated' depends on axioms: [propext, Classical.choice, Quot.sound]
'Verif.ForcedRegion.C36_plot_title_violated' depends on axioms: [propext, Classical.choice, Quot.sound]
'Verif.ForcedRegion.C36_plot_ticks_violated' depends on axioms: [propext, Classical.choice, Quot.sound]
'Verif.Energy.C37_energy' depends on axioms: [propext, Classical.choice, Quot.sound]
'Verif.Energy.C37_energy_default' depends on axioms: [propext, Classical.choice, Quot.sound]
'Verif.Energy.C37_tendency_admissible' depends on axioms: [propext, Classical.choice, Quot.sound]
'Verif.Energy.C37_energy_constant' depends on axioms: [propext, Classical.choice, Quot.sound]
'Verif.Energy.C37_helicity' depends on axioms: [propext, Classical.choice, Quot.sound]
'Verif.Energy.C37_strat' depends on axioms: [propext, Classical.choice, Quot.sound]
'Verif.Energy.C37_bouss' depends on axioms: [propext, Classical.choice, Quot.sound]
'Verif.Energy.C37_truncation' depends on axioms: [propext, Classical.choice, Quot.sound]
'Verif.Energy.C38_enstrophy' depends on axioms: [propext, Classical.choice, Quot.sound]
'Verif.Energy.C38_mean_vorticity' depends on axioms: [propext, Classical.choice, Quot.sound]
'Verif.Energy.C38_energy' depends on axioms: [propext, Classical.choice, Quot.sound]
'Verif.Energy.C38_default_truncation' depends on axioms: [propext, Classical.choice, Quot.sound]
'Verif.Sw1l.C39_roundtrip_uxuyeta' depends on axioms: [propext, Classical.choice, Quot.sound]
'Verif.Sw1l.C39_roundtrip_qapam' depends on axioms: [propext, Classical.choice, Quot.sound]
'Verif.Sw1l.C39_mean' depends on axioms: [propext, Classical.choice, Quot.sound]
'Verif.Sw1l.C39_mean_eta_violated' depends on axioms: [propext, Classical.choice, Quot.sound]
'Verif.Sw1l.C39_init_q_a' depends on axioms: [propext, Classical.choice, Quot.sound]
'Verif.Sw1l.C39_init_qa_partial' depends on axioms: [propext, Classical.choice, Quot.sound]
'Verif.Sw1l.C39_init_qa_violated' depends on axioms: [propext, Classical.choice, Quot.sound]
'Verif.Sw1l.C39_exactlin_velocity_partial' depends on axioms: [propext, Classical.choice, Quot.sound]
'Verif.Sw1l.C39_exactlin_mean_violated' depends on axioms: [propext, Classical.choice, Quot.sound]
'Verif.Sw1l.C39_eigenmodes' depends on axioms: [propext, Classical.choice, Quot.sound]
'Verif.Sw1l.C39_inertial_violated' depends on axioms: [propext, Classical.choice, Quot.sound]
'Verif.Energy.C40_energy' depends on axioms: [propext, Classical.choice, Quot.sound]
'Verif.Strat.C40_eigenmodes' depends on axioms: [propext, Classical.choice, Quot.sound]
'Verif.Strat.C40_plane_wave_tendency' depends on axioms: [propext, Classical.choice, Quot.sound]
'Verif.Strat.C40_evolution' depends on axioms: [propext, Classical.choice, Quot.sound]
'Verif.Strat.C40_init' depends on axioms: [propext, Classical.choice, Quot.sound]
'Verif.Strat.C40_wave_solution' depends on axioms: [propext, Classical.choice, Quot.sound]
'Verif.Strat.C40_check_partial' depends on axioms: [propext, Classical.choice, Quot.sound]
'Verif.Strat.C40_check_violated' depends on axioms: [propext, Classical.choice, Quot.sound]
'Verif.Strat.C40_check_rate' depends on axioms: [propext, Classical.choice, Quot.sound]
'Verif.Strat.C40_check_energy_partial' depends on axioms: [propext, Classical.choice, Quot.sound]
'Verif.Energy.C41_energy_partial' depends on axioms: [propext, Classical.choice, Quot.sound]
'Verif.Energy.C41_half_truncation' depends on axioms: [propext, Classical.choice, Quot.sound]
'Verif.Energy.C41_rate_of_energy' depends on axioms: [propext, Classical.choice, Quot.sound]
'Verif.Energy.C41_two_thirds_violated' depends on axioms: [propext, Classical.choice, Quot.sound]
'Verif.Models0d.C42_lorenz_fixed_points' depends on axioms: [propext, Classical.choice, Quot.sound]
'Verif.Models0d.C42_lorenz_rho_violated' depends on axioms: [propext, Classical.choice, Quot.sound]
'Verif.Models0d.C42_lotka_fixed_points' depends on axioms: [propext, Classical.choice, Quot.sound]
'Verif.Models0d.C42_lotka_potential' depends on axioms: [propext, Classical.choice, Quot.sound]
'Verif.Models0d.C42_lotka_potential_max' depends on axioms: [propext, Classical.choice, Quot.sound]
'Verif.Models0d.C42_print_partial' depends on axioms: [propext, Classical.choice, Quot.sound]
'Verif.Models0d.C42_print_violated' depends on axioms: [propext, Classical.choice, Quot.sound]
'Verif.Models0d.C42_load' depends on axioms: [propext, Classical.choice, Quot.sound]
'Verif.Models0d.C42_load_violated' depends on axioms: [propext, Classical.choice, Quot.sound]
'Verif.FiniteDiff.C43_derivatives' depends on axioms: [propext, Classical.choice, Quot.sound]
'Verif.FiniteDiff.C43_small_grids_refused' depends on axioms: [propext, Classical.choice, Quot.sound]
'Verif.FiniteDiff.C43_sums' depends on axioms: [propext, Classical.choice, Quot.sound]
'Verif.FiniteDiff.C43_symmetry' depends on axioms: [propext, Classical.choice, Quot.sound]
'Verif.FiniteDiff.C43_polynomials' depends on axioms: [propext, Classical.choice, Quot.sound]
'Verif.FiniteDiff.C43_step_mean' depends on axioms: [propext, Classical.choice, Quot.sound]
'Verif.FiniteDiff.C43_step_equation' depends on axioms: [propext, Classical.choice, Quot.sound]
'Verif.FiniteDiff.C43_step_solvable' depends on axioms: [propext, Classical.choice, Quot.sound]
'Verif.FiniteDiff.C43_step_energy' depends on axioms: [propext, Classical.choice, Quot.sound]
'Verif.FiniteDiff.C43_accuracy' depends on axioms: [propext, Classical.choice, Quot.sound]
'Verif.FiniteDiff.C43_convergence' depends on axioms: [propext, Classical.choice, Quot.sound]
'Verif.FiniteDiff.C43_2d_operators_partial' depends on axioms: [propext, Classical.choice, Quot.sound]
'Verif.FiniteDiff.C43_2d_created_violated' depends on axioms: [propext, Quot.sound]
'Verif.FiniteDiff.C43_2d_pyy_violated' depends on axioms: [propext, Classical.choice, Quot.sound]
'Verif.FiniteDiff.C43_2d_grid_violated' depends on axioms: [propext, Classical.choice, Quot.sound]
'Verif.Dissip.C44_value' depends on axioms: [propext, Classical.choice, Quot.sound]
'Verif.Dissip.C44_small_scales' depends on axioms: [propext, Classical.choice, Quot.sound]
'Verif.Dissip.C44_hypo' depends on axioms: [propext, Classical.choice, Quot.sound]
'Verif.Dissip.C44_computed_partial' depends on axioms: [propext, Classical.choice, Quot.sound]
'Verif.Dissip.C44_hypo_1d_violated' depends on axioms: [propext, Classical.choice, Quot.sound]
'Verif.Dissip.C44_never_injects' depends on axioms: [propext, Classical.choice, Quot.sound]
'Verif.Dissip.C44_run_never_injects' depends on axioms: [propext, Classical.choice, Quot.sound]
'Verif.Dissip.C44_plate' depends on axioms: [propext, Classical.choice, Quot.sound]
'Verif.Preproc.C45_energy_partial' depends on axioms: [propext, Classical.choice, Quot.sound]
'Verif.Preproc.C45_enstrophy' depends on axioms: [propext, Classical.choice, Quot.sound]
'Verif.Preproc.C45_enstrophy_forcing' depends on axioms: [propext, Classical.choice, Quot.sound]
'Verif.Preproc.C45_unity' depends on axioms: [propext, Classical.choice, Quot.sound]
'Verif.Preproc.C45_energy_strat_violated' depends on axioms: [propext, Classical.choice, Quot.sound]
'Verif.Preproc.C45_viscosity' depends on axioms: [propext, Classical.choice, Quot.sound]
'Verif.Preproc.C45_viscosity_requested' depends on axioms: [propext, Classical.choice, Quot.sound]
'Verif.Preproc.C45_viscosity_rate' depends on axioms: [propext, Classical.choice, Quot.sound]
'Verif.Preproc.C45_time_scale' depends on axioms: [propext, Classical.choice, Quot.sound]
'Verif.Preproc.C45_time_partial' depends on axioms: [propext, Classical.choice, Quot.sound]
'Verif.Preproc.C45_time_violated' depends on axioms: [propext, Classical.choice, Quot.sound]
'Verif.Preproc.C45_units' depends on axioms: [propext, Classical.choice, Quot.sound]
'Verif.Preproc.C45_forcing_wavenumber' depends on axioms: [propext, Classical.choice, Quot.sound]
'Verif.Preproc.C45_energy_units_violated' depends on axioms: [propext, Classical.choice, Quot.sound]
'Verif.Preproc.C45_rate_units' depends on axioms: [propext, Classical.choice, Quot.sound]
'Verif.Preproc.C45_kolmogorov' depends on axioms: [propext, Classical.choice, Quot.sound]
'Verif.Preproc.C45_large_scale_violated' depends on axioms: [propext, Classical.choice, Quot.sound]
'Verif.Reduce.C46_mean_space' depends on axioms: [propext, Quot.sound]
'Verif.Reduce.C46_pdf' depends on axioms: [propext, Classical.choice, Quot.sound]
'Verif.Reduce.C46_pdf_integral' depends on axioms: [propext, Classical.choice, Quot.sound]
'Verif.Reduce.C46_extrema' depends on axioms: [propext, Quot.sound]
'Verif.Reduce.C46_horizontal_mean' depends on axioms: [propext, Quot.sound]
'Verif.Reduce.C46_fluctuations' depends on axioms: [propext, Classical.choice, Quot.sound]
'Verif.Reduce.C46_flux' depends on axioms: [propext, Quot.sound]
'Verif.Reduce.C46_flux_whole_domain' depends on axioms: [propext, Quot.sound]
'Verif.Reduce.C46_fluxes' depends on axioms: [propext, Classical.choice, Quot.sound]
'Verif.Reduce.C46_region_partial' depends on axioms: [propext, Quot.sound]
'Verif.Reduce.C46_region_violated' depends on axioms: [propext, Classical.choice, Quot.sound]
'Verif.Reduce.C46_region_after_violated' depends on axioms: [propext, Classical.choice, Quot.sound]
'Verif.Extend.C47_original_unchanged' depends on axioms: [propext, Classical.choice, Quot.sound]
'Verif.Extend.C47_new_class' depends on axioms: [propext, Classical.choice, Quot.sound]
'Verif.Extend.C47_others_unchanged_partial' depends on axioms: [propext, Classical.choice, Quot.sound]
'Verif.Extend.C47_extended_class_violated' depends on axioms: [propext, Classical.choice, Quot.sound]
'Verif.Extend.C47_names' depends on axioms: [propext, Quot.sound]
'Verif.Extend.C47_from_path' depends on axioms: [propext, Classical.choice, Quot.sound]
'Verif.Increm.C48_separations_increasing' depends on axioms: [propext, Classical.choice, Quot.sound]
'Verif.Increm.C48_separations_least' depends on axioms: [propext, Classical.choice, Quot.sound]
'Verif.Increm.C48_separations' depends on axioms: [propext, Classical.choice, Quot.sound]
'Verif.Increm.C48_increments' depends on axioms: [propext, Classical.choice, Quot.sound]
'Verif.Increm.C48_structure_function' depends on axioms: [propext, Classical.choice, Quot.sound]
'Verif.Increm.C48_structure_function_error' depends on axioms: [propext, Classical.choice, Quot.sound]
'Verif.Increm.C48_absolute_violated' depends on axioms: [propext, Classical.choice, Quot.sound]
'Verif.Increm.C48_shells_partial' depends on axioms: [propext, Classical.choice, Quot.sound]
'Verif.Increm.C48_shells_violated' depends on axioms: [propext, Classical.choice, Quot.sound]
'Verif.Increm.C48_slots_partial' depends on axioms: [propext, Quot.sound]
'Verif.Increm.C48_slots_violated' depends on axioms: [propext, Classical.choice, Quot.sound]
'Verif.Increm.C48_period_violated' does not depend on any axioms
'Verif.Restart.C49_seconds_partial' depends on axioms: [propext, Classical.choice, Quot.sound]
'Verif.Restart.C49_number' depends on axioms: [propext, Quot.sound]
'Verif.Restart.C49_day_or_more_violated' depends on axioms: [propext, Classical.choice, Quot.sound]
'Verif.Restart.C50_returns_file_iff' depends on axioms: [propext, Classical.choice, Quot.sound]
'Verif.Restart.C50_raises_last_error_partial' depends on axioms: [propext, Classical.choice, Quot.sound]
'Verif.Restart.C50_error_hidden_violated' depends on axioms: [propext, Classical.choice, Quot.sound]
'Verif.Restart.C50_bounded' depends on axioms: [propext, Classical.choice, Quot.sound]
'Verif.Burgers.C51_skew_quarter' depends on axioms: [propext, Classical.choice, Quot.sound]
'Verif.Burgers.C51_conserved_partial' depends on axioms: [propext, Classical.choice, Quot.sound]
'Verif.Burgers.C51_mean' depends on axioms: [propext, Classical.choice, Quot.sound]
'Verif.Burgers.C51_violated' depends on axioms: [propext, Classical.choice, Quot.sound]
'Verif.Burgers.C51_nl1d' depends on axioms: [propext, Classical.choice, Quot.sound]
'Verif.Smagorinsky.C52_twice_documented' depends on axioms: [propext, Classical.choice, Quot.sound]
'Verif.Smagorinsky.C52_never_injects' depends on axioms: [propext, Classical.choice, Quot.sound]
'Verif.Smagorinsky.C52_solver' depends on axioms: [propext, Classical.choice, Quot.sound]
'Verif.Smagorinsky.C52_no_mean_force' depends on axioms: [propext, Classical.choice, Quot.sound]
'Verif.Smagorinsky.C52_galilean' depends on axioms: [propext, Classical.choice, Quot.sound]
'Verif.Smagorinsky.C52_documented_violated' depends on axioms: [propext, Classical.choice, Quot.sound]
'Verif.Smagorinsky.C52_type' depends on axioms: [propext, Classical.choice, Quot.sound]
'Verif.Tendencies.C53_ns2d' depends on axioms: [propext]
'Verif.Tendencies.C53_ns2d_strat' depends on axioms: [propext, Quot.sound]
'Verif.Tendencies.C53_ns3d' depends on axioms: [propext, Quot.sound]
'Verif.Tendencies.C53_ns3d_bouss' depends on axioms: [propext, Classical.choice, Quot.sound]
'Verif.Tendencies.C53_sw1l' depends on axioms: [propext, Quot.sound]
'Verif.Tendencies.C53_one_variable' depends on axioms: [propext]
'Verif.Tendencies.C53_ns3d_strat_inplace_value' depends on axioms: [propext, Classical.choice, Quot.sound]
'Verif.Tendencies.C53_ns3d_strat_violated' depends on axioms: [propext, Classical.choice, Quot.sound]
'Verif.Tendencies.C53_ns3d_strat_partial' depends on axioms: [propext, Classical.choice, Quot.sound]
'Verif.Tendencies.C53_ns3d_turb_model_violated' depends on axioms: [propext, Classical.choice, Quot.sound]
'Verif.Tendencies.C53_plate2d_inplace_value' depends on axioms: [propext]
'Verif.Tendencies.C53_plate2d_violated' depends on axioms: [propext, Classical.choice, Quot.sound]
'Verif.Sw1l.C54_energy' depends on axioms: [propext, Classical.choice, Quot.sound]
'Verif.Sw1l.C55_onlywaves_partial' depends on axioms: [propext, Classical.choice, Quot.sound]
'Verif.Sw1l.C55_global_state_violated' depends on axioms: [propext, Classical.choice, Quot.sound]
'Verif.Sw1l.C55_negative_f_violated' depends on axioms: [propext, Classical.choice, Quot.sound]
'Verif.Sw1l.C56_exactlin_same_equations' depends on axioms: [propext, Classical.choice, Quot.sound]
'Verif.Sw1l.C56_mass' depends on axioms: [propext, Classical.choice, Quot.sound]
'Verif.Galerkin.C57_no_alias' depends on axioms: [propext, Classical.choice, Quot.sound]
'Verif.Galerkin.C57_ns2d' depends on axioms: [propext, Classical.choice, Quot.sound]
'Verif.Galerkin.C57_ns2d_strat' depends on axioms: [propext, Classical.choice, Quot.sound]
'Verif.Galerkin.C57_ns2d_bouss' depends on axioms: [propext, Classical.choice, Quot.sound]
'Verif.Galerkin.C57_ns3d' depends on axioms: [propext, Classical.choice, Quot.sound]
'Verif.Galerkin.C57_ns3d_strat' depends on axioms: [propext, Classical.choice, Quot.sound]
'Verif.Galerkin.C57_sw1l' depends on axioms: [propext, Classical.choice, Quot.sound]
'Verif.Galerkin.C57_burgers' depends on axioms: [propext, Classical.choice, Quot.sound]
'Verif.Galerkin.C57_plate2d_partial' depends on axioms: [propext, Classical.choice, Quot.sound]
'Verif.Galerkin.C57_plate2d_violated' depends on axioms: [propext, Classical.choice, Quot.sound]
'Verif.Galerkin.C57_sw1l_modified' depends on axioms: [propext, Classical.choice, Quot.sound]
'Verif.Galerkin.C57_sw1l_exactlin_modified_partial' depends on axioms: [propext, Classical.choice, Quot.sound]
'Verif.Galerkin.C57_sw1l_exactlin_modified_violated' depends on axioms: [propext, Classical.choice, Quot.sound]
'Verif.SpectBudget.C58_ns2d' depends on axioms: [propext, Classical.choice, Quot.sound]
'Verif.SpectBudget.C58_ns2d_sums' depends on axioms: [propext, Classical.choice, Quot.sound]
'Verif.SpectBudget.C58_strat' depends on axioms: [propext, Classical.choice, Quot.sound]
'Verif.SpectBudget.C58_strat_sums' depends on axioms: [propext, Classical.choice, Quot.sound]
'Verif.SpectBudget.C58_ns3d' depends on axioms: [propext, Classical.choice, Quot.sound]
'Verif.SpectBudget.C58_ns3d_partial' depends on axioms: [propext, Classical.choice, Quot.sound]
'Verif.SpectBudget.C58_hypo_violated' depends on axioms: [propext, Classical.choice, Quot.sound]
'Verif.SpectBudget.C58_ns3d_sum' depends on axioms: [propext, Classical.choice, Quot.sound]
'Verif.SpectBudget.C58_assert_violated' depends on axioms: [propext, Classical.choice, Quot.sound]
'Verif.SpectBudget.C58_ns3d_components_partial' depends on axioms: [propext, Classical.choice, Quot.sound]
'Verif.SpectBudget.C58_ns3d_strat' depends on axioms: [propext, Classical.choice, Quot.sound]
'Verif.SpectBudget.C58_ns3d_strat_sum' depends on axioms: [propext, Classical.choice, Quot.sound]
'Verif.SpectBudget.C58_flux' depends on axioms: [propext, Classical.choice, Quot.sound]
'Verif.SpectBudget.C58_flux_kzkh' depends on axioms: [propext, Classical.choice, Quot.sound]
'Verif.SpectBudget.C58_flux_last' depends on axioms: [propext, Classical.choice, Quot.sound]
'Verif.SpectBudget.C58_coriolis_violated' depends on axioms: [propext, Classical.choice, Quot.sound]
'Verif.SpectBudget.C58_strat_epsilon_partial' depends on axioms: [propext, Classical.choice, Quot.sound]
'Verif.SpectBudget.C58_strat_epsilon_violated' depends on axioms: [propext, Classical.choice, Quot.sound]
'Verif.SpatialMeans.C59_ns2d_means' depends on axioms: [propext, Classical.choice, Quot.sound]
'Verif.SpatialMeans.C59_ns2d_injection' depends on axioms: [propext, Classical.choice, Quot.sound]
'Verif.SpatialMeans.C59_ns2d_budget' depends on axioms: [propext, Classical.choice, Quot.sound]
'Verif.SpatialMeans.C59_strat_energies' depends on axioms: [propext, Classical.choice, Quot.sound]
'Verif.SpatialMeans.C59_strat_injection' depends on axioms: [propext, Classical.choice, Quot.sound]
'Verif.SpatialMeans.C59_strat_budget' depends on axioms: [propext, Classical.choice, Quot.sound]
'Verif.SpatialMeans.C59_strat_PA2_violated' depends on axioms: [propext, Classical.choice, Quot.sound]
'Verif.SpatialMeans.C59_ns3d_means' depends on axioms: [propext, Classical.choice, Quot.sound]
'Verif.SpatialMeans.C59_ns3d_injection' depends on axioms: [propext, Classical.choice, Quot.sound]
'Verif.SpatialMeans.C59_ns3d_budget' depends on axioms: [propext, Classical.choice, Quot.sound]
'Verif.SpatialMeans.C59_ns3d_hyper' depends on axioms: [propext, Classical.choice, Quot.sound]
'Verif.SpatialMeans.C59_ns3dstrat_energies' depends on axioms: [propext, Classical.choice, Quot.sound]
'Verif.SpatialMeans.C59_ns3dstrat_injection' depends on axioms: [propext, Classical.choice, Quot.sound]
'Verif.SpatialMeans.C59_ns3dstrat_budget' depends on axioms: [propext, Classical.choice, Quot.sound]
'Verif.SpatialMeans.C59_plate_energies' depends on axioms: [propext, Classical.choice, Quot.sound]
'Verif.SpatialMeans.C59_plate_injection' depends on axioms: [propext, Classical.choice, Quot.sound]
'Verif.SpatialMeans.C59_plate_budget' depends on axioms: [propext, Classical.choice, Quot.sound]
'Verif.SpatialMeans.C59_exactlin_injection_partial' depends on axioms: [propext, Classical.choice, Quot.sound]
'Verif.SpatialMeans.C59_rotdiv_force' depends on axioms: [propext, Classical.choice, Quot.sound]
'Verif.SpatialMeans.C59_onlywaves_force_partial' depends on axioms: [propext, Classical.choice, Quot.sound]
'Verif.SpatialMeans.C59_onlywaves_injection_violated' depends on axioms: [propext, Classical.choice, Quot.sound]
'Verif.SpatialMeans.C59_dissipation_parts' depends on axioms: [propext, Classical.choice, Quot.sound]
'Verif.SpatialMeans.C59_ns3d_hyper_columns' depends on axioms: [propext, Classical.choice, Quot.sound]
'Verif.SpatialMeans.C59_msw_rotational' depends on axioms: [propext, Classical.choice, Quot.sound]
'Verif.SpatialMeans.C59_sw1l_rotational_partial' depends on axioms: [propext, Classical.choice, Quot.sound]
'Verif.SpatialMeans.C59_sw1l_rotational_violated' depends on axioms: [propext, Classical.choice, Quot.sound]
'Verif.SpatialMeans.C59_msw_injection' depends on axioms: [propext, Classical.choice, Quot.sound]
'Verif.SpatialMeans.C59_msw_dissipation' depends on axioms: [propext, Classical.choice, Quot.sound]
'Verif.SpatialMeans.C59_sw1l_means' depends on axioms: [propext, Classical.choice, Quot.sound]
'Verif.SpatialMeans.C59_sw1l_dissipation' depends on axioms: [propext, Classical.choice, Quot.sound]
'Verif.SpatialMeans.C59_sw1l_injection_partial' depends on axioms: [propext, Classical.choice, Quot.sound]
'Verif.SpatialMeans.C59_sw1l_injection_violated' depends on axioms: [propext, Classical.choice, Quot.sound]
'Verif.SpatialMeans.C59_sw1l_conversion' depends on axioms: [propext, Classical.choice, Quot.sound]
'Verif.SpatialMeans.C59_sw1l_kurtosis_partial' depends on axioms: [propext, Classical.choice, Quot.sound]
'Verif.SpatialMeans.C59_sw1l_kurtosis_violated' depends on axioms: [propext, Classical.choice, Quot.sound]
'Verif.MeansFile.C60_round_trip' depends on axioms: [propext, Classical.choice, Quot.sound]
'Verif.MeansFile.C60_incomplete_partial' depends on axioms: [propext, Classical.choice, Quot.sound]
'Verif.MeansFile.C60_incomplete_violated' depends on axioms: [propext, Classical.choice, Quot.sound]
'Verif.MeansFile.C60_first_record_violated' depends on axioms: [propext, Classical.choice, Quot.sound]
'Verif.MeansFile.C60_cut_number_violated' depends on axioms: [propext, Classical.choice, Quot.sound]
'Verif.MeansFile.C60_crash_restart_violated' depends on axioms: [propext, Classical.choice, Quot.sound]
'Verif.MeansFile.C60_nu4_restart_violated' depends on axioms: [propext, Classical.choice, Quot.sound]
'Verif.MeansFile.C60_nu4_restart_shift_violated' depends on axioms: [propext, Classical.choice, Quot.sound]
'Verif.MeansFile.C60_time_first' depends on axioms: [propext, Classical.choice, Quot.sound]
'Verif.MeansFile.C60_time_first_violated' depends on axioms: [propext, Classical.choice, Quot.sound]
'Verif.MeansFile.C60_time_last' depends on axioms: [propext, Classical.choice, Quot.sound]
'Verif.MeansFile.C60_time_last_short' depends on axioms: [propext, Classical.choice, Quot.sound]
'Verif.MeansFile.C60_json_time_first' depends on axioms: [propext]
'Verif.MeansFile.C60_json_time_last_partial' depends on axioms: [propext, Classical.choice, Quot.sound]
'Verif.MeansFile.C60_sw1l_time_last_violated' depends on axioms: [propext, Classical.choice, Quot.sound]
'Verif.MeansFile.C60_time_means_partial' depends on axioms: [propext, Classical.choice, Quot.sound]
'Verif.MeansFile.C60_time_means_restart_violated' depends on axioms: [propext, Classical.choice, Quot.sound]
'Verif.MeansFile.C60_time_means_end' depends on axioms: [propext, Classical.choice, Quot.sound]
'Verif.Spectra.C61_one_process' depends on axioms: [propext]
'Verif.Spectra.C61_restarts' depends on axioms: [propext, Quot.sound]
'Verif.Spectra.C61_kzkh_cadence_partial' depends on axioms: [propext, Quot.sound]
'Verif.Spectra.C61_kzkh_cadence_violated' does not depend on any axioms
'Verif.Spectra.C61_kills' depends on axioms: [propext, Classical.choice, Quot.sound]
'Verif.Spectra.C61_kill_at_creation_violated' depends on axioms: [propext]
'Verif.Spectra.C61_enable_at_restart_violated' depends on axioms: [propext, Classical.choice, Quot.sound]
'Verif.Spectra.C61_loaded_strat' depends on axioms: [propext, Classical.choice, Quot.sound]
'Verif.Spectra.C61_loaded_ns3d_violated' depends on axioms: [propext, Classical.choice, Quot.sound]
'Verif.Spectra.C61_loaded_kzkh_violated' depends on axioms: [propext, Classical.choice, Quot.sound]
'Verif.Spectra.C61_loaded_keys' depends on axioms: [propext, Classical.choice, Quot.sound]
'Verif.Spectra.C61_cross_pairs' depends on axioms: [propext, Classical.choice, Quot.sound]
'Verif.Spectra.C61_cross_only_pairs' depends on axioms: [propext, Classical.choice, Quot.sound]
'Verif.Spectra.C61_cross_names' depends on axioms: [propext, Classical.choice, Quot.sound]
'Verif.Spectra.C61_cross_values' depends on axioms: [propext, Classical.choice, Quot.sound]
'Verif.Spectra.C61_cross_total' depends on axioms: [propext, Classical.choice, Quot.sound]
'Verif.Spectra.C61_cross_bound' depends on axioms: [propext, Classical.choice, Quot.sound]
'Verif.Spectra.C61_cross_small_key' depends on axioms: [propext, Classical.choice, Quot.sound]
'Verif.Spectra.C61_mean_all' depends on axioms: [propext, Quot.sound]
'Verif.Spectra.C61_mean_bounds' depends on axioms: [propext, Classical.choice, Quot.sound]
'Verif.Spectra.C61_mean_additive' depends on axioms: [propext, Quot.sound]
'Verif.Spectra.C61_mean_restart_violated' depends on axioms: [propext, Classical.choice, Quot.sound]
'Verif.Spectra.C61_spectra_relations' depends on axioms: [propext, Classical.choice, Quot.sound]
'Verif.Spectra.C61_isotropy' depends on axioms: [propext, Classical.choice, Quot.sound]
'Verif.Spectra.C61_length_scales' depends on axioms: [propext, Classical.choice, Quot.sound]
'Verif.SpatioTemporal.C62_placement' depends on axioms: [propext, Classical.choice, Quot.sound]
'Verif.SpatioTemporal.C62_no_empty_cell' depends on axioms: [propext, Classical.choice, Quot.sound]
'Verif.SpatioTemporal.C62_load_from_start' depends on axioms: [propext, Classical.choice, Quot.sound]
'Verif.SpatioTemporal.C62_load_partial' depends on axioms: [propext, Classical.choice, Quot.sound]
'Verif.SpatioTemporal.C62_load_violated' depends on axioms: [propext, Classical.choice, Quot.sound]
'Verif.SpatioTemporal.C62_load_error_violated' depends on axioms: [propext, Classical.choice, Quot.sound]
'Verif.SpatioTemporal.C62_axes_partial' does not depend on any axioms
'Verif.SpatioTemporal.C62_axes_violated' depends on axioms: [propext]
'Verif.SpatioTemporal.C62_temporal_load_partial' depends on axioms: [propext, Classical.choice, Quot.sound]
'Verif.SpatioTemporal.C62_temporal_tmax_violated' depends on axioms: [propext, Classical.choice, Quot.sound]
'Verif.SpatioTemporal.C62_temporal_files_violated' depends on axioms: [propext, Classical.choice, Quot.sound]
'Verif.SpatioTemporal.C62_urud' depends on axioms: [propext, Classical.choice, Quot.sound]
'Verif.SpatioTemporal.C62_kinetic_energy' depends on axioms: [propext, Classical.choice, Quot.sound]
'Verif.SpatioTemporal.C62_plot_kh' depends on axioms: [propext, Classical.choice, Quot.sound]
'Verif.SpatioTemporal.C62_plot_kz' depends on axioms: [propext, Classical.choice, Quot.sound]
'Verif.SpatioTemporal.C62_plot_omega_partial' depends on axioms: [propext, Classical.choice, Quot.sound]
'Verif.SpatioTemporal.C62_plot_omega_violated' depends on axioms: [propext, Classical.choice, Quot.sound]
'Verif.SpatioTemporal.C62_resonant' depends on axioms: [propext, Classical.choice, Quot.sound]
'Verif.SpatioTemporal.C62_compensated' depends on axioms: [propext, Classical.choice, Quot.sound]
'Verif.SpatioTemporal.C62_default_tmin_violated' depends on axioms: [propext]
'Verif.SpatioTemporal.C62_default_tmin_partial' depends on axioms: [propext, Classical.choice, Quot.sound]
'Verif.SpatioTemporal.C62_reuse_partial' depends on axioms: [propext, Quot.sound]
'Verif.SpatioTemporal.C62_reuse_violated' depends on axioms: [propext, Classical.choice, Quot.sound]
'Verif.SpatioTemporal.C62_temporal_file_names' depends on axioms: [propext, Classical.choice, Quot.sound]
'Verif.SpatioTemporal.C62_temporal_requests' depends on axioms: [propext, Classical.choice, Quot.sound]
'Verif.SpatioTemporal.C62_tplot_key' depends on axioms: [propext, Classical.choice, Quot.sound]
'Verif.SpatioTemporal.C62_tplot_strat' depends on axioms: [propext, Classical.choice, Quot.sound]
'Verif.SpatioTemporal.C62_tplot_key_violated' depends on axioms: [propext, Classical.choice, Quot.sound]
'Verif.SpatioTemporal.C62_tplot_unknown_key_violated' depends on axioms: [propext, Classical.choice, Quot.sound]
'Verif.SpatioTemporal.C62_parseval' depends on axioms: [propext, Classical.choice, Quot.sound]
'Verif.SpatioTemporal.C62_normalisation_violated' depends on axioms: [propext, Classical.choice, Quot.sound]
'Verif.SpatioTemporal.C62_onesided_partial' depends on axioms: [propext, Classical.choice, Quot.sound]
'Verif.SpatioTemporal.C62_onesided_violated' depends on axioms: [propext, Classical.choice, Quot.sound]
'Verif.SpatioTemporal.C62_frequencies_violated' depends on axioms: [propext, Classical.choice, Quot.sound]
'Verif.SpatioTemporal.C62_temporal_sum' depends on axioms: [propext, Classical.choice, Quot.sound]
'Verif.SpatioTemporal.C62_temporal_compute_partial' depends on axioms: [propext, Classical.choice, Quot.sound]
'Verif.SpatioTemporal.C62_temporal_compute_violated' depends on axioms: [propext, Classical.choice, Quot.sound]
'Verif.SpatioTemporal.C62_kzkh_total' depends on axioms: [propext, Classical.choice, Quot.sound]
'Verif.SpatioTemporal.C62_kzkh_moment' depends on axioms: [propext, Classical.choice, Quot.sound]
'Verif.SpatioTemporal.C62_kzkh_rows' depends on axioms: [propext, Classical.choice, Quot.sound]
'Verif.SpatioTemporal.C62_kzkh_vs_temporal' depends on axioms: [propext, Classical.choice, Quot.sound]
'Verif.SpatioTemporal.C62_omega_emp' depends on axioms: [propext, Classical.choice, Quot.sound]
'Verif.SpatioTemporal.C62_delta_omega' depends on axioms: [propext, Classical.choice, Quot.sound]
'Verif.SpatioTemporal.C62_path_partial' depends on axioms: [propext]
'Verif.SpatioTemporal.C62_path_interval' depends on axioms: [propext]
'Verif.SpatioTemporal.C62_path_violated' depends on axioms: [propext, Quot.sound]
'Verif.SpatioTemporal.C62_single_precision_violated' depends on axioms: [propext, Classical.choice, Quot.sound]
'Verif.Prescribed.C63_objects' depends on axioms: [propext, Classical.choice, Quot.sound]
'Verif.Prescribed.C63_solid_inside' depends on axioms: [propext, Classical.choice, Quot.sound]
'Verif.Prescribed.C63_solid_outside' depends on axioms: [propext, Classical.choice, Quot.sound]
'Verif.Prescribed.C63_solid_motion' depends on axioms: [propext, Classical.choice, Quot.sound]
'Verif.Prescribed.C63_solid_long_violated' depends on axioms: [propext, Classical.choice, Quot.sound]
'Verif.Prescribed.C63_relaxation' depends on axioms: [propext, Classical.choice, Quot.sound]
'Verif.Prescribed.C63_relaxation_y' depends on axioms: [propext, Classical.choice, Quot.sound]
'Verif.Prescribed.C63_decay_violated' depends on axioms: [propext, Classical.choice, Quot.sound]
'Verif.Prescribed.C63_force' depends on axioms: [propext, Classical.choice, Quot.sound]
'Verif.Prescribed.C63_force_z_violated' depends on axioms: [propext, Classical.choice, Quot.sound]
'Verif.Prescribed.C63_force_ns2d_partial' depends on axioms: [propext, Classical.choice, Quot.sound]
'Verif.Prescribed.C63_force_ns2d_violated' depends on axioms: [propext, Classical.choice, Quot.sound]
'Verif.Prescribed.C63_coarse_partial' depends on axioms: [propext, Classical.choice, Quot.sound]
'Verif.Prescribed.C63_coarse_violated' depends on axioms: [propext, Classical.choice, Quot.sound]
'Verif.Prescribed.C63_taylor_green' depends on axioms: [propext, Classical.choice, Quot.sound]
'Verif.Prescribed.C63_taylor_green_divergence_partial' depends on axioms: [propext, Classical.choice, Quot.sound]
'Verif.Prescribed.C63_taylor_green_divergence_violated' depends on axioms: [propext, Classical.choice, Quot.sound]
'Verif.Prescribed.C63_kolmo_setup' depends on axioms: [propext, Classical.choice, Quot.sound]
'Verif.Prescribed.C63_kolmo_modes' depends on axioms: [propext, Classical.choice, Quot.sound]
'Verif.Prescribed.C63_kolmo_ns2d' depends on axioms: [propext, Classical.choice, Quot.sound]
'Verif.Prescribed.C63_kolmo_own_direction_violated' depends on axioms: [propext, Classical.choice, Quot.sound]
'Verif.Prescribed.C63_kolmo_normalized_violated' depends on axioms: [propext, Classical.choice, Quot.sound]
'Verif.Prescribed.C63_watu_signal' depends on axioms: [propext, Classical.choice, Quot.sound]
'Verif.Prescribed.C63_watu_samples' depends on axioms: [propext, Classical.choice, Quot.sound]
'Verif.Prescribed.C63_watu_mask' depends on axioms: [propext, Classical.choice, Quot.sound]
'Verif.Prescribed.C63_watu_width' depends on axioms: [propext, Classical.choice, Quot.sound]
'Verif.Prescribed.C63_watu_relaxation' depends on axioms: [propext, Classical.choice, Quot.sound]
'Verif.Prescribed.C63_watu_boards_partial' depends on axioms: [propext]
'Verif.Prescribed.C63_watu_boards_violated' does not depend on any axioms
'Verif.InitFields.C64_cutoff' depends on axioms: [propext, Classical.choice, Quot.sound]
'Verif.InitFields.C64_length' depends on axioms: [propext, Classical.choice, Quot.sound]
'Verif.InitFields.C64_length_violated' depends on axioms: [propext, Classical.choice, Quot.sound]
'Verif.InitFields.C64_noise_ns2d' depends on axioms: [propext, Classical.choice, Quot.sound]
'Verif.InitFields.C64_noise_ns2d_modes' depends on axioms: [propext, Classical.choice, Quot.sound]
'Verif.InitFields.C64_noise_plate2d_partial' depends on axioms: [propext, Classical.choice, Quot.sound]
'Verif.InitFields.C64_noise_plate2d_violated' depends on axioms: [propext, Classical.choice, Quot.sound]
'Verif.InitFields.C64_noise_ns3d' depends on axioms: [propext, Classical.choice, Quot.sound]
'Verif.InitFields.C64_noise_ns3d_buoyancy_partial' depends on axioms: [propext, Classical.choice, Quot.sound]
'Verif.InitFields.C64_noise_ns3d_buoyancy_violated' depends on axioms: [propext, Classical.choice, Quot.sound]
'Verif.InitFields.C64_noise_base' depends on axioms: [propext, Classical.choice, Quot.sound]
'Verif.InitFields.C64_ad1d_gaussian_shape' depends on axioms: [propext, Classical.choice, Quot.sound]
'Verif.InitFields.C64_jet_amplitude' depends on axioms: [propext, Classical.choice, Quot.sound]
'Verif.InitFields.C64_dipole_vortices' depends on axioms: [propext, Classical.choice, Quot.sound]
'Verif.InitFields.C64_dipole_images' depends on axioms: [propext, Classical.choice, Quot.sound]
'Verif.InitFields.C64_linear_mode_error' depends on axioms: [propext, Classical.choice, Quot.sound]
'Verif.InitFields.C64_from_file_legacy' depends on axioms: [propext, Classical.choice, Quot.sound]
'Verif.InitFields.C64_constant_partial' depends on axioms: [propext, Classical.choice, Quot.sound]
'Verif.InitFields.C64_constant_violated' depends on axioms: [propext, Classical.choice, Quot.sound]
'Verif.InitFields.C64_ad1d_gaussian' depends on axioms: [propext, Classical.choice, Quot.sound]
'Verif.InitFields.C64_ad1d_cos_violated' depends on axioms: [propext, Classical.choice, Quot.sound]
'Verif.InitFields.C64_jet' depends on axioms: [propext, Classical.choice, Quot.sound]
'Verif.InitFields.C64_dipole' depends on axioms: [propext, Classical.choice, Quot.sound]
'Verif.InitFields.C64_wave_partial' depends on axioms: [propext, Classical.choice, Quot.sound]
'Verif.InitFields.C64_wave_violated' depends on axioms: [propext, Classical.choice, Quot.sound]
'Verif.InitFields.C64_vortex_signs' depends on axioms: [propext, Classical.choice, Quot.sound]
'Verif.InitFields.C64_vortex_grid' depends on axioms: [propext, Classical.choice, Quot.sound]
'Verif.InitFields.C64_linear_mode_partial' depends on axioms: [propext, Classical.choice, Quot.sound]
'Verif.InitFields.C64_linear_mode_violated' depends on axioms: [propext, Classical.choice, Quot.sound]
'Verif.InitFields.C64_from_file_partial' depends on axioms: [propext, Classical.choice, Quot.sound]
'Verif.InitFields.C64_from_file_mismatch' depends on axioms: [propext, Classical.choice, Quot.sound]
'Verif.InitFields.C64_from_file_violated' depends on axioms: [propext, Classical.choice, Quot.sound]
'Verif.InitFields.C64_selection' depends on axioms: [propext, Quot.sound]
'Verif.Spectra2d.C65_files_partial' depends on axioms: [propext, Classical.choice, Quot.sound]
'Verif.Spectra2d.C65_files_agree' depends on axioms: [propext, Classical.choice, Quot.sound]
'Verif.Spectra2d.C65_creation_violated' depends on axioms: [propext]
'Verif.Spectra2d.C65_load_means' depends on axioms: [propext, Classical.choice, Quot.sound]
'Verif.Spectra2d.C65_load1d_axis_partial' depends on axioms: [propext, Classical.choice, Quot.sound]
'Verif.Spectra2d.C65_load1d_axis_violated' depends on axioms: [propext, Classical.choice, Quot.sound]
'Verif.Spectra2d.C65_load1d_means_partial' depends on axioms: [propext, Classical.choice, Quot.sound]
'Verif.Spectra2d.C65_load1d_means_violated' depends on axioms: [propext, Classical.choice, Quot.sound]
'Verif.Spectra2d.C65_plot_times_partial' depends on axioms: [propext, Classical.choice, Quot.sound]
'Verif.Spectra2d.C65_plot_times_violated' depends on axioms: [propext, Classical.choice, Quot.sound]
'Verif.Spectra2d.C65_plot_keys_partial' does not depend on any axioms
'Verif.Spectra2d.C65_plot_keys_violated' does not depend on any axioms
'Verif.Spectra2d.C65_plot_rows' depends on axioms: [propext, Classical.choice, Quot.sound]
'Verif.Spectra2d.C65_plot_rows_violated' depends on axioms: [propext, Classical.choice, Quot.sound]
'Verif.Spectra2d.C65_curves_partial' depends on axioms: [propext, Classical.choice, Quot.sound]
'Verif.Spectra2d.C65_curves_step' depends on axioms: [propext, Classical.choice, Quot.sound]
'Verif.Spectra2d.C65_curves_violated' depends on axioms: [propext, Classical.choice, Quot.sound]
'Verif.Spectra2d.C65_plate_curves_partial' depends on axioms: [propext, Quot.sound]
'Verif.Spectra2d.C65_plate_curves_violated' depends on axioms: [propext, Quot.sound]
'Verif.Spectra2d.C65_sw1l_select' depends on axioms: [propext, Quot.sound]
'Verif.Spectra2d.C65_plot_diss_partial' depends on axioms: [propext, Quot.sound]
'Verif.Spectra2d.C65_plot_diss_violated' depends on axioms: [propext, Classical.choice, Quot.sound]
'Verif.Spectra2d.C65_start_keeps' depends on axioms: [propext, Classical.choice, Quot.sound]
'Verif.Spectra2d.C65_load1d_means_select' depends on axioms: [propext, Classical.choice, Quot.sound]
'Verif.Spectra2d.C65_load2d_axis' depends on axioms: [propext, Classical.choice, Quot.sound]
'Verif.Spectra2d.C65_sw1l_same' depends on axioms: [propext, Classical.choice, Quot.sound]
'Verif.Spectra2d.C65_ns2d' depends on axioms: [propext, Classical.choice, Quot.sound]
'Verif.Spectra2d.C65_ns2dstrat' depends on axioms: [propext, Classical.choice, Quot.sound]
'Verif.Spectra2d.C65_plate2d' depends on axioms: [propext, Classical.choice, Quot.sound]
'Verif.Spectra2d.C65_sw1l_linear' depends on axioms: [propext, Classical.choice, Quot.sound]
'Verif.Spectra2d.C65_normal_modes_partial' depends on axioms: [propext, Classical.choice, Quot.sound]
'Verif.Spectra2d.C65_qda_energies_violated' depends on axioms: [propext, Classical.choice, Quot.sound]
'Verif.Spectra2d.C65_msw' depends on axioms: [propext, Classical.choice, Quot.sound]
'Verif.Spectra2d.C65_sw1l' depends on axioms: [propext, Classical.choice, Quot.sound]
'Verif.Spectra2d.C65_sw1l_linear_spectra_partial' depends on axioms: [propext, Classical.choice, Quot.sound]
'Verif.Spectra2d.C65_sw1l_linear_spectra_violated' depends on axioms: [propext, Classical.choice, Quot.sound]
'Verif.StdOut.C66_load_partial' depends on axioms: [propext, Classical.choice, Quot.sound]
'Verif.StdOut.C66_load_violated' depends on axioms: [propext, Classical.choice, Quot.sound]
'Verif.StdOut.C66_load_cut' depends on axioms: [propext, Classical.choice, Quot.sound]
'Verif.StdOut.C66_load_restart_violated' depends on axioms: [propext, Classical.choice, Quot.sound]
'Verif.StdOut.C66_full_clock_partial' depends on axioms: [propext, Classical.choice, Quot.sound]
'Verif.StdOut.C66_times_damaged' depends on axioms: [propext, Classical.choice, Quot.sound]
'Verif.StdOut.C66_duration_damaged' depends on axioms: [propext, Classical.choice, Quot.sound]
'Verif.StdOut.C66_plot_clock_partial' depends on axioms: [propext, Classical.choice, Quot.sound]
'Verif.StdOut.C66_plot_mean_violated' depends on axioms: [propext, Classical.choice, Quot.sound]
'Verif.StdOut.C66_plot_short_violated' depends on axioms: [propext, Quot.sound]
'Verif.StdOut.C66_duration_text' depends on axioms: [propext, Classical.choice, Quot.sound]
'Verif.StdOut.C66_times_partial' depends on axioms: [propext, Classical.choice, Quot.sound]
'Verif.StdOut.C66_times_it_end_violated' depends on axioms: [propext, Classical.choice, Quot.sound]
'Verif.StdOut.C66_estimates' depends on axioms: [propext, Classical.choice, Quot.sound]
'Verif.StdOut.C66_clock_partial' depends on axioms: [propext, Classical.choice, Quot.sound]
'Verif.StdOut.C66_clock_violated' depends on axioms: [propext, Quot.sound]
'Verif.StdOut.C66_start_last_partial' depends on axioms: [propext, Classical.choice, Quot.sound]
'Verif.StdOut.C66_start_last_saved' depends on axioms: [propext, Classical.choice, Quot.sound]
'Verif.StdOut.C66_start_last_stale_violated' depends on axioms: [propext, Classical.choice, Quot.sound]
'Verif.StdOut.C66_start_last_no_info_violated' depends on axioms: [propext, Classical.choice, Quot.sound]
'Verif.StdOut.C66_last_duration' depends on axioms: [propext, Classical.choice, Quot.sound]
'Verif.StdOut.C66_no_duration_partial' depends on axioms: [propext, Classical.choice, Quot.sound]
'Verif.Pdf.C67_pdf' depends on axioms: [propext, Classical.choice, Quot.sound]
'Verif.Pdf.C67_pdf_empty' depends on axioms: [propext, Classical.choice, Quot.sound]
'Verif.Pdf.C67_structure_error' depends on axioms: [propext, Classical.choice, Quot.sound]
'Verif.Pdf.C67_record' depends on axioms: [propext, Classical.choice, Quot.sound]
'Verif.Pdf.C67_load_mean_partial' depends on axioms: [propext, Classical.choice, Quot.sound]
'Verif.Pdf.C67_load_one' depends on axioms: [propext, Classical.choice, Quot.sound]
'Verif.Pdf.C67_load_mean_violated' depends on axioms: [propext, Classical.choice, Quot.sound]
'Verif.Pdf.C67_load_empty' depends on axioms: [propext, Quot.sound]
'Verif.Pdf.C67_pdf_u_partial' depends on axioms: [propext, Classical.choice, Quot.sound]
'Verif.Pdf.C67_pdf_u_violated' depends on axioms: [propext, Classical.choice, Quot.sound]
'Verif.Pdf.C67_sw1l_structure_partial' depends on axioms: [propext, Quot.sound]
'Verif.Pdf.C67_sw1l_structure_violated' depends on axioms: [propext, Classical.choice, Quot.sound]
'Verif.Pdf.C67_interp' depends on axioms: [propext, Classical.choice, Quot.sound]
'Verif.Pdf.C67_figure_curve' depends on axioms: [propext, Classical.choice, Quot.sound]
'Verif.Pdf.C67_figure_partial' depends on axioms: [propext, Classical.choice, Quot.sound]
'Verif.Pdf.C67_figure_one_record_violated' depends on axioms: [propext, Classical.choice, Quot.sound]
'Verif.Pdf.C67_online_figure_violated' depends on axioms: [propext, Classical.choice, Quot.sound]
'Verif.Pdf.C67_flatness' depends on axioms: [propext, Classical.choice, Quot.sound]
'Verif.Pdf.C67_plot_partial' depends on axioms: [propext, Classical.choice, Quot.sound]
'Verif.Pdf.C67_plot_one_record_violated' depends on axioms: [propext, Classical.choice, Quot.sound]
'Verif.Pdf.C67_plot_sw1l_partial' depends on axioms: [propext, Classical.choice, Quot.sound]
'Verif.Pdf.C67_plot_sw1l_violated' depends on axioms: [propext, Classical.choice, Quot.sound]
'Verif.Pdf.C67_flatness_violated' depends on axioms: [propext, Classical.choice, Quot.sound]
'Verif.Pdf.C67_plot_units' depends on axioms: [propext, Classical.choice, Quot.sound]
'Verif.Pdf.C67_plot_pdf' depends on axioms: [propext, Classical.choice, Quot.sound]
'Verif.Pdf.C67_plot_pdf_colors_violated' depends on axioms: [propext, Quot.sound]
'Verif.Pdf.C67_plot_pdf_repeated_violated' depends on axioms: [propext, Quot.sound]
'Verif.Pdf.C67_plot_kolmo' depends on axioms: [propext, Quot.sound]
'Verif.Pdf.C67_plot_kolmo_violated' depends on axioms: [propext, Classical.choice, Quot.sound]
'Verif.MeanValues.C68_range' depends on axioms: [propext, Classical.choice, Quot.sound]
'Verif.MeanValues.C68_range_numbers' depends on axioms: [propext, Classical.choice, Quot.sound]
'Verif.MeanValues.C68_range_error' depends on axioms: [propext, Classical.choice, Quot.sound]
'Verif.MeanValues.C68_names' depends on axioms: [propext, Classical.choice, Quot.sound]
'Verif.MeanValues.C68_no_cache' depends on axioms: [propext, Classical.choice, Quot.sound]
'Verif.MeanValues.C68_cache_partial' depends on axioms: [propext, Classical.choice, Quot.sound]
'Verif.MeanValues.C68_appended' depends on axioms: [propext, Classical.choice, Quot.sound]
'Verif.MeanValues.C68_stale_violated' depends on axioms: [propext, Classical.choice, Quot.sound]
'Verif.MeanValues.C68_customize_violated' depends on axioms: [propext, Classical.choice, Quot.sound]
'Verif.MeanValues.C68_killed_violated' depends on axioms: [propext, Classical.choice, Quot.sound]
'Verif.MeanValues.C68_not_serialisable_violated' depends on axioms: [propext, Classical.choice, Quot.sound]
'Verif.MeanValues.C68_dataframe' depends on axioms: [propext, Classical.choice, Quot.sound]
'Verif.MeanValues.C68_average' depends on axioms: [propext, Classical.choice, Quot.sound]
'Verif.MeanValues.C68_isotropy' depends on axioms: [propext, Classical.choice, Quot.sound]
'Verif.MeanValues.C68_isotropy_values' depends on axioms: [propext, Classical.choice, Quot.sound]
'Verif.MeanValues.C68_isotropy_nu4_violated' depends on axioms: [propext, Classical.choice, Quot.sound]
'Verif.MeanValues.C68_isotropy_nu8_violated' depends on axioms: [propext, Classical.choice, Quot.sound]
'Verif.MeanValues.C68_dissipation_range_partial' depends on axioms: [propext, Classical.choice, Quot.sound]
'Verif.MeanValues.C68_dissipation_range_violated' depends on axioms: [propext, Classical.choice, Quot.sound]
'Verif.MeanValues.C68_records' depends on axioms: [propext, Quot.sound]
'Verif.Linear.C69_advection' depends on axioms: [propext, Classical.choice, Quot.sound]
'Verif.Linear.C69_waves_step' depends on axioms: [propext, Classical.choice, Quot.sound]
'Verif.Linear.C69_waves_decay' depends on axioms: [propext, Classical.choice, Quot.sound]
'Verif.Linear.C69_waves_violated' depends on axioms: [propext, Classical.choice, Quot.sound]
'Verif.Linear.C69_waves_hermitian_violated' depends on axioms: [propext, Classical.choice, Quot.sound]
'Verif.Linear.C69_conversions' depends on axioms: [propext, Classical.choice, Quot.sound]
'Verif.Linear.C69_velocity' depends on axioms: [propext, Classical.choice, Quot.sound]
'Verif.Linear.C69_units_partial' depends on axioms: [propext, Classical.choice, Quot.sound]
'Verif.Linear.C69_units_violated' depends on axioms: [propext, Classical.choice, Quot.sound]
'Verif.Linear.C69_dispersion' depends on axioms: [propext, Classical.choice, Quot.sound]
'Verif.Linear.C69_dispersion_violated' depends on axioms: [propext, Classical.choice, Quot.sound]
'Verif.Sections.C70_index' depends on axioms: [propext, Classical.choice, Quot.sound]
'Verif.Sections.C70_value_partial' depends on axioms: [propext, Classical.choice, Quot.sound]
'Verif.Sections.C70_value_exact' depends on axioms: [propext, Classical.choice, Quot.sound]
'Verif.Sections.C70_value_distance' depends on axioms: [propext, Classical.choice, Quot.sound]
'Verif.Sections.C70_state_file' depends on axioms: [propext, Classical.choice, Quot.sound]
'Verif.Sections.C70_axes' depends on axioms: [propext, Classical.choice, Quot.sound]
'Verif.Sections.C70_refused' depends on axioms: [propext, Classical.choice, Quot.sound]
'Verif.Sections.C70_refused_effect_violated' depends on axioms: [propext, Classical.choice, Quot.sound]
'Verif.Sections.C70_last_call' depends on axioms: [propext, Classical.choice, Quot.sound]
'Verif.Sections.C70_coarse_axes_violated' depends on axioms: [propext, Classical.choice, Quot.sound]
'Verif.Sections.C70_coarse_value_violated' depends on axioms: [propext, Classical.choice, Quot.sound]
'Verif.Sections.C70_coarse_index' depends on axioms: [propext, Classical.choice, Quot.sound]
'Verif.Sections.C70_online_3d_violated' depends on axioms: [propext, Classical.choice, Quot.sound]
'Verif.Sections.C70_first_frame' depends on axioms: [propext, Classical.choice, Quot.sound]
'Verif.Sections.C70_first_frame_2d' depends on axioms: [propext, Classical.choice, Quot.sound]
'Verif.Sections.C70_stride' depends on axioms: [propext, Classical.choice, Quot.sound]
'Verif.Sections.C70_key' depends on axioms: [propext, Classical.choice, Quot.sound]
'Verif.Sections.C70_plot' depends on axioms: [propext, Classical.choice, Quot.sound]
'Verif.Sections.C70_plot2d_time' depends on axioms: [propext, Classical.choice, Quot.sound]
'Verif.Sections.C70_plot_default' depends on axioms: [propext, Classical.choice, Quot.sound]
'Verif.Sections.C70_array_violated' depends on axioms: [propext, Classical.choice, Quot.sound]
'Verif.Sections.C70_plot_mean_partial' depends on axioms: [propext, Classical.choice, Quot.sound]
'Verif.Sections.C70_plot_mean_default' depends on axioms: [propext, Classical.choice, Quot.sound]
'Verif.Sections.C70_plot_mean_empty' depends on axioms: [propext, Classical.choice, Quot.sound]
'Verif.Sections.C70_plot_mean_violated' depends on axioms: [propext, Classical.choice, Quot.sound]
'Verif.Sections.C70_before_first_violated' depends on axioms: [propext, Classical.choice, Quot.sound]
'Verif.Sections.C70_key_default' depends on axioms: [propext, Classical.choice, Quot.sound]
'Verif.Movies.C71_times' depends on axioms: [propext, Classical.choice, Quot.sound]
'Verif.Movies.C71_final_time_violated' depends on axioms: [propext, Classical.choice, Quot.sound]
'Verif.Movies.C71_default' depends on axioms: [propext, Classical.choice, Quot.sound]
'Verif.Movies.C71_default_violated' depends on axioms: [propext, Classical.choice, Quot.sound]
'Verif.Movies.C71_one_file' depends on axioms: [propext, Quot.sound]
'Verif.Movies.C71_refused' depends on axioms: [propext, Classical.choice, Quot.sound]
'Verif.Movies.C71_spectra' depends on axioms: [propext, Classical.choice, Quot.sound]
'Verif.Movies.C71_spectra_one_violated' depends on axioms: [propext, Classical.choice, Quot.sound]
'Verif.Movies.C71_loaded_1d_violated' depends on axioms: [propext, Classical.choice, Quot.sound]
'Verif.Movies.C71_frame' depends on axioms: [propext, Quot.sound]
'Verif.Movies.C71_repeat' depends on axioms: [propext, Classical.choice, Quot.sound]
'Verif.Movies.C71_repeat_violated' depends on axioms: [propext]
'Verif.Movies.C71_player' depends on axioms: [propext, Classical.choice, Quot.sound]
'Verif.Movies.C71_play' depends on axioms: [propext, Quot.sound]
'Verif.Movies.C71_wrap' depends on axioms: [propext, Classical.choice, Quot.sound]
'Verif.Movies.C71_one_step' depends on axioms: [propext, Classical.choice, Quot.sound]
'Verif.Movies.C71_arrows' depends on axioms: [propext, Quot.sound]
'Verif.Movies.C71_arrows_violated' depends on axioms: [propext, Classical.choice, Quot.sound]
'Verif.Movies.C71_quiver' depends on axioms: [propext, Classical.choice, Quot.sound]
'Verif.Movies.C71_quiver_violated' depends on axioms: [propext, Quot.sound]
'Verif.Movies.C71_median' depends on axioms: [propext, Classical.choice, Quot.sound]
'Verif.Movies.C71_times_1d' depends on axioms: [propext, Classical.choice, Quot.sound]
'Verif.Movies.C71_repeat_zero' depends on axioms: [propext]
'Verif.Movies.C71_buttons' depends on axioms: [propext]
'Verif.Launcher.C72_grid' depends on axioms: [propext, Classical.choice, Quot.sound]
'Verif.Launcher.C72_deltak' depends on axioms: [propext, Classical.choice, Quot.sound]
'Verif.Launcher.C72_waves' depends on axioms: [propext, Classical.choice, Quot.sound]
'Verif.Launcher.C72_angle' depends on axioms: [propext, Classical.choice, Quot.sound]
'Verif.Launcher.C72_range' depends on axioms: [propext, Classical.choice, Quot.sound]
'Verif.Launcher.C72_resolved' depends on axioms: [propext, Classical.choice, Quot.sound]
'Verif.Launcher.C72_viscosity' depends on axioms: [propext, Classical.choice, Quot.sound]
'Verif.Launcher.C72_viscosity4' depends on axioms: [propext, Classical.choice, Quot.sound]
'Verif.Launcher.C72_viscosity4_auto' depends on axioms: [propext, Classical.choice, Quot.sound]
'Verif.Launcher.C72_coef_nu4_violated' depends on axioms: [propext, Classical.choice, Quot.sound]
'Verif.Launcher.C72_deltat' depends on axioms: [propext, Classical.choice, Quot.sound]
'Verif.Launcher.C72_arguments' depends on axioms: [propext, Classical.choice, Quot.sound]
'Verif.Launcher.C72_refused' depends on axioms: [propext, Classical.choice, Quot.sound]
'Verif.Launcher.C72_modify' depends on axioms: [propext, Classical.choice, Quot.sound]
'Verif.Launcher.C72_default' depends on axioms: [propext, Classical.choice, Quot.sound]
'Verif.Launcher.C72_truncated_violated' depends on axioms: [propext, Classical.choice, Quot.sound]
'Verif.Launcher.C72_projection' depends on axioms: [propext, Classical.choice, Quot.sound]
'Verif.Launcher.C72_dry_run' depends on axioms: [propext, Quot.sound]
'Verif.Launcher.C72_forced_field' depends on axioms: [propext, Classical.choice, Quot.sound]
'Verif.Launcher.C72_name' depends on axioms: [propext, Classical.choice, Quot.sound]
'Verif.Sw1lForcing.C73_waves' depends on axioms: [propext, Classical.choice, Quot.sound]
'Verif.Sw1lForcing.C73_waves_ageostrophic' depends on axioms: [propext, Classical.choice, Quot.sound]
'Verif.Sw1lForcing.C73_waves_none' depends on axioms: [propext, Classical.choice, Quot.sound]
'Verif.Sw1lForcing.C73_potential' depends on axioms: [propext, Classical.choice, Quot.sound]
'Verif.Sw1lForcing.C73_potential_key' depends on axioms: [propext, Classical.choice, Quot.sound]
'Verif.Sw1lForcing.C73_waves_vortices_partial' depends on axioms: [propext, Classical.choice, Quot.sound]
'Verif.Sw1lForcing.C73_waves_vortices_violated' depends on axioms: [propext, Classical.choice, Quot.sound]
'Verif.Sw1lForcing.C73_waves_vortices_keys' depends on axioms: [propext, Classical.choice, Quot.sound]
'Verif.Sw1lForcing.C73_types' does not depend on any axioms
'Verif.Sw1lForcing.C73_complete' depends on axioms: [propext, Quot.sound]
'Verif.Sw1lForcing.C73_default_keys' does not depend on any axioms
'Verif.Sw1lForcing.C73_geostrophic_default_violated' depends on axioms: [propext]
'Verif.Sw1lBudget.C74_normal_modes' depends on axioms: [propext, Classical.choice, Quot.sound]
'Verif.Sw1lBudget.C74_groups_partial' depends on axioms: [propext, Classical.choice, Quot.sound]
'Verif.Sw1lBudget.C74_budget_partial' depends on axioms: [propext, Classical.choice, Quot.sound]
'Verif.Sw1lBudget.C74_conservative' depends on axioms: [propext, Classical.choice, Quot.sound]
'Verif.Sw1lBudget.C74_exchanges' depends on axioms: [propext, Classical.choice, Quot.sound]
'Verif.Sw1lBudget.C74_group_matrix' depends on axioms: [propext, Classical.choice, Quot.sound]
'Verif.Sw1lBudget.C74_group_tables' depends on axioms: [propext, Classical.choice, Quot.sound]
'Verif.Sw1lBudget.C74_enstrophy' depends on axioms: [propext, Classical.choice, Quot.sound]
'Verif.Sw1lBudget.C74_msw_kinetic' depends on axioms: [propext, Classical.choice, Quot.sound]
'Verif.Sw1lBudget.C74_msw_potential' depends on axioms: [propext, Classical.choice, Quot.sound]
'Verif.Sw1lBudget.C74_msw_conservative' depends on axioms: [propext, Classical.choice, Quot.sound]
'Verif.Sw1lBudget.C74_modified_groups' depends on axioms: [propext, Classical.choice, Quot.sound]
'Verif.Sw1lBudget.C74_msw_enstrophy_partial' depends on axioms: [propext, Classical.choice, Quot.sound]
'Verif.Sw1lBudget.C74_groups_violated' depends on axioms: [propext, Classical.choice, Quot.sound]
'Verif.Sw1lBudget.C74_budget_violated' depends on axioms: [propext, Classical.choice, Quot.sound]
'Verif.Sw1lBudget.C74_plot_partial' depends on axioms: [propext, Classical.choice, Quot.sound]
'Verif.Sw1lBudget.C74_plot_step' depends on axioms: [propext, Classical.choice, Quot.sound]
'Verif.Sw1lBudget.C74_plot_nearest' depends on axioms: [propext, Classical.choice, Quot.sound]
'Verif.Sw1lBudget.C74_plot_violated' depends on axioms: [propext, Classical.choice, Quot.sound]
'Verif.CorrelFreq.C75_correl4_partial' depends on axioms: [propext, Classical.choice, Quot.sound]
'Verif.CorrelFreq.C75_correl4_shifted' depends on axioms: [propext, Classical.choice, Quot.sound]
'Verif.CorrelFreq.C75_correl4_violated' depends on axioms: [propext, Classical.choice, Quot.sound]
'Verif.CorrelFreq.C75_correl2' depends on axioms: [propext, Classical.choice, Quot.sound]
'Verif.CorrelFreq.C75_processes' depends on axioms: [propext, Classical.choice, Quot.sound]
'Verif.CorrelFreq.C75_indices' depends on axioms: [propext, Classical.choice, Quot.sound]
'Verif.CorrelFreq.C75_windows' depends on axioms: [propext, Classical.choice, Quot.sound]
'Verif.CorrelFreq.C75_plate_partial' depends on axioms: [propext, Classical.choice, Quot.sound]
'Verif.CorrelFreq.C75_history' depends on axioms: [propext, Classical.choice, Quot.sound]
'Verif.CorrelFreq.C75_restart' depends on axioms: [propext, Classical.choice, Quot.sound]
'Verif.CorrelFreq.C75_frequencies_partial' depends on axioms: [propext, Classical.choice, Quot.sound]
'Verif.CorrelFreq.C75_frequencies_violated' depends on axioms: [propext, Classical.choice, Quot.sound]
'Verif.CorrelFreq.C75_points_partial' depends on axioms: [propext, Quot.sound]
'Verif.CorrelFreq.C75_points_violated' does not depend on any axioms
'Verif.CorrelFreq.C75_symmetric' depends on axioms: [propext, Classical.choice, Quot.sound]
'Verif.CorrelFreq.C75_corr_norm_partial' depends on axioms: [propext, Classical.choice, Quot.sound]
'Verif.CorrelFreq.C75_cumulant_partial' depends on axioms: [propext, Classical.choice, Quot.sound]
'Verif.CorrelFreq.C75_cumulant_violated' depends on axioms: [propext, Classical.choice, Quot.sound]
'Verif.CorrelFreq.C75_scale' depends on axioms: [propext, Classical.choice, Quot.sound]
'Verif.CorrelFreq.C75_corr2_bound' depends on axioms: [propext, Classical.choice, Quot.sound]
'Verif.CorrelFreq.C75_online_plot_partial' depends on axioms: [propext, Quot.sound]
'Verif.CorrelFreq.C75_online_plot_violated' does not depend on any axioms
'Verif.CorrelFreq.C75_plot_corr4_partial' depends on axioms: [propext, Classical.choice, Quot.sound]
'Verif.CorrelFreq.C75_plot_corr4_iff' depends on axioms: [propext, Classical.choice, Quot.sound]
'Verif.CorrelFreq.C75_window' depends on axioms: [propext, Classical.choice, Quot.sound]
'Verif.CorrelFreq.C75_plot_corr4_violated' does not depend on any axioms
'Verif.CorrelFreq.C75_pick' depends on axioms: [propext, Classical.choice, Quot.sound]
'Verif.CorrelFreq.C75_run_signals' depends on axioms: [propext, Classical.choice, Quot.sound]
'Verif.CorrelFreq.C75_run_corr2_bound' depends on axioms: [propext, Classical.choice, Quot.sound]
'Verif.Hexa.C76_keys_vectors' depends on axioms: [propext, Classical.choice, Quot.sound]
'Verif.Hexa.C76_key_scalar' depends on axioms: [propext, Classical.choice, Quot.sound]
'Verif.Hexa.C76_movie_variable_partial' depends on axioms: [propext, Classical.choice, Quot.sound]
'Verif.Hexa.C76_movie_variable_violated' depends on axioms: [propext, Classical.choice, Quot.sound]
'Verif.Hexa.C76_axes_partial' depends on axioms: [propext, Classical.choice, Quot.sound]
'Verif.Hexa.C76_equation_spaces_violated' depends on axioms: [propext, Classical.choice, Quot.sound]
'Verif.Hexa.C76_default_plane' depends on axioms: [propext, Classical.choice, Quot.sound]
'Verif.Hexa.C76_cut_z' depends on axioms: [propext, Classical.choice, Quot.sound]
'Verif.Hexa.C76_cut_z_box' depends on axioms: [propext, Classical.choice, Quot.sound]
'Verif.Hexa.C76_same_points' depends on axioms: [propext, Classical.choice, Quot.sound]
'Verif.Hexa.C76_cut_vertical_first_layer' depends on axioms: [propext, Classical.choice, Quot.sound]
'Verif.Hexa.C76_cut_vertical_violated' depends on axioms: [propext, Classical.choice, Quot.sound]
'Verif.Hexa.C76_edges_box' depends on axioms: [propext, Classical.choice, Quot.sound]
'Verif.Hexa.C76_edges_shared' depends on axioms: [propext, Quot.sound]
'Verif.Hexa.C76_extrema' depends on axioms: [propext, Classical.choice, Quot.sound]
'Verif.Hexa.C76_arrows_partial' depends on axioms: [propext, Classical.choice, Quot.sound]
'Verif.Hexa.C76_approx_sorted' depends on axioms: [propext, Classical.choice, Quot.sound]
'Verif.Hexa.C76_arrows_none' depends on axioms: [propext, Classical.choice, Quot.sound]
'Verif.Hexa.C76_arrows_violated' depends on axioms: [propext, Classical.choice, Quot.sound]
'Verif.Hexa.C76_cursor' depends on axioms: [propext, Classical.choice, Quot.sound]
'Verif.Hexa.C76_cursor_cell' depends on axioms: [propext, Classical.choice, Quot.sound]
'Verif.Hexa.C76_interpolated_partial' depends on axioms: [propext, Classical.choice, Quot.sound]
'Verif.Hexa.C76_interpolated_time_violated' depends on axioms: [propext, Classical.choice, Quot.sound]
'Verif.Hexa.C76_movie_arrows' depends on axioms: [propext, Classical.choice, Quot.sound]
'Verif.Hexa.C76_movie_arrows_violated' depends on axioms: [propext, Classical.choice, Quot.sound]
'Verif.Hexa.C76_update_times_partial' does not depend on any axioms
'Verif.Hexa.C76_update_times_violated' does not depend on any axioms
'Verif.Hexa.C76_axes_order' depends on axioms: [propext, Classical.choice, Quot.sound]
'Verif.Hexa.C76_edges_mean' depends on axioms: [propext, Classical.choice, Quot.sound]
'Verif.StateVars.C77_history_partial' depends on axioms: [propext, Classical.choice, Quot.sound]
'Verif.StateVars.C77_sw1l' depends on axioms: [propext, Classical.choice, Quot.sound]
'Verif.StateVars.C77_exactlin_partial' depends on axioms: [propext, Classical.choice, Quot.sound]
'Verif.StateVars.C77_exactlin_mean_a_violated' depends on axioms: [propext, Classical.choice, Quot.sound]
'Verif.StateVars.C77_onlywaves_partial' depends on axioms: [propext, Classical.choice, Quot.sound]
'Verif.StateVars.C77_onlywaves_uy_violated' depends on axioms: [propext, Classical.choice, Quot.sound]
'Verif.StateVars.C77_modified_partial' depends on axioms: [propext, Classical.choice, Quot.sound]
'Verif.StateVars.C77_modified_rot_violated' depends on axioms: [propext, Classical.choice, Quot.sound]
'Verif.StateVars.C77_ns2d' depends on axioms: [propext, Classical.choice, Quot.sound]
'Verif.StateVars.C77_strat_waves' depends on axioms: [propext, Classical.choice, Quot.sound]
'Verif.StateVars.C77_announced' depends on axioms: [propext, Classical.choice, Quot.sound]
'Verif.StateVars.C77_announced_violated' depends on axioms: [propext, Classical.choice, Quot.sound]
'Verif.StateVars.C77_ns3d' depends on axioms: [propext, Classical.choice, Quot.sound]
'Verif.StateVars.C77_poltor' depends on axioms: [propext, Classical.choice, Quot.sound]
'Verif.StateVars.C77_announced_3d' depends on axioms: [propext, Classical.choice, Quot.sound]
'Verif.StateVars.C77_plate2d_partial' depends on axioms: [propext, Classical.choice, Quot.sound]
'Verif.StateVars.C77_plate2d_lapz_violated' depends on axioms: [propext, Classical.choice, Quot.sound]
'Verif.StateVars.C77_announced_plate' depends on axioms: [propext, Classical.choice, Quot.sound]
'Verif.StateVars.C77_exactlin_modes' depends on axioms: [propext, Classical.choice, Quot.sound]
'Verif.StateVars.C77_onlywaves_modes' depends on axioms: [propext, Classical.choice, Quot.sound]
'Verif.StateVars.C77_mean_velocity_violated' depends on axioms: [propext, Classical.choice, Quot.sound]
'Verif.StateVars.C77_strat_announces_all' depends on axioms: [propext, Classical.choice, Quot.sound]
'Verif.Xmf.C78_describes' depends on axioms: [propext, Classical.choice, Quot.sound]
'Verif.Xmf.C78_vectors_3d' depends on axioms: [propext, Classical.choice, Quot.sound]
'Verif.Xmf.C78_vectors_2d_violated' depends on axioms: [propext, Classical.choice, Quot.sound]
'Verif.Xmf.C78_1d_violated' depends on axioms: [propext, Classical.choice, Quot.sound]
'Verif.Xmf.C78_no_file' depends on axioms: [propext, Classical.choice, Quot.sound]
'Verif.Xmf.C78_time_order_violated' depends on axioms: [propext, Classical.choice, Quot.sound]
'Verif.Xmf.C78_resolution_violated' depends on axioms: [propext, Classical.choice, Quot.sound]
'Verif.ModifResol.C79_2d' depends on axioms: [propext, Classical.choice, Quot.sound]
'Verif.ModifResol.C79_3d' depends on axioms: [propext, Classical.choice, Quot.sound]
'Verif.ModifResol.C79_same_values' depends on axioms: [propext, Classical.choice, Quot.sound]
'Verif.ModifResol.C79_mean' depends on axioms: [propext, Classical.choice, Quot.sound]
'Verif.ModifResol.C79_nyquist_violated' depends on axioms: [propext, Classical.choice, Quot.sound]
'Verif.ModifResol.C79_directories' depends on axioms: [propext, Classical.choice, Quot.sound]
'Verif.ModifResol.C79_same_grid' depends on axioms: [propext, Classical.choice, Quot.sound]
'Verif.ModifResol.C79_complete' depends on axioms: [propext]
'Verif.ModifResol.C79_new_size' depends on axioms: [propext, Classical.choice, Quot.sound]
'Verif.StateFile.C80_round_trip' depends on axioms: [propext, Classical.choice, Quot.sound]
'Verif.StateFile.C80_spectral_state' depends on axioms: [propext, Classical.choice, Quot.sound]
'Verif.StateFile.C80_other_grid' depends on axioms: [propext, Quot.sound]
'Verif.StateFile.C80_missing_variable_violated' depends on axioms: [propext]
'Verif.StateFile.C80_legacy_violated' depends on axioms: [propext]
'Verif.StateFile.C80_parallel' depends on axioms: [propext, Quot.sound]
'Verif.StateFile.C80_old_file' depends on axioms: [propext, Quot.sound]
'Verif.StateFile.C80_missing_size' depends on axioms: [propext, Quot.sound]
'Verif.StateFile.C80_time' depends on axioms: [propext]
'Verif.Regions.C81_limits' depends on axioms: [propext, Quot.sound]
'Verif.Regions.C81_limits_grid' depends on axioms: [propext, Classical.choice, Quot.sound]
'Verif.Regions.C81_number_of_limits' depends on axioms: [propext, Classical.choice, Quot.sound]
'Verif.Regions.C81_last_limit_violated' depends on axioms: [propext, Classical.choice, Quot.sound]
'Verif.Regions.C81_lines_partial' depends on axioms: [propext, Classical.choice, Quot.sound]
'Verif.Regions.C81_budget_partial' depends on axioms: [propext, Classical.choice, Quot.sound]
'Verif.Regions.C81_injection' depends on axioms: [propext, Classical.choice, Quot.sound]
'Verif.Regions.C81_no_forcing_violated' depends on axioms: [propext, Quot.sound]
'Verif.Regions.C81_N_zero_violated' depends on axioms: [propext, Quot.sound]
'Verif.Regions.C81_vertical_force' depends on axioms: [propext, Quot.sound]
'Verif.Regions.C81_file' depends on axioms: [propext, Quot.sound]
'Verif.Regions.C81_other_limits' depends on axioms: [propext, Classical.choice, Quot.sound]
'Verif.Regions.C81_restart_violated' depends on axioms: [propext, Classical.choice, Quot.sound]
'Verif.Regions.C81_pressure_partial' depends on axioms: [propext, Classical.choice, Quot.sound]
'Verif.Regions.C81_whole_domain' depends on axioms: [propext, Classical.choice, Quot.sound]
'Verif.Regions.C81_rotation_violated' depends on axioms: [propext, Classical.choice, Quot.sound]
'Verif.Continuation.C82_files' depends on axioms: [propext, Classical.choice, Quot.sound]
'Verif.Continuation.C82_restart' depends on axioms: [propext, Classical.choice, Quot.sound]
'Verif.Continuation.C82_restart_cfl_partial' depends on axioms: [propext, Classical.choice, Quot.sound]
'Verif.Continuation.C82_cfl_close_partial' depends on axioms: [propext, Classical.choice, Quot.sound]
'Verif.Continuation.C82_cfl_violated' depends on axioms: [propext, Classical.choice, Quot.sound]
'Verif.Continuation.C82_periodic' depends on axioms: [propext, Classical.choice, Quot.sound]
'Verif.Convergence.C83_euler' depends on axioms: [propext, Classical.choice, Quot.sound]
'Verif.Convergence.C83_rk2' depends on axioms: [propext, Classical.choice, Quot.sound]
'Verif.Convergence.C83_rk2_trapezoid' depends on axioms: [propext, Classical.choice, Quot.sound]
'Verif.Convergence.C83_phaseshift_dealiased' depends on axioms: [propext, Classical.choice, Quot.sound]
'Verif.Convergence.C83_phaseshift_exact' depends on axioms: [propext, Classical.choice, Quot.sound]
'Verif.Convergence.C83_phaseshift_no_aliasing' depends on axioms: [propext, Classical.choice, Quot.sound]
'Verif.Convergence.C83_forced_partial' depends on axioms: [propext, Classical.choice, Quot.sound]
'Verif.Convergence.C83_constant_force' depends on axioms: [propext, Classical.choice, Quot.sound]
'Verif.Convergence.C83_forced_order_violated' depends on axioms: [propext, Classical.choice, Quot.sound]
'Verif.Convergence.C83_phaseshift_force' depends on axioms: [propext, Classical.choice, Quot.sound]
'Verif.Convergence.C83_phaseshift_force_violated' depends on axioms: [propext, Classical.choice, Quot.sound]
'Verif.Convergence.C83_rk4' depends on axioms: [propext, Classical.choice, Quot.sound]
'Verif.Convergence.C83_orders_sharp' depends on axioms: [propext, Classical.choice, Quot.sound]
'Verif.Convergence.C83_phaseshift_aliasing_sharp' depends on axioms: [propext, Classical.choice, Quot.sound]
'Verif.Convergence.C83_rounding_errors' depends on axioms: [propext, Classical.choice, Quot.sound]
'Verif.Bench.C84_box_2d' depends on axioms: [propext, Classical.choice, Quot.sound]
'Verif.Bench.C84_axes_violated' depends on axioms: [propext, Classical.choice, Quot.sound]
'Verif.Bench.C84_box_3d_iff' depends on axioms: [propext, Classical.choice, Quot.sound]
'Verif.Bench.C84_box_3d_violated' depends on axioms: [propext, Classical.choice, Quot.sound]
'Verif.Bench.C84_args' depends on axioms: [propext, Classical.choice, Quot.sound]
'Verif.Bench.C84_args_shape' depends on axioms: [propext, Classical.choice, Quot.sound]
'Verif.Bench.C84_args_dim_ignored_violated' depends on axioms: [propext, Classical.choice, Quot.sound]
'Verif.Bench.C84_args_third_violated' depends on axioms: [propext, Classical.choice, Quot.sound]
'Verif.Bench.C84_dim_of_class' depends on axioms: [propext, Classical.choice, Quot.sound]
'Verif.Bench.C84_dim_sphere_violated' depends on axioms: [propext, Classical.choice, Quot.sound]
'Verif.Bench.C84_weak_2d' depends on axioms: [propext, Classical.choice, Quot.sound]
'Verif.Bench.C84_weak_3d_violated' depends on axioms: [propext, Quot.sound]
'Verif.Bench.C84_weak_3d_work_violated' depends on axioms: [propext, Classical.choice, Quot.sound]
'Verif.Bench.C84_weak_errors' depends on axioms: [propext, Classical.choice, Quot.sound]
'Verif.Bench.C84_load_iff' depends on axioms: [propext, Classical.choice, Quot.sound]
'Verif.Bench.C84_load_other_violated' depends on axioms: [propext, Classical.choice, Quot.sound]
'Verif.Bench.C84_load_short_name_violated' depends on axioms: [propext, Classical.choice, Quot.sound]
'Verif.Bench.C84_strong' depends on axioms: [propext, Classical.choice, Quot.sound]
'Verif.Bench.C84_weak_efficiency_iff' depends on axioms: [propext, Classical.choice, Quot.sound]
'Verif.Bench.C84_weak_efficiency_violated' depends on axioms: [propext, Classical.choice, Quot.sound]
'Verif.Bench.C84_dirs_violated' depends on axioms: [propext, Classical.choice, Quot.sound]
'Verif.Bench.C84_profile_kind_le' depends on axioms: [propext, Classical.choice, Quot.sound]
'Verif.Bench.C84_profile_pyx_violated' depends on axioms: [propext, Classical.choice, Quot.sound]
'Verif.Bench.C84_profile_total_violated' depends on axioms: [propext, Classical.choice, Quot.sound]
'Verif.Bench.C84_pie' depends on axioms: [propext, Classical.choice, Quot.sound]
'Verif.Bench.C84_pie_names_violated' depends on axioms: [propext, Classical.choice, Quot.sound]
'Verif.Bench.C84_load_package' depends on axioms: [propext, Classical.choice, Quot.sound]
'Verif.Bench.C84_load_package_only' depends on axioms: [propext, Classical.choice, Quot.sound]
'Verif.Bench.C84_load_module_violated' depends on axioms: [propext, Classical.choice, Quot.sound]
'Verif.Bench.C84_profile_fft' depends on axioms: [propext, Classical.choice, Quot.sound]
'Verif.Loading.C85_append_only' depends on axioms: [propext, Classical.choice, Quot.sound]
'Verif.Loading.C85_records' depends on axioms: [propext, Classical.choice, Quot.sound]
'Verif.Loading.C85_no_save' depends on axioms: [propext, Classical.choice, Quot.sound]
'Verif.Loading.C85_load_for_plot' depends on axioms: [propext, Classical.choice, Quot.sound]
'Verif.Loading.C85_load_state' depends on axioms: [propext, Classical.choice, Quot.sound]
'Verif.Loading.C85_no_save_end_partial' depends on axioms: [propext, Classical.choice, Quot.sound]
'Verif.Loading.C85_loaded_directory_moved_violated' depends on axioms: [propext, Classical.choice, Quot.sound]
'Verif.Loading.C85_load_state_writes_violated' depends on axioms: [propext, Classical.choice, Quot.sound]
'Verif.Loading.C85_restart_params' depends on axioms: [propext]
'Verif.Loading.C85_state_params' depends on axioms: [propext, Classical.choice, Quot.sound]
'Verif.Loading.C85_plot_params' depends on axioms: [propext, Classical.choice, Quot.sound]
'Verif.Loading.C85_missing_directory' depends on axioms: [propext, Classical.choice, Quot.sound]
'Verif.Loading.C85_continued_directory' depends on axioms: [propext, Classical.choice, Quot.sound]
'Verif.Loading.C85_new_directory' depends on axioms: [propext, Classical.choice, Quot.sound]
'Verif.Loading.C85_last_records' depends on axioms: [propext, Classical.choice, Quot.sound]
'Verif.Procs.C86_mean_space' depends on axioms: [propext, Classical.choice, Quot.sound]
'Verif.Procs.C86_hmean' depends on axioms: [propext, Classical.choice, Quot.sound]
'Verif.Procs.C86_collect_modes' depends on axioms: [propext, Classical.choice, Quot.sound]
'Verif.Procs.C86_put_coarse' depends on axioms: [propext, Classical.choice, Quot.sound]
'Verif.Procs.C86_where' depends on axioms: [propext, Classical.choice, Quot.sound]
'Verif.Procs.C86_where_memories' depends on axioms: [propext, Quot.sound]
'Verif.Procs.C86_coarse_seq3' depends on axioms: [propext, Classical.choice, Quot.sound]
'Verif.Procs.C86_save_files' depends on axioms: [propext, Classical.choice, Quot.sound]
'Verif.Procs.C86_probes_files' depends on axioms: [propext, Quot.sound]
'Verif.Procs.C86_time_increment' depends on axioms: [propext, Classical.choice, Quot.sound]
'Verif.Procs.C86_reduce' depends on axioms: [propext, Classical.choice, Quot.sound]
'Verif.Procs.C86_probes_restart' depends on axioms: [propext, Classical.choice, Quot.sound]
'Verif.Procs.C86_probes_values' depends on axioms: [propext, Classical.choice, Quot.sound]
'Verif.Procs.C86_probes_violated' depends on axioms: [propext, Classical.choice, Quot.sound]
'Verif.Procs.C86_move_completes' depends on axioms: [propext, Classical.choice, Quot.sound]
'Verif.Procs.C86_move_violated' depends on axioms: [propext, Classical.choice, Quot.sound]
'Verif.Procs.C86_time_loop' depends on axioms: [propext, Classical.choice, Quot.sound]
'Verif.Procs.C86_time_loop_it' depends on axioms: [propext, Classical.choice, Quot.sound]
'Verif.Procs.C86_save' depends on axioms: [propext, Classical.choice, Quot.sound]
'Verif.Procs.C86_from_file' depends on axioms: [propext, Classical.choice, Quot.sound]
'Verif.Procs.C86_from_file_violated' depends on axioms: [propext, Quot.sound]
'Verif.Procs.C86_forcing_init' depends on axioms: [propext, Classical.choice, Quot.sound]
'Verif.Procs.C86_forcing_init_violated' depends on axioms: [propext, Quot.sound]
'Verif.Procs.C86_output_init' depends on axioms: [propext, Classical.choice, Quot.sound]
'Verif.Procs.C86_output_init_violated' depends on axioms: [propext, Quot.sound]
'Verif.Procs.C86_load_for_restart' depends on axioms: [propext, Classical.choice, Quot.sound]
'Verif.Procs.C86_load_for_restart_violated' depends on axioms: [propext, Quot.sound]
'Verif.Procs.C86_nan_none' depends on axioms: [propext, Classical.choice, Quot.sound]
'Verif.Procs.C86_nan_violated' depends on axioms: [propext, Quot.sound]
'Verif.EndToEnd.C87_ns2d' depends on axioms: [propext, Classical.choice, Quot.sound]
'Verif.EndToEnd.C87_ns2d_default' depends on axioms: [propext, Classical.choice, Quot.sound]
'Verif.EndToEnd.C87_ns2d_strat' depends on axioms: [propext, Classical.choice, Quot.sound]
'Verif.EndToEnd.C87_ns3d' depends on axioms: [propext, Classical.choice, Quot.sound]
'Verif.EndToEnd.C87_force_order' depends on axioms: [propext, Classical.choice, Quot.sound]
'Verif.EndToEnd.C87_admissible_default' depends on axioms: [propext, Classical.choice, Quot.sound]
'Verif.EndToEnd.C87_ns2d_bouss' depends on axioms: [propext, Classical.choice, Quot.sound]
'Verif.EndToEnd.C87_burgers' depends on axioms: [propext, Classical.choice, Quot.sound]
'Verif.EndToEnd.C87_sw1l_exists' depends on axioms: [propext, Classical.choice, Quot.sound]
'Verif.EndToEnd.C87_sw1l' depends on axioms: [propext, Classical.choice, Quot.sound]
'Verif.EndToEnd.C87_sw1l_modified' depends on axioms: [propext, Classical.choice, Quot.sound]
'Verif.EndToEnd.C87_sw1l_exactlin' depends on axioms: [propext, Classical.choice, Quot.sound]
'Verif.EndToEnd.C87_plate2d' depends on axioms: [propext, Classical.choice, Quot.sound]
'Verif.EndToEnd.C87_ns2d_rounding' depends on axioms: [propext, Classical.choice, Quot.sound]
'Verif.EndToEnd.C87_ns2d_strat_rounding' depends on axioms: [propext, Classical.choice, Quot.sound]
'Verif.EndToEnd.C87_sw1l_rounding' depends on axioms: [propext, Classical.choice, Quot.sound]
'Verif.EndToEnd.C87_ns3d_strat' depends on axioms: [propext, Classical.choice, Quot.sound]
'Verif.EndToEnd.C87_ns2d_time_partial' depends on axioms: [propext, Classical.choice, Quot.sound]
'Verif.EndToEnd.C87_ns2d_strat_time_partial' depends on axioms: [propext, Classical.choice, Quot.sound]
'Verif.EndToEnd.C87_ns3d_time_partial' depends on axioms: [propext, Classical.choice, Quot.sound]
'Verif.DimNumbers.C88_ns3d' depends on axioms: [propext, Classical.choice, Quot.sound]
'Verif.DimNumbers.C88_omegas' depends on axioms: [propext, Classical.choice, Quot.sound]
'Verif.DimNumbers.C88_omegas_absent' depends on axioms: [propext, Classical.choice, Quot.sound]
'Verif.DimNumbers.C88_omegas_units' depends on axioms: [propext, Classical.choice, Quot.sound]
'Verif.DimNumbers.C88_froude_waves' depends on axioms: [propext, Classical.choice, Quot.sound]
'Verif.DimNumbers.C88_omegas_errors' depends on axioms: [propext, Classical.choice, Quot.sound]
'Verif.DimNumbers.C88_omegas_buoyancy_violated' depends on axioms: [propext, Classical.choice, Quot.sound]
'Verif.DimNumbers.C88_strat_numbers' depends on axioms: [propext, Classical.choice, Quot.sound]
'Verif.DimNumbers.C88_strat_state' depends on axioms: [propext, Classical.choice, Quot.sound]
'Verif.DimNumbers.C88_dimensionless' depends on axioms: [propext, Classical.choice, Quot.sound]
'Verif.DimNumbers.C88_average_partial' depends on axioms: [propext, Classical.choice, Quot.sound]
'Verif.DimNumbers.C88_average_empty' depends on axioms: [propext, Classical.choice, Quot.sound]
'Verif.DimNumbers.C88_average_rest_violated' depends on axioms: [propext, Classical.choice, Quot.sound]
'Verif.DimNumbers.C88_k_max_partial' depends on axioms: [propext, Classical.choice, Quot.sound]
'Verif.DimNumbers.C88_k_max_violated' depends on axioms: [propext, Classical.choice, Quot.sound]
'Verif.Floats.C89_rounding' depends on axioms: [propext, Classical.choice, Quot.sound]
'Verif.Floats.C89_clock_monotone' depends on axioms: [propext, Classical.choice, Quot.sound]
'Verif.Floats.C89_clock_drift' depends on axioms: [propext, Classical.choice, Quot.sound]
'Verif.Floats.C89_ends' depends on axioms: [propext, Classical.choice, Quot.sound]
'Verif.Floats.C89_stuck_violated' depends on axioms: [propext, Classical.choice, Quot.sound]
'Verif.Floats.C89_steps_partial' depends on axioms: [propext, Classical.choice, Quot.sound]
'Verif.Floats.C89_steps_violated' depends on axioms: [propext, Classical.choice, Quot.sound]
'Verif.Floats.C89_floorDiv' depends on axioms: [propext, Classical.choice, Quot.sound]
'Verif.Floats.C89_tolerance_lost' depends on axioms: [propext, Classical.choice, Quot.sound]
'Verif.Floats.C89_tolerance' depends on axioms: [propext, Classical.choice, Quot.sound]
'Verif.Floats.C89_floor_test' depends on axioms: [propext, Classical.choice, Quot.sound]
'Verif.Floats.C89_floor_bins' depends on axioms: [propext, Classical.choice, Quot.sound]
'Verif.Floats.C89_floor_steps_violated' depends on axioms: [propext, Classical.choice, Quot.sound]
'Verif.Floats.C89_diff_test' depends on axioms: [propext, Classical.choice, Quot.sound]
'Verif.Floats.C89_diff_saves' depends on axioms: [propext, Classical.choice, Quot.sound]
'Verif.Floats.C89_diff_steps_violated' depends on axioms: [propext, Classical.choice, Quot.sound]
'Verif.Floats.C89_sum' depends on axioms: [propext, Classical.choice, Quot.sound]
'Verif.Floats.C89_sum_order' depends on axioms: [propext, Classical.choice, Quot.sound]
'Verif.Floats.C89_sum_violated' depends on axioms: [propext, Classical.choice, Quot.sound]
'Verif.Floats.C89_mean' depends on axioms: [propext, Classical.choice, Quot.sound]
'Verif.Floats.C89_aliased' depends on axioms: [propext, Classical.choice, Quot.sound]
'Verif.Floats.C89_aliased_iff' depends on axioms: [propext, Classical.choice, Quot.sound]
'Verif.Floats.C89_spherical_two_thirds' depends on axioms: [propext, Classical.choice, Quot.sound]
'Verif.Floats.C89_spherical' depends on axioms: [propext, Classical.choice, Quot.sound]
'Verif.Floats.C89_spherical_violated' depends on axioms: [propext, Classical.choice, Quot.sound]
'Verif.Floats.C89_1d_violated' depends on axioms: [propext, Classical.choice, Quot.sound]
'Verif.Uxuy.C90_same_flow' depends on axioms: [propext, Classical.choice, Quot.sound]
'Verif.Uxuy.C90_same_vorticity' depends on axioms: [propext, Classical.choice, Quot.sound]
'Verif.Uxuy.C90_incompressible' depends on axioms: [propext, Classical.choice, Quot.sound]
'Verif.Uxuy.C90_energy' depends on axioms: [propext, Classical.choice, Quot.sound]
'Verif.Uxuy.C90_equation' depends on axioms: [propext, Classical.choice, Quot.sound]
'Verif.Uxuy.C90_momentum' depends on axioms: [propext, Classical.choice, Quot.sound]
'Verif.Uxuy.C90_mean_flow' depends on axioms: [propext, Classical.choice, Quot.sound]
'Verif.Uxuy.C90_converges' depends on axioms: [propext, Classical.choice, Quot.sound]
'Verif.Uxuy.C90_energy_fft' depends on axioms: [propext, Classical.choice, Quot.sound]
'Verif.Uxuy.C90_initial_divergence_violated' depends on axioms: [propext, Classical.choice, Quot.sound]
'Verif.Uxuy.C90_gradient_force_violated' depends on axioms: [propext, Classical.choice, Quot.sound]
'Verif.Oper.C91_created_2d' depends on axioms: [propext, Classical.choice, Quot.sound]
'Verif.Oper.C91_removed_2d' depends on axioms: [propext, Classical.choice, Quot.sound]
'Verif.Oper.C91_sizes_3d_violated' depends on axioms: [propext, Classical.choice, Quot.sound]
'Verif.Oper.C91_created_3d_partial' depends on axioms: [propext, Classical.choice, Quot.sound]
'Verif.Oper.C91_removed_3d' depends on axioms: [propext, Classical.choice, Quot.sound]
'Verif.Oper.C91_no_shear_2d' depends on axioms: [propext, Classical.choice, Quot.sound]
'Verif.Oper.C91_no_ky0' depends on axioms: [propext, Classical.choice, Quot.sound]
'Verif.Oper.C91_no_shear_velocity' depends on axioms: [propext, Classical.choice, Quot.sound]
'Verif.Oper.C91_no_shear_3d' depends on axioms: [propext, Classical.choice, Quot.sound]
'Verif.Oper.C91_real' depends on axioms: [propext, Classical.choice, Quot.sound]
'Verif.Oper.C91_conservation_2d' depends on axioms: [propext, Classical.choice, Quot.sound]
'Verif.Oper.C91_not_applied_violated' depends on axioms: [propext, Classical.choice, Quot.sound]
'Verif.TimeSignals.C92_window_size' depends on axioms: [propext, Classical.choice, Quot.sound]
'Verif.TimeSignals.C92_windows' depends on axioms: [propext, Classical.choice, Quot.sound]
'Verif.TimeSignals.C92_total' depends on axioms: [propext, Classical.choice, Quot.sound]
'Verif.TimeSignals.C92_peak' depends on axioms: [propext, Classical.choice, Quot.sound]
'Verif.TimeSignals.C92_frequency_violated' depends on axioms: [propext, Classical.choice, Quot.sound]
'Verif.TimeSignals.C92_short_violated' depends on axioms: [propext, Classical.choice, Quot.sound]
'Verif.TimeSignals.C92_defined' depends on axioms: [propext, Classical.choice, Quot.sound]
'Verif.TimeSignals.C92_shell_total' depends on axioms: [propext, Classical.choice, Quot.sound]
'Verif.TimeSignals.C92_calls' depends on axioms: [propext, Classical.choice, Quot.sound]
'Verif.TimeSignals.C92_call_iff' depends on axioms: [propext, Classical.choice, Quot.sound]
'Verif.TimeSignals.C92_second_call_violated' depends on axioms: [propext, Classical.choice, Quot.sound]
'Verif.Probes.C93_positions' depends on axioms: [propext, Classical.choice, Quot.sound]
'Verif.Probes.C93_values' depends on axioms: [propext, Classical.choice, Quot.sound]
'Verif.Probes.C93_arrays_partial' depends on axioms: [propext, Classical.choice, Quot.sound]
'Verif.Probes.C93_names' depends on axioms: [propext, Classical.choice, Quot.sound]
'Verif.Probes.C93_names_violated' depends on axioms: [propext, Classical.choice, Quot.sound]
'Verif.Probes.C93_complete' depends on axioms: [propext, Classical.choice, Quot.sound]
'Verif.Probes.C93_default_region_violated' depends on axioms: [propext, Classical.choice, Quot.sound]
'Verif.Probes.C93_one_probe_violated' depends on axioms: [propext, Classical.choice, Quot.sound]
'Verif.Probes.C93_equal_times_violated' depends on axioms: [propext, Classical.choice, Quot.sound]
'Verif.Probes.C93_initial_violated' depends on axioms: [propext, Classical.choice, Quot.sound]
'Verif.Sphere.C94_divrot' depends on axioms: [propext, Classical.choice, Quot.sound]
'Verif.Sphere.C94_velocity' depends on axioms: [propext, Classical.choice, Quot.sound]
'Verif.Sphere.C94_roundtrip' depends on axioms: [propext, Classical.choice, Quot.sound]
'Verif.Sphere.C94_ns2d_equation' depends on axioms: [propext, Classical.choice, Quot.sound]
'Verif.Sphere.C94_enstrophy' depends on axioms: [propext, Classical.choice, Quot.sound]
'Verif.Sphere.C94_energy' depends on axioms: [propext, Classical.choice, Quot.sound]
'Verif.Sphere.C94_printed_sum' depends on axioms: [propext, Classical.choice, Quot.sound]
'Verif.Sphere.C94_low_modes' depends on axioms: [propext, Classical.choice, Quot.sound]
'Verif.Sphere.C94_angular_momentum' depends on axioms: [propext, Classical.choice, Quot.sound]
'Verif.Sphere.C94_rotation_violated' depends on axioms: [propext, Classical.choice, Quot.sound]
'Verif.Sphere.C94_sw1l_momentum' depends on axioms: [propext, Classical.choice, Quot.sound]
'Verif.Sphere.C94_sw1l_continuity' depends on axioms: [propext, Classical.choice, Quot.sound]
'Verif.Sphere.C94_sw1l_means' depends on axioms: [propext, Classical.choice, Quot.sound]
'Verif.Sphere.C94_mass' depends on axioms: [propext, Classical.choice, Quot.sound]
'Verif.Sphere.C94_init' depends on axioms: [propext, Classical.choice, Quot.sound]
'Verif.Sphere.C94_init_violated' depends on axioms: [propext, Classical.choice, Quot.sound]
'Verif.Symmetry.C95_transformed' depends on axioms: [propext, Classical.choice, Quot.sound]
'Verif.Symmetry.C95_ns2d' depends on axioms: [propext, Classical.choice, Quot.sound]
'Verif.Symmetry.C95_ns2d_strat' depends on axioms: [propext, Classical.choice, Quot.sound]
'Verif.Symmetry.C95_ns3d' depends on axioms: [propext, Classical.choice, Quot.sound]
'Verif.Symmetry.C95_ns3d_strat' depends on axioms: [propext, Classical.choice, Quot.sound]
'Verif.Symmetry.C95_aliasing_violated' depends on axioms: [propext, Classical.choice, Quot.sound]
'Verif.Symmetry.C95_cfl_exists' depends on axioms: [propext, Classical.choice, Quot.sound]
'Verif.Symmetry.C95_cfl_exists_ns3d' depends on axioms: [propext, Classical.choice, Quot.sound]
'Verif.Symmetry.C95_ns2d_cfl' depends on axioms: [propext, Classical.choice, Quot.sound]
'Verif.Symmetry.C95_ns3d_cfl' depends on axioms: [propext, Classical.choice, Quot.sound]
'Verif.Symmetry.C95_ns3d_strat_cfl' depends on axioms: [propext, Classical.choice, Quot.sound]
'Verif.Symmetry.C95_ns2d_strat_cfl' depends on axioms: [propext, Classical.choice, Quot.sound]
'Verif.Symmetry.C95_strat_forcing_violated' depends on axioms: [propext, Classical.choice, Quot.sound]
'Verif.Symmetry.C95_plate2d' depends on axioms: [propext, Classical.choice, Quot.sound]
'Verif.Symmetry.C95_sw1l' depends on axioms: [propext, Classical.choice, Quot.sound]
'Verif.Symmetry.C95_sw1l_modified' depends on axioms: [propext, Classical.choice, Quot.sound]
'Verif.Symmetry.C96_no_buoyancy_3d' depends on axioms: [propext, Classical.choice, Quot.sound]
'Verif.Symmetry.C96_no_buoyancy_2d' depends on axioms: [propext, Classical.choice, Quot.sound]
'Verif.Symmetry.C96_mean_buoyancy_violated' depends on axioms: [propext, Classical.choice, Quot.sound]
'Verif.Symmetry.C96_horizontal' depends on axioms: [propext, Classical.choice, Quot.sound]
'Verif.Symmetry.C96_vertical' depends on axioms: [propext, Classical.choice, Quot.sound]
'Verif.RunName.C97_number' depends on axioms: [propext, Classical.choice, Quot.sound]
'Verif.RunName.C97_integer' depends on axioms: [propext, Classical.choice, Quot.sound]
'Verif.RunName.C97_distinct' depends on axioms: [propext, Classical.choice, Quot.sound]
'Verif.RunName.C97_ns3d_strat' depends on axioms: [propext, Classical.choice, Quot.sound]
'Verif.RunName.C97_hidden_violated' depends on axioms: [propext, Classical.choice, Quot.sound]
'Verif.RunName.C97_loaded' depends on axioms: [propext, Classical.choice, Quot.sound]
'Verif.RunName.C97_suffix_violated' depends on axioms: [propext, Classical.choice, Quot.sound]
'Verif.RunName.C97_renamed_violated' depends on axioms: [propext, Classical.choice, Quot.sound]
'Verif.RunName.C97_solver_first' depends on axioms: [propext, Classical.choice, Quot.sound]
'Verif.RunName.C97_spaces_violated' depends on axioms: [propext, Classical.choice, Quot.sound]
'Verif.RunName.C97_coarse' depends on axioms: [propext, Classical.choice, Quot.sound]
'Verif.RunName.C97_coarse_1d' depends on axioms: [propext, Classical.choice, Quot.sound]
'Verif.RunName.C97_fd2d_violated' depends on axioms: [propext, Classical.choice, Quot.sound]
'Verif.RunName.C97_says' depends on axioms: [propext, Classical.choice, Quot.sound]
'Verif.RunName.C97_kept' depends on axioms: [propext, Classical.choice, Quot.sound]
'Verif.RunName.C97_milestone' depends on axioms: [propext, Classical.choice, Quot.sound]
'Verif.RunName.C97_watu' depends on axioms: [propext, Classical.choice, Quot.sound]
'Verif.RunName.C97_taylor_green' depends on axioms: [propext, Classical.choice, Quot.sound]
'Verif.Symmetry.C98_ns2d_cfl' depends on axioms: [propext, Classical.choice, Quot.sound]
'Verif.Symmetry.C98_ns3d_cfl' depends on axioms: [propext, Classical.choice, Quot.sound]
'Verif.Symmetry.C98_ns3d_strat_cfl' depends on axioms: [propext, Classical.choice, Quot.sound]
'Verif.Symmetry.C98_ns2d_strat_cfl' depends on axioms: [propext, Classical.choice, Quot.sound]
'Verif.Symmetry.C98_limits' depends on axioms: [propext, Classical.choice, Quot.sound]
'Verif.Symmetry.C98_image' depends on axioms: [propext, Classical.choice, Quot.sound]
'Verif.Symmetry.C98_truncation' depends on axioms: [propext, Classical.choice, Quot.sound]
'Verif.Symmetry.C98_ns2d' depends on axioms: [propext, Classical.choice, Quot.sound]
'Verif.Symmetry.C98_ns2d_strat' depends on axioms: [propext, Classical.choice, Quot.sound]
'Verif.Symmetry.C98_ns3d' depends on axioms: [propext, Classical.choice, Quot.sound]
'Verif.Symmetry.C98_ns3d_strat' depends on axioms: [propext, Classical.choice, Quot.sound]
'Verif.Symmetry.C98_kept' depends on axioms: [propext, Classical.choice, Quot.sound]
'Verif.Symmetry.C98_kept_ns2d' depends on axioms: [propext, Classical.choice, Quot.sound]
'Verif.Symmetry.C98_beta' depends on axioms: [propext, Classical.choice, Quot.sound]
'Verif.Symmetry.C98_plate2d' depends on axioms: [propext, Classical.choice, Quot.sound]
'Verif.Symmetry.C98_plate2d_kept' depends on axioms: [propext, Classical.choice, Quot.sound]
'Verif.Symmetry.C98_sw1l' depends on axioms: [propext, Classical.choice, Quot.sound]
'Verif.Symmetry.C98_sw1l_modified' depends on axioms: [propext, Classical.choice, Quot.sound]
'Verif.Symmetry.C98_coriolis' depends on axioms: [propext, Classical.choice, Quot.sound]
'Verif.Build.C99_key' depends on axioms: [propext, Quot.sound]
'Verif.Build.C99_key_full' depends on axioms: [propext, Quot.sound]
'Verif.Build.C99_key_unknown' depends on axioms: [propext, Quot.sound]
'Verif.Build.C99_key_order' depends on axioms: [propext, Quot.sound]
'Verif.Build.C99_pyproject_one' depends on axioms: [propext, Classical.choice, Quot.sound]
'Verif.Build.C99_subsolvers_violated' depends on axioms: [propext, Classical.choice, Quot.sound]
'Verif.Build.C99_dir' depends on axioms: [propext]
'Verif.Build.C99_dir_again' depends on axioms: [propext]
'Verif.Build.C99_dir_home' depends on axioms: [propext]
'Verif.Build.C99_imported' depends on axioms: [propext, Quot.sound]
'Verif.Build.C99_classes_partial' does not depend on any axioms
'Verif.Build.C99_extenders' depends on axioms: [propext, Classical.choice, Quot.sound]
'Verif.Build.C99_classes_again' depends on axioms: [propext]
'Verif.Build.C99_replace_violated' depends on axioms: [propext, Quot.sound]
'Verif.Build.C99_replace_turb' depends on axioms: [propext, Classical.choice, Quot.sound]
'Verif.Build.C99_info' depends on axioms: [propext, Quot.sound]
'Verif.Build.C99_order' depends on axioms: [propext, Classical.choice, Quot.sound]
'Verif.Build.C99_ok_iff' depends on axioms: [propext, Classical.choice, Quot.sound]
'Verif.Build.C99_enabled' depends on axioms: [propext, Classical.choice, Quot.sound]
'Verif.Build.C99_task_iff' depends on axioms: [propext, Classical.choice, Quot.sound]
'Verif.BudgetCurves.C100_curves' depends on axioms: [propext, Classical.choice, Quot.sound]
'Verif.BudgetCurves.C100_exact' depends on axioms: [propext, Classical.choice, Quot.sound]
'Verif.BudgetCurves.C100_two_records' depends on axioms: [propext, Classical.choice, Quot.sound]
'Verif.BudgetCurves.C100_enstrophy_partial' depends on axioms: [propext, Classical.choice, Quot.sound]
'Verif.BudgetCurves.C100_enstrophy_violated' depends on axioms: [propext, Classical.choice, Quot.sound]
'Verif.BudgetCurves.C100_plate' depends on axioms: [propext, Classical.choice, Quot.sound]
'Verif.BudgetCurves.C100_plate_two_records' depends on axioms: [propext, Classical.choice, Quot.sound]
'Verif.BudgetCurves.C100_strat_partial' depends on axioms: [propext, Classical.choice, Quot.sound]
'Verif.BudgetCurves.C100_strat_violated' depends on axioms: [propext, Classical.choice, Quot.sound]
'Verif.BudgetCurves.C100_rates' depends on axioms: [propext, Classical.choice, Quot.sound]
'Verif.BudgetCurves.C100_rates_keys' depends on axioms: [propext, Classical.choice, Quot.sound]
'Verif.BudgetCurves.C100_rates_string_violated' depends on axioms: [propext, Classical.choice, Quot.sound]
'Verif.BudgetCurves.C100_rates_mean_violated' depends on axioms: [propext, Classical.choice, Quot.sound]
'Verif.BudgetCurves.C100_ns2d_forced' depends on axioms: [propext, Classical.choice, Quot.sound]
'Verif.BudgetCurves.C100_ns2d_unforced' depends on axioms: [propext, Classical.choice, Quot.sound]
'Verif.BudgetCurves.C100_ns3d_forced' depends on axioms: [propext, Classical.choice, Quot.sound]
'Verif.Invariants.C101_mean_ns2d' depends on axioms: [propext, Classical.choice, Quot.sound]
'Verif.Invariants.C101_mean_ns2d_strat' depends on axioms: [propext, Classical.choice, Quot.sound]
'Verif.Invariants.C101_mean_ns2d_bouss' depends on axioms: [propext, Classical.choice, Quot.sound]
'Verif.Invariants.C101_mass_sw1l' depends on axioms: [propext, Classical.choice, Quot.sound]
'Verif.Invariants.C101_mass_sw1l_modified' depends on axioms: [propext, Classical.choice, Quot.sound]
'Verif.Invariants.C101_mean_burgers' depends on axioms: [propext, Classical.choice, Quot.sound]
'Verif.Invariants.C101_momentum_ns3d' depends on axioms: [propext, Classical.choice, Quot.sound]
'Verif.Invariants.C101_momentum_ns3d_strat' depends on axioms: [propext, Classical.choice, Quot.sound]
'Verif.Invariants.C101_no_mean_ns3d_strat' depends on axioms: [propext, Classical.choice, Quot.sound]
'Verif.Invariants.C101_energy_ns2d' depends on axioms: [propext, Classical.choice, Quot.sound]
'Verif.Invariants.C101_energy_ns2d_strat' depends on axioms: [propext, Classical.choice, Quot.sound]
'Verif.Invariants.C101_energy_ns3d' depends on axioms: [propext, Classical.choice, Quot.sound]
'Verif.Invariants.C101_energy_ns3d_strat' depends on axioms: [propext, Classical.choice, Quot.sound]
'Verif.Invariants.C101_energy_burgers' depends on axioms: [propext, Classical.choice, Quot.sound]
'Verif.Invariants.C101_energy_sw1l_modified' depends on axioms: [propext, Classical.choice, Quot.sound]
'Verif.Invariants.C101_energy_plate2d' depends on axioms: [propext, Classical.choice, Quot.sound]
'Verif.Invariants.C101_runHypo_zero' depends on axioms: [propext, Classical.choice, Quot.sound]
'Verif.Invariants.C101_mass_hypo_sw1l_violated' depends on axioms: [propext, Classical.choice, Quot.sound]
'Verif.SpecFigs.C102_average_partial' depends on axioms: [propext, Classical.choice, Quot.sound]
'Verif.SpecFigs.C102_tmax' depends on axioms: [propext, Classical.choice, Quot.sound]
'Verif.SpecFigs.C102_records' depends on axioms: [propext, Classical.choice, Quot.sound]
'Verif.SpecFigs.C102_one_time_violated' depends on axioms: [propext, Classical.choice, Quot.sound]
'Verif.SpecFigs.C102_threshold_violated' depends on axioms: [propext, Classical.choice, Quot.sound]
'Verif.SpecFigs.C102_times_partial' depends on axioms: [propext, Classical.choice, Quot.sound]
'Verif.SpecFigs.C102_times_one_record_violated' depends on axioms: [propext, Classical.choice, Quot.sound]
'Verif.SpecFigs.C102_sw1l_plot1d_partial' depends on axioms: [propext, Classical.choice, Quot.sound]
'Verif.SpecFigs.C102_plot1d_shape_violated' depends on axioms: [propext, Classical.choice, Quot.sound]
'Verif.SpecFigs.C102_plot1d_axes_violated' depends on axioms: [propext, Classical.choice, Quot.sound]
'Verif.SpecFigs.C102_plate_average_violated' depends on axioms: [propext, Classical.choice, Quot.sound]
'Verif.SpecFigs.C102_plate_delta_violated' depends on axioms: [propext, Classical.choice, Quot.sound]
'Verif.SpecFigs.C102_plate_plot2d_partial' depends on axioms: [propext, Classical.choice, Quot.sound]
'Verif.SpecFigs.C102_plate_mask_violated' depends on axioms: [propext, Classical.choice, Quot.sound]
'Verif.SpecFigs.C102_plate_one_record_violated' depends on axioms: [propext, Classical.choice, Quot.sound]
'Verif.SpecFigs.C102_strat_compensate_violated' depends on axioms: [propext, Classical.choice, Quot.sound]
'Verif.SpecFigs.C102_strat_dealiasing_violated' depends on axioms: [propext, Classical.choice, Quot.sound]
'Verif.SpecFigs.C102_cumul_diss' depends on axioms: [propext, Classical.choice, Quot.sound]
'Verif.SpecFigs.C102_cumul_diss_hyper_violated' depends on axioms: [propext, Classical.choice, Quot.sound]
'Verif.SpecFigs.C102_cumul_diss_kzkh' depends on axioms: [propext, Classical.choice, Quot.sound]
'Verif.SpecFigs.C102_dissipative_scales' depends on axioms: [propext, Classical.choice, Quot.sound]
'Verif.SpecFigs.C102_forced_band_partial' depends on axioms: [propext, Classical.choice, Quot.sound]
'Verif.SpecFigs.C102_forced_band_violated' depends on axioms: [propext, Classical.choice, Quot.sound]
'Verif.SpecFigs.C102_strat_averages_partial' depends on axioms: [propext, Classical.choice, Quot.sound]
'Verif.SpecFigs.C102_strat_names' depends on axioms: [propext]
'Verif.SpecFigs.C102_strat_poloidal_violated' depends on axioms: [propext, Classical.choice, Quot.sound]
'Verif.SpecFigs.C102_strat_vortical_violated' depends on axioms: [propext, Classical.choice, Quot.sound]
'Verif.HorizMeans.C103_profiles' depends on axioms: [propext, Classical.choice, Quot.sound]
'Verif.HorizMeans.C103_bounds' depends on axioms: [propext, Classical.choice, Quot.sound]
'Verif.HorizMeans.C103_energy' depends on axioms: [propext, Classical.choice, Quot.sound]
'Verif.HorizMeans.C103_vz' depends on axioms: [propext, Classical.choice, Quot.sound]
'Verif.HorizMeans.C103_profile_modes' depends on axioms: [propext, Classical.choice, Quot.sound]
'Verif.HorizMeans.C103_budget' depends on axioms: [propext, Classical.choice, Quot.sound]
'Verif.HorizMeans.C103_galilean' depends on axioms: [propext, Classical.choice, Quot.sound]
'Verif.HorizMeans.C103_shift' depends on axioms: [propext, Classical.choice, Quot.sound]
'Verif.HorizMeans.C103_load' depends on axioms: [propext, Classical.choice, Quot.sound]
'Verif.HorizMeans.C103_plot' depends on axioms: [propext, Classical.choice, Quot.sound]
'Verif.HorizMeans.C103_window' depends on axioms: [propext, Classical.choice, Quot.sound]
'Verif.HorizMeans.C103_total_covariance' depends on axioms: [propext, Classical.choice, Quot.sound]
'Verif.HorizMeans.C103_covariance_violated' depends on axioms: [propext, Classical.choice, Quot.sound]
'Verif.HorizMeans.C103_tmin_violated' depends on axioms: [propext, Classical.choice, Quot.sound]
'Verif.HorizMeans.C103_order_violated' depends on axioms: [propext, Classical.choice, Quot.sound]
'Verif.HorizMeans.C103_empty_violated' depends on axioms: [propext, Classical.choice, Quot.sound]
'Verif.Galilean.C104_moving' depends on axioms: [propext, Classical.choice, Quot.sound]
'Verif.Galilean.C104_burgers' depends on axioms: [propext, Classical.choice, Quot.sound]
'Verif.Galilean.C104_ns3d' depends on axioms: [propext, Classical.choice, Quot.sound]
'Verif.Galilean.C104_uniform' depends on axioms: [propext, Classical.choice, Quot.sound]
'Verif.Galilean.C104_ns3d_strat' depends on axioms: [propext, Classical.choice, Quot.sound]
'Verif.Galilean.C104_sw1l' depends on axioms: [propext, Classical.choice, Quot.sound]
'Verif.Galilean.C104_finite_step_violated' depends on axioms: [propext, Classical.choice, Quot.sound]
'Verif.Galilean.C104_sw1l_modified_violated' depends on axioms: [propext, Classical.choice, Quot.sound]
'Verif.NonInterference.C105_start' depends on axioms: [propext, Classical.choice, Quot.sound]
'Verif.NonInterference.C105_loop' depends on axioms: [propext, Classical.choice, Quot.sound]
'Verif.NonInterference.C105_in_script' depends on axioms: [propext, Classical.choice, Quot.sound]
'Verif.NonInterference.C105_continued_partial' depends on axioms: [propext, Classical.choice, Quot.sound]
'Verif.NonInterference.C105_preprocess_partial' depends on axioms: [propext, Classical.choice, Quot.sound]
'Verif.NonInterference.C105_continued_violated' depends on axioms: [propext, Classical.choice, Quot.sound]
'Verif.NonInterference.C105_changed_state_violated' depends on axioms: [propext, Classical.choice, Quot.sound]
'Verif.NonInterference.C105_forcing_constructed_twice' depends on axioms: [propext, Classical.choice, Quot.sound]
'Verif.NonInterference.C105_preprocess_violated' depends on axioms: [propext, Classical.choice, Quot.sound]
'Verif.Reversal.C106_ns2d' depends on axioms: [propext, Classical.choice, Quot.sound]
'Verif.Reversal.C106_ns2d_strat' depends on axioms: [propext, Classical.choice, Quot.sound]
'Verif.Reversal.C106_ns2d_bouss' depends on axioms: [propext, Classical.choice, Quot.sound]
'Verif.Reversal.C106_ns3d' depends on axioms: [propext, Classical.choice, Quot.sound]
'Verif.Reversal.C106_ns3d_strat' depends on axioms: [propext, Classical.choice, Quot.sound]
'Verif.Reversal.C106_sw1l' depends on axioms: [propext, Classical.choice, Quot.sound]
'Verif.Reversal.C106_sw1l_modified' depends on axioms: [propext, Classical.choice, Quot.sound]
'Verif.Reversal.C106_plate2d' depends on axioms: [propext, Classical.choice, Quot.sound]
'Verif.Reversal.C106_burgers' depends on axioms: [propext, Classical.choice, Quot.sound]
'Verif.Reversal.C106_viscosity_needed' depends on axioms: [propext, Classical.choice, Quot.sound]
'Verif.Replicas.C107_copies' depends on axioms: [propext, Classical.choice, Quot.sound]
'Verif.Replicas.C107_copies_period' depends on axioms: [propext, Classical.choice, Quot.sound]
'Verif.Replicas.C107_truncations' depends on axioms: [propext, Classical.choice, Quot.sound]
'Verif.Replicas.C107_ns2d' depends on axioms: [propext, Classical.choice, Quot.sound]
'Verif.Replicas.C107_ns2d_strat' depends on axioms: [propext, Classical.choice, Quot.sound]
'Verif.Replicas.C107_ns2d_bouss' depends on axioms: [propext, Classical.choice, Quot.sound]
'Verif.Replicas.C107_sw1l' depends on axioms: [propext, Classical.choice, Quot.sound]
'Verif.Replicas.C107_sw1l_modified' depends on axioms: [propext, Classical.choice, Quot.sound]
'Verif.Replicas.C107_plate2d' depends on axioms: [propext, Classical.choice, Quot.sound]
'Verif.Replicas.C107_burgers' depends on axioms: [propext, Classical.choice, Quot.sound]
'Verif.Replicas.C107_ns3d' depends on axioms: [propext, Classical.choice, Quot.sound]
'Verif.Replicas.C107_ns3d_strat' depends on axioms: [propext, Classical.choice, Quot.sound]
'Verif.Replicas.C107_period_kept' depends on axioms: [propext, Classical.choice, Quot.sound]
'Verif.Replicas.C107_ns2d_cfl' depends on axioms: [propext, Classical.choice, Quot.sound]
'Verif.Replicas.C107_ns3d_cfl' depends on axioms: [propext, Classical.choice, Quot.sound]
'Verif.ExactFlows.C108_ns2d' depends on axioms: [propext, Classical.choice, Quot.sound]
'Verif.ExactFlows.C108_ns2d_flow' depends on axioms: [propext, Classical.choice, Quot.sound]
'Verif.ExactFlows.C108_ns2d_zonal' depends on axioms: [propext, Classical.choice, Quot.sound]
'Verif.ExactFlows.C108_ns2d_strat' depends on axioms: [propext, Classical.choice, Quot.sound]
'Verif.ExactFlows.C108_sw1l' depends on axioms: [propext, Classical.choice, Quot.sound]
'Verif.ExactFlows.C108_sw1l_modified' depends on axioms: [propext, Classical.choice, Quot.sound]
'Verif.ExactFlows.C108_ns3d_beltrami' depends on axioms: [propext, Classical.choice, Quot.sound]
'Verif.ExactFlows.C108_ns3d_parallel' depends on axioms: [propext, Classical.choice, Quot.sound]
'Verif.ExactFlows.C108_ns3d_strat' depends on axioms: [propext, Classical.choice, Quot.sound]
'Verif.BudgetFigs.C109_ns2d_partial' depends on axioms: [propext, Classical.choice, Quot.sound]
'Verif.BudgetFigs.C109_conserved' depends on axioms: [propext, Classical.choice, Quot.sound]
'Verif.BudgetFigs.C109_last_record_violated' depends on axioms: [propext, Classical.choice, Quot.sound]
'Verif.BudgetFigs.C109_one_time_violated' depends on axioms: [propext, Classical.choice, Quot.sound]
'Verif.BudgetFigs.C109_abscissa_violated' depends on axioms: [propext, Classical.choice, Quot.sound]
'Verif.BudgetFigs.C109_sw1l_partial' depends on axioms: [propext, Classical.choice, Quot.sound]
'Verif.BudgetFigs.C109_sw1l_conversion_violated' depends on axioms: [propext, Classical.choice, Quot.sound]
'Verif.BudgetFigs.C109_sw1l_thin_violated' depends on axioms: [propext, Classical.choice, Quot.sound]
'Verif.BudgetFigs.C109_modes_partial' depends on axioms: [propext, Classical.choice, Quot.sound]
'Verif.BudgetFigs.C109_ns3d' depends on axioms: [propext, Classical.choice, Quot.sound]
'Verif.BudgetFigs.C109_ns3d_ends' depends on axioms: [propext, Classical.choice, Quot.sound]
'Verif.BudgetFigs.C109_ns3d_injection' depends on axioms: [propext, Classical.choice, Quot.sound]
'Verif.BudgetFigs.C109_ns3d_strat' depends on axioms: [propext, Classical.choice, Quot.sound]
'Verif.BudgetFigs.C109_ns3d_strat_stationary' depends on axioms: [propext, Classical.choice, Quot.sound]
'Verif.BudgetFigs.C109_strat_partial' depends on axioms: [propext, Classical.choice, Quot.sound]
'Verif.BudgetFigs.C109_strat_dealiasing_violated' depends on axioms: [propext, Classical.choice, Quot.sound]
'Verif.BudgetFigs.C109_strat_zero_violated' depends on axioms: [propext, Classical.choice, Quot.sound]
'Verif.Reality.C110_real_iff_conjugate' depends on axioms: [propext, Classical.choice, Quot.sound]
'Verif.Reality.C110_shifts' depends on axioms: [propext, Classical.choice, Quot.sound]
'Verif.Reality.C110_ns2d' depends on axioms: [propext, Classical.choice, Quot.sound]
'Verif.Reality.C110_ns2d_strat' depends on axioms: [propext, Classical.choice, Quot.sound]
'Verif.Reality.C110_ns2d_bouss' depends on axioms: [propext, Classical.choice, Quot.sound]
'Verif.Reality.C110_sw1l' depends on axioms: [propext, Classical.choice, Quot.sound]
'Verif.Reality.C110_sw1l_modified' depends on axioms: [propext, Classical.choice, Quot.sound]
'Verif.Reality.C110_plate2d' depends on axioms: [propext, Classical.choice, Quot.sound]
'Verif.Reality.C110_burgers' depends on axioms: [propext, Classical.choice, Quot.sound]
'Verif.Reality.C110_ns3d' depends on axioms: [propext, Classical.choice, Quot.sound]
'Verif.Reality.C110_ns3d_strat' depends on axioms: [propext, Classical.choice, Quot.sound]
'Verif.Reality.C110_hypoviscosity' depends on axioms: [propext, Classical.choice, Quot.sound]
'Verif.Reality.C110_half_spectrum' depends on axioms: [propext, Classical.choice, Quot.sound]
'Verif.Reality.C110_with_uxuy' depends on axioms: [propext, Classical.choice, Quot.sound]
'Verif.RealForce.C111_projection' depends on axioms: [propext, Classical.choice, Quot.sound]
'Verif.RealForce.C111_projection_odd_violated' depends on axioms: [propext, Classical.choice, Quot.sound]
'Verif.RealForce.C111_random' depends on axioms: [propext, Classical.choice, Quot.sound]
'Verif.RealForce.C111_tcrandom' depends on axioms: [propext, Classical.choice, Quot.sound]
'Verif.RealForce.C111_particular_k' depends on axioms: [propext, Classical.choice, Quot.sound]
'Verif.RealForce.C111_shell' depends on axioms: [propext, Classical.choice, Quot.sound]
'Verif.RealForce.C111_real_arrays' depends on axioms: [propext, Classical.choice, Quot.sound]
'Verif.RealForce.C111_ns2d' depends on axioms: [propext, Classical.choice, Quot.sound]
'Verif.RealForce.C111_complex_coefficient' depends on axioms: [propext, Classical.choice, Quot.sound]
'Verif.RealForce.C111_not_real' depends on axioms: [propext, Classical.choice, Quot.sound]
'Verif.RealForce.C111_negative_rate_violated' depends on axioms: [propext, Classical.choice, Quot.sound]
'Verif.RealForce.C111_projection_fft' depends on axioms: [propext, Classical.choice, Quot.sound]
'Verif.RealForce.C111_tcrandom_3d' depends on axioms: [propext, Classical.choice, Quot.sound]
'Verif.RealForce.C111_shell_opposite' depends on axioms: [propext, Classical.choice, Quot.sound]
'Verif.RealForce.C111_projection_needed' depends on axioms: [propext, Classical.choice, Quot.sound]
'Verif.Smooth.C112_ns2d' depends on axioms: [propext, Classical.choice, Quot.sound]
'Verif.Smooth.C112_ns2d_strat' depends on axioms: [propext, Classical.choice, Quot.sound]
'Verif.Smooth.C112_ns2d_bouss' depends on axioms: [propext, Classical.choice, Quot.sound]
'Verif.Smooth.C112_sw1l' depends on axioms: [propext, Classical.choice, Quot.sound]
'Verif.Smooth.C112_sw1l_modified' depends on axioms: [propext, Classical.choice, Quot.sound]
'Verif.Smooth.C112_sw1l_exactlin' depends on axioms: [propext, Classical.choice, Quot.sound]
'Verif.Smooth.C112_plate2d' depends on axioms: [propext, Classical.choice, Quot.sound]
'Verif.Smooth.C112_burgers' depends on axioms: [propext, Classical.choice, Quot.sound]
'Verif.Smooth.C112_burgers_skew' depends on axioms: [propext, Classical.choice, Quot.sound]
'Verif.Smooth.C112_hypoviscosity' depends on axioms: [propext, Classical.choice, Quot.sound]
'Verif.Smooth.C112_proportional' depends on axioms: [propext, Classical.choice, Quot.sound]
'Verif.Smooth.C112_ns3d' depends on axioms: [propext, Classical.choice, Quot.sound]
'Verif.Smooth.C112_ns3d_strat' depends on axioms: [propext, Classical.choice, Quot.sound]
'Verif.Smooth.C112_continuity' depends on axioms: [propext, Classical.choice, Quot.sound]
'Verif.Smooth.C112_sensitivity' depends on axioms: [propext, Classical.choice, Quot.sound]
'Verif.Smooth.C112_cfl_violated' depends on axioms: [propext, Classical.choice, Quot.sound]
'Verif.Smooth.C112_viscosity_ns2d' depends on axioms: [propext, Classical.choice, Quot.sound]
'Verif.Smooth.C112_viscosity_ns2d_strat' depends on axioms: [propext, Classical.choice, Quot.sound]
'Verif.Smooth.C112_viscosity_sw1l' depends on axioms: [propext, Classical.choice, Quot.sound]
'Verif.Smooth.C112_viscosity_ns3d' depends on axioms: [propext, Classical.choice, Quot.sound]
'Verif.Smooth.C112_viscosity_ns3d_strat' depends on axioms: [propext, Classical.choice, Quot.sound]
'Verif.Smooth.C112_negative_viscosity_violated' depends on axioms: [propext, Classical.choice, Quot.sound]
'Verif.Smooth.C112_beta_ns2d' depends on axioms: [propext, Classical.choice, Quot.sound]
'Verif.Smooth.C112_N_ns2d_strat' depends on axioms: [propext, Classical.choice, Quot.sound]
'Verif.Smooth.C112_f_c2_sw1l' depends on axioms: [propext, Classical.choice, Quot.sound]
'Verif.Smooth.C112_f_c2_sw1l_modified' depends on axioms: [propext, Classical.choice, Quot.sound]
'Verif.Smooth.C112_f_ns3d' depends on axioms: [propext, Classical.choice, Quot.sound]
'Verif.Smooth.C112_f_N_ns3d_strat' depends on axioms: [propext, Classical.choice, Quot.sound]
'Verif.Smooth.C112_parameter_continuity' depends on axioms: [propext, Classical.choice, Quot.sound]
'Verif.Smooth.C112_parameter_sensitivity' depends on axioms: [propext, Classical.choice, Quot.sound]

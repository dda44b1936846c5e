# Output of `#print axioms` for every theorem of MANIFEST.json (run outside the project, see DESIGN.md section 5)
SFK.C01_index_bijection: propext, Classical.choice, Quot.sound
SFK.C01_index_bijection_2d: propext, Classical.choice, Quot.sound
SFK.C02_index_no_wrap: propext, Quot.sound
SFK.C02_grid_sphere_layout_agree: propext, Quot.sound
SFK.C02_two_index_layout: propext, Quot.sound
SFK.C02_sizes_no_wrap: propext, Quot.sound
SFK.C02_wrap_needed: propext
SFK.C03_get_row_R: propext, Classical.choice, Quot.sound
SFK.C03_set_row_R: propext, Classical.choice, Quot.sound
SFK.C03_get_set_row_R: propext, Classical.choice, Quot.sound
SFK.C03_set_get_row_R: propext, Classical.choice, Quot.sound
SFK.C04_row_th: propext, Classical.choice, Quot.sound
SFK.C04_row_th_ph: propext, Classical.choice, Quot.sound
SFK.C04_shell_is_block: propext, Classical.choice, Quot.sound
SFK.C04_row_R_th: propext, Classical.choice, Quot.sound
SFK.C04_row_n: propext, Classical.choice, Quot.sound
SFK.C04_set_row_l: propext, Classical.choice, Quot.sound
SFK.C04_wrong_size_aborts: propext, Quot.sound
SFK.C05_set_row_ph_iff_partial: propext, Classical.choice, Quot.sound
SFK.C05_set_row_ph_short: propext, Classical.choice, Quot.sound
SFK.C05_set_row_ph_out_of_bounds: propext, Classical.choice, Quot.sound
SFK.C05_get_row_ph: propext, Classical.choice, Quot.sound
SFK.C06_get_row_R_ph_partial: propext, Classical.choice, Quot.sound
SFK.C06_get_row_R_ph_aborts: propext, Classical.choice, Quot.sound
SFK.C06_get_row_R_ph_demanded_size_overruns: propext, Classical.choice, Quot.sound
SFK.C06_set_row_R_ph: propext, Classical.choice, Quot.sound
SFK.C07_stored_coordinates: propext, Classical.choice, Quot.sound
SFK.C07_coordinate_values: propext, Classical.choice, Quot.sound
SFK.C08_round_trip: propext, Classical.choice, Quot.sound
SFK.C08_ends: propext, Classical.choice, Quot.sound
SFK.C09_jacobians: propext, Classical.choice, Quot.sound
SFK.C10_points: propext, Classical.choice, Quot.sound
SFK.C10_uniform_grid: propext, Classical.choice, Quot.sound
SFK.C10_single_point_is_bad: propext, Classical.choice, Quot.sound
SFK.C11_der_exact: propext, Classical.choice, Quot.sound
SFK.C11_degree_sharp: propext, Classical.choice, Quot.sound
SFK.C12_der2_exact: propext, Classical.choice, Quot.sound
SFK.C13_der_sixth_order: propext, Classical.choice, Quot.sound
SFK.C13_der2_sixth_order: propext, Classical.choice, Quot.sound
SFK.C14_der_bounds: propext, Classical.choice, Quot.sound
SFK.C14_der2_bounds: propext, Classical.choice, Quot.sound
SFK.C14_filter_bounds: propext, Classical.choice, Quot.sound
SFK.C14_der_overwrites: propext, Classical.choice, Quot.sound
SFK.C14_wrong_size_aborts: propext, Quot.sound
SFK.C15_filter_keeps_ends: propext, Classical.choice, Quot.sound
SFK.C15_filter_fixes_polynomials: propext, Classical.choice, Quot.sound
SFK.C15_filter_linear: propext, Classical.choice, Quot.sound
SFK.C16_filter_symbol: propext, Classical.choice, Quot.sound
SFK.C16_symbol_range: propext, Classical.choice, Quot.sound
SFK.C16_alternating_removed: propext, Classical.choice, Quot.sound
SFK.C17_filter_not_TVD: propext, Classical.choice, Quot.sound
SFK.C17_filter_TV_bound_partial: propext, Classical.choice, Quot.sound
SFK.C18_points: propext, Classical.choice, Quot.sound
SFK.C18_single_point_is_bad: propext, Classical.choice, Quot.sound
SFK.C19_coefficients: propext, Classical.choice, Quot.sound
SFK.C19_values: propext, Classical.choice, Quot.sound
SFK.C19_round_trip: propext, Classical.choice, Quot.sound
SFK.C19_argument_is_clobbered: propext, Classical.choice, Quot.sound
SFK.C20_action: propext, Classical.choice, Quot.sound
SFK.C20_exact_partial: propext, Classical.choice, Quot.sound
SFK.C20_top_degrees_violated: propext, Classical.choice, Quot.sound
SFK.C21_filter_damps: propext, Classical.choice, Quot.sound
SFK.C21_constants_unchanged: propext, Classical.choice, Quot.sound
SFK.C22_uninitialised_read: propext, Classical.choice, Quot.sound
SFK.C22_wrappers: propext, Classical.choice, Quot.sound
SFK.C22_no_uninitialised_memory_partial: propext, Classical.choice, Quot.sound
SFK.C22_round_trip: propext, Classical.choice, Quot.sound
SFK.C22_round_trip_complex: propext, Classical.choice, Quot.sound
SFK.C22_gradient_uninitialised: propext, Classical.choice, Quot.sound
SFK.C23_action: propext, Classical.choice, Quot.sound
SFK.C23_laplacian_partial: propext, Classical.choice, Quot.sound
SFK.C23_top_degree_violated: propext, Classical.choice, Quot.sound
SFK.C23_true_laplacian_partial: propext, Classical.choice, Quot.sound
SFK.C24_action: propext, Classical.choice, Quot.sound
SFK.C24_partial_phi_partial: propext, Classical.choice, Quot.sound
SFK.C24_axisymmetric_partial: propext, Classical.choice, Quot.sound
SFK.C24_top_degree_violated: propext, Classical.choice, Quot.sound
SFK.C24_true_derivative_partial: propext, Classical.choice, Quot.sound
SFK.C25_ladder: propext, Classical.choice, Quot.sound
SFK.C25_true_ladder_partial: propext, Classical.choice, Quot.sound
SFK.C26_garbage_term: propext, Classical.choice, Quot.sound
SFK.C26_gradient_partial: propext, Classical.choice, Quot.sound
SFK.C26_nonneg_partial: propext, Classical.choice, Quot.sound
SFK.C26_top_degree_violated: propext, Classical.choice, Quot.sound
SFK.C27_action: propext, Classical.choice, Quot.sound
SFK.C27_sum_partial: propext, Classical.choice, Quot.sound
SFK.C27_nonneg_quadratic: propext, Classical.choice, Quot.sound
SFK.C27_faithful_partial: propext, Classical.choice, Quot.sound
SFK.C27_top_degree_dropped: propext, Classical.choice, Quot.sound
SFK.C27_top_order_dropped: propext, Classical.choice, Quot.sound
SFK.C28_unit_coefficient: propext, Classical.choice, Quot.sound
SFK.C28_out_of_contract: propext, Classical.choice, Quot.sound
SFK.C28_samples: propext, Classical.choice, Quot.sound
SFK.C29_action: propext, Classical.choice, Quot.sound
SFK.C29_only_damps: propext, Classical.choice, Quot.sound
SFK.C29_filter_partial: propext, Classical.choice, Quot.sound
SFK.C29_top_modes_undamped: propext, Classical.choice, Quot.sound
SFK.C30_angular_partial: propext, Classical.choice, Quot.sound
SFK.C30_radial_filter_missing: propext, Classical.choice, Quot.sound
SFK.C31_radial_operators: propext, Classical.choice, Quot.sound
SFK.C31_angular_operators: propext, Classical.choice, Quot.sound
SFK.C31_spectrum: propext, Classical.choice, Quot.sound
SFK.C32_chain_rule: propext, Classical.choice, Quot.sound
SFK.C33_shell_loops: propext, Classical.choice, Quot.sound
SFK.C33_line_loops: propext, Classical.choice, Quot.sound
SFK.C33_filter: propext, Classical.choice, Quot.sound
SFK.C33_spectrum: propext, Classical.choice, Quot.sound
SFK.C33_shift: propext, Classical.choice, Quot.sound
SFK.C33_set_level: propext, Classical.choice, Quot.sound
SFK.C34_rhs_sections: propext, Classical.choice, Quot.sound
SFK.C34_rhs: propext, Classical.choice, Quot.sound
SFK.C34_density: propext, Classical.choice, Quot.sound
SFK.C34_filters: propext, Classical.choice, Quot.sound
SFK.C34_time_step: propext, Classical.choice, Quot.sound
SFK.C35_residual_norm: propext, Classical.choice, Quot.sound
SFK.C35_total_variation: propext, Classical.choice, Quot.sound
SFK.C36_residual_norm: propext, Classical.choice, Quot.sound
SFK.C37_value: propext, Classical.choice, Quot.sound
SFK.C37_total_variation_partial: propext, Classical.choice, Quot.sound
SFK.C37_blind_corner: propext, Classical.choice, Quot.sound
SFK.C37_blind_axisymmetric: propext, Classical.choice, Quot.sound
SFK.C38_coefficients: propext, Classical.choice, Quot.sound
SFK.C39_equation_of_motion: propext, Classical.choice, Quot.sound
SFK.C40_derivatives_consistent: propext, Classical.choice, Quot.sound
SFK.C40_pole_even_without_km1: propext, Classical.choice, Quot.sound
SFK.C41_no_boundary_condition: propext, Classical.choice, Quot.sound
SFK.C42_half_of_documented_partial: propext, Classical.choice, Quot.sound
SFK.C43_nonnegative: propext, Classical.choice, Quot.sound
SFK.C44_rk4_bitwise: propext, Classical.choice, Quot.sound
SFK.C44_rk4: propext, Classical.choice, Quot.sound
SFK.C45_no_stale_data: propext, Classical.choice, Quot.sound
SFK.C46_other_level: propext, Classical.choice, Quot.sound
SFK.C47_construction: propext
SFK.C47_shift: propext, Classical.choice, Quot.sound
SFK.C48_vacuum_stays: propext, Classical.choice, Quot.sound
SFK.C48_vacuum_density: propext, Classical.choice, Quot.sound
SFK.C49_superposition: propext, Classical.choice, Quot.sound
SFK.C50_reflection: propext, Classical.choice, Quot.sound
SFK.C51_gradient_not_axisymmetric: propext, Classical.choice, Quot.sound
SFK.C51_axisymmetry_violated: propext, Classical.choice, Quot.sound
SFK.C51_rotation_partial: propext, Classical.choice, Quot.sound
SFK.C51_axisymmetry_partial: propext, Classical.choice, Quot.sound
SFK.C52_profile_and_slope: propext, Classical.choice, Quot.sound
SFK.C52_empty_support: propext, Classical.choice, Quot.sound
SFK.C53_initial_amplitude: propext, Classical.choice, Quot.sound
SFK.C54_initial_values: propext, Classical.choice, Quot.sound
SFK.C55_initialised_partial: propext, Classical.choice, Quot.sound
SFK.C55_chebyshev_skips_horizon: propext, Classical.choice, Quot.sound
SFK.C56_lookup: propext, Classical.choice, Quot.sound
SFK.C56_absent: propext, Classical.choice, Quot.sound
SFK.C56_other_lines: propext, Classical.choice, Quot.sound
SFK.C56_parameters: propext, Classical.choice, Quot.sound
SFK.C57_missing_stops: propext, Classical.choice, Quot.sound
SFK.C57_exit_status_is_success: propext, Classical.choice, Quot.sound
SFK.C57_no_effect: propext, Classical.choice, Quot.sound
SFK.C58_integer_text: propext, Classical.choice, Quot.sound
SFK.C58_sizes_exact: propext, Classical.choice, Quot.sound
SFK.C58_too_large: propext, Classical.choice, Quot.sound
SFK.C58_negative_size_wraps: propext, Classical.choice, Quot.sound
SFK.C59_roundtrip: propext, Classical.choice, Quot.sound
SFK.C59_first_word: propext, Classical.choice, Quot.sound
SFK.C60_spectrum_file: propext, Classical.choice, Quot.sound
SFK.C60_chebyshev_spectrum_file: propext, Classical.choice, Quot.sound
SFK.C60_plain_file: propext, Classical.choice, Quot.sound
SFK.C60_unwritable_skipped: propext, Classical.choice, Quot.sound
SFK.C61_log_value: propext, Classical.choice, Quot.sound
SFK.C61_monotone: propext, Classical.choice, Quot.sound
SFK.C62_distinct_files: propext, Classical.choice, Quot.sound
SFK.C62_one_block_per_file: propext, Classical.choice, Quot.sound
SFK.C62_rerun_appends: propext, Classical.choice, Quot.sound
SFK.C63_save_schedule: propext, Classical.choice, Quot.sound
SFK.C63_printed_lines: propext, Classical.choice, Quot.sound
SFK.C64_printed_time_partial: propext, Classical.choice, Quot.sound
SFK.C64_last_step_not_taken: propext, Classical.choice, Quot.sound
SFK.C64_time_exact_partial: propext, Classical.choice, Quot.sound
SFK.C65_launcher_interval_positive: propext, Quot.sound
SFK.C65_zero_interval_undefined: propext, Classical.choice, Quot.sound
SFK.C66_valid_run_is_safe: propext, Classical.choice, Quot.sound
SFK.C66_valid_main_is_safe: propext, Classical.choice, Quot.sound
SFK.C67_number_of_saves: propext, Classical.choice, Quot.sound
SFK.C68_reproducible_partial: propext, Classical.choice, Quot.sound
SFK.C68_reproducible_main_partial: propext, Classical.choice, Quot.sound
SFK.C69_history_exists: propext, Classical.choice, Quot.sound
SFK.C69_history_unique: propext, Classical.choice, Quot.sound
SFK.C69_loop_follows_history: propext, Classical.choice, Quot.sound
SFK.C70_documented_prefactor_partial: propext, Classical.choice, Quot.sound
SFK.C70_prefactor_differs: propext, Classical.choice, Quot.sound
SFK.C71_crash_consistency: propext, Classical.choice, Quot.sound
SFK.C72_coefficients_partial: propext, Classical.choice, Quot.sound
SFK.C72_negative_coefficient_lost: propext, Classical.choice, Quot.sound
SFK.C73_point_file: propext, Classical.choice, Quot.sound
SFK.C74_small_free_fields_stay_finite: propext, Classical.choice, Quot.sound
SFK.C75_finite_iff: propext, Classical.choice, Quot.sound
SFK.C76_fd: propext, Quot.sound
SFK.C76_cheb: propext, Quot.sound
SFK.C76_sphere: propext, Quot.sound
SFK.C76_constructors: propext, Classical.choice, Quot.sound
SFK.C76_rows: propext, Quot.sound
SFK.C76_grid: propext, Classical.choice, Quot.sound
SFK.C76_evolution: propext, Classical.choice, Quot.sound
SFK.C77_background_is_kerr: propext, Classical.choice, Quot.sound
SFK.C77_wave_operator: propext, Classical.choice, Quot.sound
SFK.C77_printed_line_element_differs: propext, Classical.choice, Quot.sound
SFK.C77_covariant_equation: propext, Classical.choice, Quot.sound
SFK.C78_density_partial: propext, Classical.choice, Quot.sound
SFK.C79_exact_on_resolved: propext, Classical.choice, Quot.sound
SFK.C80_solution_exists: propext, Classical.choice, Quot.sound
SFK.C80_fourth_order: propext, Classical.choice, Quot.sound
SFK.C81_time_step: propext, Classical.choice, Quot.sound
SFK.C81_number_of_steps: propext, Classical.choice, Quot.sound
SFK.C81_domain: propext, Classical.choice, Quot.sound
SFK.C81_courant: propext, Classical.choice, Quot.sound
SFK.C81_courant_exceeded: propext, Classical.choice, Quot.sound
SFK.C81_pulse: propext, Classical.choice, Quot.sound
SFK.C81_covers_time_partial: propext, Classical.choice, Quot.sound
SFK.C82_ladder_partial: propext, Classical.choice, Quot.sound
SFK.C82_complete_degrees_partial: propext, Classical.choice, Quot.sound
SFK.C82_misaddressed: propext, Classical.choice, Quot.sound
SFK.C82_not_ladder: propext, Classical.choice, Quot.sound
SFK.C83_infinity_partial: propext, Classical.choice, Quot.sound
SFK.C83_solution_at_infinity: propext, Classical.choice, Quot.sound
SFK.C83_refinement_fails: propext, Classical.choice, Quot.sound
SFK.C84_consistency: propext, Classical.choice, Quot.sound
SFK.C85_recompiled_binary_used: propext, Classical.choice, Quot.sound
SFK.C85_existing_files_untouched: propext, Classical.choice, Quot.sound
SFK.C85_earlier_runs_kept: propext, Classical.choice, Quot.sound
SFK.C85_existing_directory_refused: propext, Classical.choice, Quot.sound
SFK.C85_relaunch_nests: propext, Classical.choice, Quot.sound
SFK.C86_end_to_end: propext, Classical.choice, Quot.sound
SFK.C86_tables: propext, Classical.choice, Quot.sound
SFK.C87_failure_unnoticed: propext, Classical.choice, Quot.sound
SFK.C87_overspinning_writes_nothing: propext, Classical.choice, Quot.sound
SFK.C88_own_switches_partial: propext, Classical.choice, Quot.sound
SFK.C88_up_to_date: propext, Classical.choice, Quot.sound
SFK.C88_edits_rebuilt: propext, Classical.choice, Quot.sound
SFK.C88_first_build_decides: propext, Classical.choice, Quot.sound
SFK.C88_config_partial: propext, Classical.choice, Quot.sound
SFK.C88_config_stale: propext, Classical.choice, Quot.sound
SFK.C88_recompile_wrong: propext, Classical.choice, Quot.sound
SFK.C88_mixed_binary: propext, Classical.choice, Quot.sound
SFK.C89_best_approximation: propext, Classical.choice, Quot.sound
SFK.C89_spectral: propext, Classical.choice, Quot.sound
SFK.C90_consistency: propext, Classical.choice, Quot.sound
SFK.C91_fd_eighth_order: propext, Classical.choice, Quot.sound
SFK.C91_cheb_sixteenth_order: propext, Classical.choice, Quot.sound
SFK.C91_cheb_sharp: propext, Classical.choice, Quot.sound
SFK.C92_exact: propext, Classical.choice, Quot.sound
SFK.C92_safe_partial: propext, Classical.choice, Quot.sound
SFK.C92_fd: propext, Classical.choice, Quot.sound
SFK.C92_grid_destruction_ub: propext, Classical.choice, Quot.sound
SFK.C92_two_chebs_ub: propext, Quot.sound
SFK.C93_rounding_error_of_the_evolution: propext, Classical.choice, Quot.sound
SFK.C93_documented_libraries_have_matrices: propext, Classical.choice, Quot.sound
SFK.C94_residual_norm_in_floating_point: propext, Classical.choice, Quot.sound
SFK.C94_residual_norm_in_index_order: propext, Classical.choice, Quot.sound
SFK.C94_total_variation_in_floating_point: propext, Classical.choice, Quot.sound
SFK.C94_binary_formats: propext, Classical.choice, Quot.sound
SFK.C95_spherical_symmetry: propext, Classical.choice, Quot.sound
SFK.C95_filter_neutral: propext, Classical.choice, Quot.sound
SFK.C96_converges_fourth_order: propext, Classical.choice, Quot.sound
SFK.C96_solution_symmetric: propext, Classical.choice, Quot.sound
SFK.C97_filter_limit: propext, Classical.choice, Quot.sound
SFK.C97_limit_harmonics: propext, Classical.choice, Quot.sound
SFK.C97_refinement_limit: propext, Classical.choice, Quot.sound
SFK.C97_limit_solution_exists: propext, Classical.choice, Quot.sound
SFK.C98_test_program_partial: propext, Classical.choice, Quot.sound
SFK.C98_source_edits_tested: propext, Classical.choice, Quot.sound
SFK.C98_header_edits_missed: propext, Classical.choice, Quot.sound
SFK.C98_tests_leak_into_solver: propext, Classical.choice, Quot.sound
SFK.C98_layouts_mixed: propext, Classical.choice, Quot.sound
SFK.C98_solver_leaks_into_tests: propext, Classical.choice, Quot.sound
SFK.C99_job_runs_the_settings: propext, Classical.choice, Quot.sound
SFK.C99_relative_path_not_queued: propext, Classical.choice, Quot.sound
SFK.C100_window: propext, Classical.choice, Quot.sound
SFK.C100_outer: propext, Classical.choice, Quot.sound
SFK.C100_inner: propext, Classical.choice, Quot.sound
SFK.C100_density: propext, Classical.choice, Quot.sound
SFK.C100_front: propext, Classical.choice, Quot.sound
SFK.C101_cheb_filter_verdict: propext, Classical.choice, Quot.sound
SFK.C101_cheb_filter_monotone: propext, Classical.choice, Quot.sound
SFK.C101_cheb_filter: propext, Classical.choice, Quot.sound
SFK.C101_fd_derivatives_verdict: propext, Classical.choice, Quot.sound
SFK.C101_fd_derivatives: propext, Classical.choice, Quot.sound
SFK.C101_fd_derivatives_exact_fails: propext, Classical.choice, Quot.sound
SFK.C101_sphere_filter_verdict: propext, Classical.choice, Quot.sound
SFK.C101_sphere_filter_identity: propext, Classical.choice, Quot.sound
SFK.C101_sphere_filter: propext, Classical.choice, Quot.sound
SFK.C101_sphere_filter_constant_noise: propext, Classical.choice, Quot.sound
SFK.C101_cheb_to_and_from: propext, Classical.choice, Quot.sound
SFK.C101_cheb_derivatives: propext, Classical.choice, Quot.sound
SFK.C101_cheb_derivatives_detects: propext, Classical.choice, Quot.sound
SFK.C101_fd_filter_monotone: propext, Classical.choice, Quot.sound
SFK.C101_fd_filter_constant_noise: propext, Classical.choice, Quot.sound
SFK.C101_sphereX_verdict: propext, Classical.choice, Quot.sound
SFK.C101_sphereX_zero: propext, Classical.choice, Quot.sound
SFK.C101_sphereX_garbage: propext, Classical.choice, Quot.sound
SFK.C101_make_Ylm: propext, Classical.choice, Quot.sound
SFK.C101_to_and_from: propext, Classical.choice, Quot.sound
SFK.C101_partial_phi: propext, Classical.choice, Quot.sound
SFK.C101_partial_phi_detects: propext, Classical.choice, Quot.sound
SFK.C101_laplace_beltrami: propext, Classical.choice, Quot.sound
SFK.C101_laplace_beltrami_detects: propext, Classical.choice, Quot.sound
SFK.C101_raise_detects: propext, Classical.choice, Quot.sound
SFK.C101_raise_only: propext, Classical.choice, Quot.sound
SFK.C101_raise_and_lower: propext, Classical.choice, Quot.sound
SFK.C102_references: propext, Classical.choice, Quot.sound
SFK.C102_gradient_reference_wrong: propext, Classical.choice, Quot.sound
SFK.C102_gradient_reference_strict: propext, Classical.choice, Quot.sound
SFK.C102_norms: propext, Classical.choice, Quot.sound
SFK.C102_variations: propext, Classical.choice, Quot.sound
SFK.C102_completes: propext, Classical.choice, Quot.sound
SFK.C102_tvd_completes: propext, Classical.choice, Quot.sound
SFK.C103_rescaled_evolution: propext, Classical.choice, Quot.sound
SFK.C103_rescaled_density: propext, Classical.choice, Quot.sound
SFK.C103_rescaled_pulse: propext, Classical.choice, Quot.sound
SFK.C103_rescaled_run: propext, Classical.choice, Quot.sound
SFK.C103_thresholds_are_absolute: propext, Classical.choice, Quot.sound
SFK.C104_reflection_partial: propext, Classical.choice, Quot.sound
SFK.C104_symmetric_states_partial: propext, Classical.choice, Quot.sound
SFK.C104_antisymmetric_states_partial: propext, Classical.choice, Quot.sound
SFK.C104_density_partial: propext, Classical.choice, Quot.sound
SFK.C104_reflection_violated: propext, Classical.choice, Quot.sound
SFK.C105_azimuthal_harmonics: propext, Classical.choice, Quot.sound
SFK.C106_spherical_harmonics: propext, Classical.choice, Quot.sound
SFK.C107_same_degree_partial: propext, Classical.choice, Quot.sound
SFK.C107_same_degree_violated: propext, Classical.choice, Quot.sound
SFK.C108_text_partial: propext, Classical.choice, Quot.sound
SFK.C108_exact: propext, Classical.choice, Quot.sound
SFK.C108_nearest: propext, Classical.choice, Quot.sound
SFK.C108_monotone: propext, Classical.choice, Quot.sound
SFK.C108_digits_lost: propext, Classical.choice, Quot.sound
SFK.C108_seventeen: propext, Classical.choice, Quot.sound
SFK.C108_table: propext, Classical.choice, Quot.sound
SFK.C109_one_degree: propext, Classical.choice, Quot.sound
SFK.C109_weak_pulses_stay_finite: propext, Classical.choice, Quot.sound
SFK.C110_selection_rules: propext, Classical.choice, Quot.sound
SFK.C111_reversed_derivatives_partial: propext, Classical.choice, Quot.sound
SFK.C111_reversed_density_partial: propext, Classical.choice, Quot.sound
SFK.C111_reversed_violated: propext, Classical.choice, Quot.sound
SFK.C111_no_spin: propext, Classical.choice, Quot.sound
SFK.C112_overall_factor: propext, Classical.choice, Quot.sound
SFK.C112_density_factor: propext, Classical.choice, Quot.sound
SFK.C113_unit_of_field_partial: propext, Classical.choice, Quot.sound
SFK.C113_density_partial: propext, Classical.choice, Quot.sound
SFK.C113_pole_is_absolute: propext, Classical.choice, Quot.sound
SFK.C114_shift_partial: propext, Classical.choice, Quot.sound
SFK.C114_density_partial: propext, Classical.choice, Quot.sound
SFK.C114_pole_is_absolute: propext, Classical.choice, Quot.sound
SFK.C115_outermost_shell_is_infinity: propext, Classical.choice, Quot.sound
SFK.C115_outermost_inverse_radius_in_floating_point_partial: propext, Classical.choice, Quot.sound
SFK.C115_negative_radius_in_binary64: propext, Classical.choice, Quot.sound
SFK.C116_build_after_clean: propext, Classical.choice, Quot.sound
SFK.C116_clean_removes_what_was_built: propext, Classical.choice, Quot.sound
SFK.C116_results_kept_partial: propext, Classical.choice, Quot.sound
SFK.C116_clean_deletes_results: propext, Classical.choice, Quot.sound
SFK.C117_whole_number_of_steps: propext, Classical.choice, Quot.sound
SFK.C117_number_of_steps_in_floating_point_partial: propext, Classical.choice, Quot.sound
SFK.C117_one_step_short_in_binary64: propext, Classical.choice, Quot.sound
SFK.C118_line: propext, Classical.choice, Quot.sound
SFK.C118_times_in_order_partial: propext, Classical.choice, Quot.sound
SFK.C118_times_indistinguishable: propext, Classical.choice, Quot.sound
SFK.C119_radial_points_in_floating_point: propext, Classical.choice, Quot.sound
SFK.C120_record: propext, Classical.choice, Quot.sound
SFK.C120_log_determines_parameters: propext, Classical.choice, Quot.sound
SFK.C120_rerun_from_log: propext, Classical.choice, Quot.sound
SFK.C120_missing_is_named: propext, Classical.choice, Quot.sound
SFK.C120_malformed_is_shown: propext, Classical.choice, Quot.sound
SFK.C121_rotated_table: propext, Classical.choice, Quot.sound
SFK.C121_reversed_table: propext, Classical.choice, Quot.sound
SFK.C121_mirrored_table: propext, Classical.choice, Quot.sound
SFK.C121_opposite_table: propext, Classical.choice, Quot.sound
SFK.C121_rotated_run_partial: propext, Classical.choice, Quot.sound
SFK.C121_mirrored_run_partial: propext, Classical.choice, Quot.sound
SFK.C121_reversed_run: propext, Classical.choice, Quot.sound
SFK.C121_opposite_run: propext, Classical.choice, Quot.sound
SFK.C121_rotated_density_partial: propext, Classical.choice, Quot.sound
SFK.C121_mirrored_density_partial: propext, Classical.choice, Quot.sound
SFK.C122_even_states_partial: propext, Classical.choice, Quot.sound
SFK.C122_odd_states_partial: propext, Classical.choice, Quot.sound
SFK.C122_turned_states_partial: propext, Classical.choice, Quot.sound
SFK.C122_parity_table: propext, Classical.choice, Quot.sound
SFK.C122_turned_table: propext, Classical.choice, Quot.sound
SFK.C122_even_run_partial: propext, Classical.choice, Quot.sound
SFK.C122_odd_run_partial: propext, Classical.choice, Quot.sound
SFK.C123_continuous_dependence: propext, Classical.choice, Quot.sound
SFK.C123_weak_fields_stay_finite: propext, Classical.choice, Quot.sound

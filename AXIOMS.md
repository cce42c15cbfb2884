# Axioms each theorem depends on

Generated by tools/axioms.py from `#print axioms`.

## propext (5 theorems)

* C13_copy_of_empty_ub
* C30_malformed_range
* C33_stale_device_points
* C47_gwdr
* C47_lcr_partial

## propext, Classical.choice, Quot.sound (607 theorems)

* C01_fixed_total
* C01_weights_proper
* C02_support_adaptive
* C02_support_fixed
* C03_weight_mono_bandwidth
* C04_adaptive_fractional
* C04_adaptive_integer
* C04_adaptive_large
* C04_adaptive_neighbours
* C04_adaptive_rejected
* C04_adaptive_rejected_how
* C05_weight_equivariant
* C06_adaptive_agree_partial
* C06_boxcar_boundary_differs
* C06_fixed_agree_partial
* C06_fractional_differs
* C06_large_differs
* C07_planar_metric
* C07_rigid_invariant
* C08_max_min_errors
* C08_max_min_sharp
* C08_oneDim_sharp
* C08_spaceTime_sharp
* C09_dmat_protocol
* C09_dmat_violates
* C09_make_reports
* C09_oneDim_formula
* C09_oneDim_make_reports
* C09_oneDim_protocol
* C09_query_protocol
* C09_st_accepted
* C09_st_make_reports
* C09_st_rejected_still_answers
* C100_aic_value
* C100_cv_value
* C100_fit_is_scalable_regression
* C100_prediction_is_scalable_regression
* C101_basic_prediction_pointwise
* C101_scalable_depends_on_other_locations
* C101_scalable_prediction_at_data
* C102_auto_fit_range
* C102_auto_fit_uses_selected
* C102_criterion
* C102_fit_uses_selected
* C102_second_fit_undefined
* C102_selected_variables
* C102_selection_ignores_bandwidth
* C103_adaptive_fit_is_local_ridge
* C103_any_choice
* C103_any_fit
* C103_auto_fit_is_local_ridge
* C103_bandwidth_choice
* C103_diagnostics
* C103_fit_is_local_ridge
* C103_modes_agree
* C103_prediction_is_local_ridge
* C104_adaptive_fit_is_gtwr
* C104_any_fit
* C104_any_lambda
* C104_any_run
* C104_bandwidth_choice
* C104_fit_is_gtwr
* C104_lambda_near_peak
* C104_objective
* C104_radius_zero_is_worst
* C104_run
* C105_linear_scores
* C105_quadratic_rule_fails
* C105_quadratic_rule_partial
* C105_quadratic_scores
* C106_linear_run
* C106_published
* C107_logistic_diagnostics
* C107_logistic_trace
* C107_poisson_diagnostics
* C107_poisson_trace
* C108_adaptive_fit
* C108_any_choice
* C108_any_fit
* C108_bandwidth_choice
* C108_calibration
* C108_criterion
* C108_fit
* C109_local_likelihood_fails
* C109_local_likelihood_partial
* C10_clone_same_partial
* C10_dmat_clone_differs
* C10_oneDim_clone_differs
* C10_oneDim_clone_throws
* C10_st_clone_configured
* C10_st_clone_throws
* C110_adaptive_fit
* C110_any_choice
* C110_any_fit
* C110_bandwidth_choice
* C110_fit
* C111_predict_at_data_fails
* C111_predict_at_data_partial
* C111_prediction
* C112_fit
* C112_parallel_fails
* C112_success
* C113_auto_fit
* C113_small_units_fail
* C113_small_units_given
* C113_start
* C114_both
* C114_selection
* C115_average
* C115_correlation
* C115_quantiles
* C115_quantiles_need_four
* C116_average_units
* C116_correlation_units
* C116_map
* C117_invariance
* C117_run
* C117_sdev_wrong
* C118_fit
* C118_predict
* C119_auto_fit
* C119_criterion
* C119_small_map
* C119_small_response
* C11_dispatch_partial
* C11_general_p_throws
* C11_geographic
* C11_max_too_small
* C11_p1_not_manhattan
* C11_rotated
* C11_rotation_isometry
* C120_auto_fit
* C120_criterion
* C120_fit
* C120_parallel_selects_zeros
* C121_covariates
* C121_known_effect
* C121_map
* C121_response
* C122_report
* C122_trace_depends_on_units
* C122_units
* C123_cancelled_object
* C123_cancelled_prediction_shape
* C123_given_bandwidth
* C123_new_object
* C123_refit
* C123_status
* C123_success_certifies_fit
* C123_success_certifies_prediction
* C123_terminated_fit
* C123_terminated_never_searches
* C124_device_distances
* C124_gpu_fit_partial
* C124_gpu_predict_partial
* C124_gpu_small_data
* C124_minkowski_ignored
* C125_gpu_auto_fit_partial
* C125_gpu_criterion_partial
* C125_gpu_search_prefers_undefined
* C125_undefined_is_zero_fit
* C126_gpu_criterion_partial
* C126_gpu_selects_zeros
* C126_gpu_var_auto_fit_partial
* C126_gpu_var_fit_partial
* C126_undetermined_is_zero_fit
* C127_basic_fit
* C127_basic_range
* C127_few_observations
* C127_generalised_range
* C127_gpu_range
* C127_multiscale_initial
* C127_multiscale_range
* C127_ridge_range
* C127_robust_range
* C127_search_starts
* C127_spacetime_range
* C127_spacetime_range_is_astronomic
* C128_asked_for
* C128_data_entry
* C128_failed_call_changes_nothing
* C128_fit_partial
* C128_location_not_stored
* C128_location_throws
* C128_location_two_calls
* C128_minkowski_settings_ignored
* C128_missing_settings
* C128_predict_elsewhere
* C128_predict_partial
* C128_runs_independent
* C128_selecting_fit_partial
* C128_small_data
* C129_copies_are_values_partial
* C129_copies_lose_diagnostics
* C129_copy_without_distance
* C129_fit_diagnostics_not_zero
* C129_memory_lost
* C12_combine_nonneg_mono
* C12_constructor_unchecked
* C12_distance_nonneg
* C12_formula
* C12_lambda_one
* C12_lambda_range_partial
* C12_lambda_zero
* C12_makeParameter_accepts
* C12_orthogonal_vs_oblique
* C12_setLambda
* C130_calibration_over_one
* C130_gpu
* C130_parallel_failed
* C130_parallel_jumps
* C130_parallel_partial
* C130_percent_back
* C130_percent_successive
* C130_scalable
* C130_search_percent
* C130_selection
* C130_serial_runs
* C130_simplex_over_one
* C131_accepted_never_preferred
* C131_density
* C131_parallel_dies
* C131_ridge_components
* C131_serial_reports
* C131_spacetime
* C132_memory_is_lost
* C132_program_partial
* C132_selection_partial
* C133_exact_data
* C133_in_step_partial
* C133_never_negative
* C133_one_process
* C134_default_races
* C134_failure_races
* C134_no_race
* C134_private_cell
* C134_results
* C134_ridge_members_lost
* C134_ridge_results
* C135_diagnostics
* C135_run
* C135_same_report
* C136_given_kept
* C136_refit_partial
* C136_second_fit
* C136_second_fit_differs
* C136_settled_kept
* C137_any_angle
* C137_default_fails
* C137_obtuse_fails
* C138_density
* C138_generalised_partial
* C138_robust
* C138_spacetime
* C139_density
* C139_robust
* C139_spacetime
* C13_value_semantics
* C140_basic
* C140_density
* C140_density_criteria
* C140_robust
* C140_spacetime
* C141_equal_weights
* C141_matrix
* C141_pairs
* C141_pairs_unit_fails
* C141_shape
* C141_weights_unit
* C142_del_partial
* C142_single_fails
* C143_average
* C143_components_fails
* C143_components_partial
* C143_correlation
* C143_ridge
* C143_ties_fails
* C144_classes
* C144_probabilities_fails
* C145_fit
* C145_selection
* C145_selection_modes
* C146_effect_fails
* C146_effect_without_ridge
* C146_unit
* C146_unit_prediction
* C147_any_analysis
* C147_any_regression
* C147_any_robust
* C147_basic_selection
* C147_basic_selection_any_mode
* C147_components
* C147_density
* C147_density_selection
* C147_discriminant
* C147_drawings
* C147_exact_scale_fails
* C147_generalised
* C147_generalised_selected_distance
* C147_generalised_selection
* C147_multiscale
* C147_ridge
* C147_ridge_selected_distance
* C147_ridge_selection
* C147_robust
* C147_robust_selection
* C147_scalable
* C147_selected_distance
* C147_spacetime
* C14_returns_best_evaluated
* C14_unimodal_converges
* C15_adaptive_leaves_bounds
* C15_adaptive_near_bounds_partial
* C15_fixed_within_bounds
* C16_call_bound
* C16_interval_shrinks
* C16_stops_after_failure
* C17_failure_protocol
* C17_kernel_kind_kept
* C18_criterion_list
* C19_failure_returns_candidates
* C19_greedy_search
* C19_reported_list
* C20_no_gap_undefined
* C20_selected_was_visited
* C20_selects_last_gap_partial
* C20_selects_stage_loser
* C20_single_candidate_undefined
* C21_fit_is_weighted_least_squares
* C21_fit_succeeds_iff
* C21_normal_equations
* C21_prediction_is_weighted_least_squares
* C22_exact_law
* C22_exact_law_prediction
* C23_linear_in_response
* C23_weight_scale
* C23_zero_weight_ignored
* C24_criterion_from_coordinates
* C24_own_observation_unused
* C24_score_is_leave_one_out
* C25_fitted_eq_hat_mul
* C25_hat_reproduces_covariates
* C25_qdiag
* C25_se_terms
* C25_traces
* C25_traces_independent_of_storage
* C26_criterion_aicc
* C26_criterion_from_coordinates
* C26_diagnostics
* C26_formulas
* C26_rsquare
* C26_standard_errors
* C27_fit_parallel_eq_serial
* C27_predict_parallel_eq_serial
* C28_criteria_equal_partial
* C28_same_fit
* C28_same_search
* C28_singular_criteria_differ
* C29_cancelled_criterion_never_wins
* C29_cancelled_run_is_marked
* C30_aic_any_arrival_order
* C30_cv_any_arrival_order
* C30_fit_any_arrival_order
* C30_fit_fails_without_work
* C30_ranges_partition
* C31_combined
* C31_negative_coefficients_lost
* C31_nonneg_partial
* C32_overflow
* C32_product_partial
* C33_cv_cuda_partial
* C33_fit_cuda_partial
* C33_groups_cover_once
* C33_launch_once
* C33_predict_cuda_partial
* C33_predict_other_count_fails
* C33_shat_cuda
* C33_singular_reported
* C33_small_data_cv_zero
* C33_small_data_fails
* C33_stale_trace
* C34_any_order
* C34_diagnostics
* C34_hat_matrices
* C34_parallel_agrees
* C35_ends_when_converged
* C35_frozen_iff_converged
* C35_frozen_never_changes
* C35_iteration_limit
* C35_returns
* C36_coefficients
* C36_normal_equations
* C36_scale_zero
* C36_slots
* C37_cv_small_bandwidth_fails
* C37_neighbours
* C37_search_lists
* C37_works_partial
* C38_lambda
* C38_small_threshold
* C39_lcr_enp_grows
* C39_lcr_parallel_repeatable
* C39_scalable_second_fit_fails
* C40_correlation
* C40_correlation_run
* C40_correlation_table
* C40_mean_between
* C40_shape
* C40_variance
* C41_columns
* C41_too_few
* C42_defined_iff
* C42_quartiles_partial
* C42_two_points_undefined
* C43_first_method
* C43_perfect_fit_fails
* C43_result_is_weighted_least_squares
* C43_second_method
* C43_second_method_steps
* C43_weight_function
* C44_fit_uses_selected
* C44_lambda_in_range
* C44_search_ends
* C45_correct_rate
* C45_entropy
* C45_entropy_formula
* C45_group
* C45_levels
* C45_partition
* C45_sizes
* C46_binomial_deviance
* C46_binomial_deviance_sign
* C46_binomial_fit_completes
* C46_binomial_fit_deviance
* C46_binomial_fixed_point
* C46_binomial_link_domain
* C46_binomial_link_linkinv
* C46_binomial_linkinv_link
* C46_binomial_muEta
* C46_binomial_range
* C46_binomial_stationary
* C46_iteration_limit
* C46_iteration_wls
* C46_poisson_clamped
* C46_poisson_deviance
* C46_poisson_deviance_sign
* C46_poisson_fit_completes
* C46_poisson_fit_deviance
* C46_poisson_fixed_point
* C46_poisson_link_linkinv
* C46_poisson_linkinv_link
* C46_poisson_muEta
* C46_poisson_pseudo_r2
* C46_poisson_range
* C46_poisson_stationary
* C46_reported_state
* C47_basic_partial
* C47_default_violates
* C47_generalized_partial
* C48_basic
* C48_generalized_partial
* C48_multiscale_violates
* C48_regression_data_violates
* C48_storeS_partial
* C48_storeS_violates
* C49_batched_move
* C49_copy_of_smaller_ub
* C49_copy_to_default_leaks
* C49_freed_once_partial
* C49_move_assignment_leaks
* C49_moved_from_twice
* C49_moved_view
* C49_self_move_leaks
* C49_transpose_to_moved_from
* C50_predict_at_data_eq_fit
* C50_prediction_depends_on_location_only
* C51_reordering
* C51_reordering_selection
* C51_rigid_motion
* C52_gwss_rows_unchecked
* C52_missing_distance_accepted
* C52_no_weight_ub
* C52_unusable_bandwidth_accepted
* C52_validation_partial
* C53_percentages
* C54_aic
* C54_cross_validation
* C54_fit
* C54_fit_is_gwr
* C54_parallel_hides_failures
* C54_product_weights
* C55_geo_accuracy
* C55_geo_finite_iff
* C55_geo_symmetric
* C55_pole_nonfinite
* C55_shortcut_wrong
* C56_edf_nonneg
* C56_enp_range
* C56_leverage
* C57_parallel_selects_unusable
* C57_selected_bandwidth_fits
* C58_ranks
* C58_ties_differ
* C59_average_parallel
* C59_correlation_parallel
* C59_stopped_prefix
* C60_predicts_zero
* C61_adaptive_partial
* C61_fixed_start_wrong
* C61_search_terminates
* C61_small_bandwidth_lost
* C62_components_maximise_variance
* C62_errors
* C62_percentages_are_local_variances
* C62_sdev_partial
* C62_sdev_wrong
* C63_winner_depends_on_sign
* C63_winner_has_largest_loading
* C64_criterion_is_aicc
* C64_criterion_is_leave_one_out
* C64_fixed_point
* C64_update_is_weighted_least_squares
* C65_fit_fails
* C65_initial_fixed_kernel_fails
* C66_centring
* C67_own_point_twice
* C67_own_point_used
* C68_trace_depends_on_units
* C69_exponential_is_gaussian
* C70_exists
* C70_ridge
* C70_zero_is_wls
* C71_collinear_fit_fails
* C71_leverage_too_large
* C71_traces_ignore_ridge
* C72_parallel_predict_dies
* C73_own_response_unused
* C73_predict_eq_fit
* C73_predict_rows
* C73_score
* C73_stopped_score
* C74_equal_ends_stop
* C74_single_peak_partial
* C75_fit_is_weighted_least_squares
* C76_adaptive_uses_future
* C76_future_ignored_partial
* C77_prediction_ignores_location
* C77_prediction_is_fit_of_same_row
* C78_search_range_is_sentinel
* C79_linear_rule
* C80_entropy_bound_partial
* C80_entropy_exceeds_one
* C80_two_classes_no_entropy
* C81_quadratic_needs_all_options
* C82_parallel_differs
* C83_later_runs_agree_partial
* C83_second_run_differs
* C84_negative_probability
* C84_sum_one_partial
* C85_named_class_less_probable
* C85_order_reversed
* C86_correction_partial
* C86_correction_truncated
* C86_correction_vanishes
* C86_division_by_zero
* C87_fit_without_hat_matrix_fails
* C87_predict_fails
* C88_limit_violates
* C88_means_partial
* C89_binomial_deviance
* C89_poisson_deviance
* C89_poisson_pseudo_r2
* C89_proportion_violates
* C90_parallel_cv
* C90_parallel_fit
* C91_parallel_value
* C91_single_thread_partial
* C91_threads_violate
* C92_calibration_completes
* C92_coefficients_wls
* C93_penalty
* C93_penalty_too_large
* C94_aic_throws
* C94_cv_throws
* C95_basic
* C95_generalized_order
* C95_generalized_partial
* C95_generalized_violates
* C95_multiscale_violates
* C95_robust_partial
* C95_robust_violates
* C96_basic
* C96_default_bounds
* C96_robust_violates
* C97_adaptive_kernel_formula
* C97_fixed_kernel_formula
* C98_adaptive_fit_is_gwr
* C98_adaptive_prediction_is_gwr
* C98_auto_fit_is_gwr
* C98_bandwidth_choice
* C98_fit_is_gwr
* C98_fit_succeeds_iff
* C98_prediction_is_gwr
* C99_bandwidths
* C99_diagnostics
* C99_last_variable
* C99_single_predictor

## propext, Quot.sound (19 theorems)

* C13_assign_values
* C13_copy_values
* C13_isolation
* C13_memory_safe
* C13_move_values
* C13_no_leak
* C13_no_sharing
* C13_self_reference_ub
* C13_set_values
* C30_ranges_balanced
* C30_ranges_nonempty
* C33_launch_covers
* C47_gtwr_partial
* C86_correction_few
* C95_discriminant
* C95_lcr_reports_omp
* C95_multiscale_partial
* C95_omp
* C95_summary

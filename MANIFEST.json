{
 "claims": [
  {
   "property": "C01",
   "status": "proved",
   "theorems": [
    "Verif.Props.C01_weights_proper",
    "Verif.Props.C01_fixed_total"
   ],
   "note": ""
  },
  {
   "property": "C02",
   "status": "proved",
   "theorems": [
    "Verif.Props.C02_support_fixed",
    "Verif.Props.C02_support_adaptive"
   ],
   "note": ""
  },
  {
   "property": "C03",
   "status": "proved",
   "theorems": [
    "Verif.Props.C03_weight_mono_bandwidth"
   ],
   "note": ""
  },
  {
   "property": "C04",
   "status": "proved",
   "theorems": [
    "Verif.Props.C04_adaptive_integer",
    "Verif.Props.C04_adaptive_fractional",
    "Verif.Props.C04_adaptive_large",
    "Verif.Props.C04_adaptive_rejected",
    "Verif.Props.C04_adaptive_rejected_how",
    "Verif.Props.C04_adaptive_neighbours"
   ],
   "note": ""
  },
  {
   "property": "C05",
   "status": "proved",
   "theorems": [
    "Verif.Props.C05_weight_equivariant"
   ],
   "note": ""
  },
  {
   "property": "C06",
   "status": "partial",
   "theorems": [
    "Verif.Props.C06_fixed_agree_partial",
    "Verif.Props.C06_adaptive_agree_partial",
    "Verif.Props.C06_boxcar_boundary_differs",
    "Verif.Props.C06_fractional_differs",
    "Verif.Props.C06_large_differs"
   ],
   "note": "CPU and GPU agree for every kernel except boxcar at distance equal to the bandwidth (fixed) and for integral adaptive bandwidths up to n; the remaining disagreements are proved as C06_boxcar_boundary_differs, C06_fractional_differs, C06_large_differs."
  },
  {
   "property": "C07",
   "status": "proved",
   "theorems": [
    "Verif.Props.C07_planar_metric",
    "Verif.Props.C07_rigid_invariant"
   ],
   "note": ""
  },
  {
   "property": "C08",
   "status": "proved",
   "theorems": [
    "Verif.Props.C08_max_min_sharp",
    "Verif.Props.C08_max_min_errors",
    "Verif.Props.C08_oneDim_sharp",
    "Verif.Props.C08_spaceTime_sharp"
   ],
   "note": ""
  },
  {
   "property": "C09",
   "status": "partial",
   "theorems": [
    "Verif.Props.C09_query_protocol",
    "Verif.Props.C09_make_reports",
    "Verif.Props.C09_oneDim_protocol",
    "Verif.Props.C09_oneDim_make_reports",
    "Verif.Props.C09_dmat_violates",
    "Verif.Props.C09_dmat_protocol",
    "Verif.Props.C09_st_make_reports",
    "Verif.Props.C09_st_accepted",
    "Verif.Props.C09_st_rejected_still_answers",
    "Verif.Props.C09_oneDim_formula"
   ],
   "note": "Holds for the coordinate and one-dimensional distances; refuted for the distance-matrix class (C09_dmat_violates) and for the spatio-temporal class, which keeps answering after a rejected set-up (C09_st_rejected_still_answers). What the set-up of the latter accepts is proved (C09_st_make_reports, C09_st_accepted)."
  },
  {
   "property": "C10",
   "status": "partial",
   "theorems": [
    "Verif.Props.C10_clone_same_partial",
    "Verif.Props.C10_oneDim_clone_throws",
    "Verif.Props.C10_oneDim_clone_differs",
    "Verif.Props.C10_dmat_clone_differs",
    "Verif.Props.C10_st_clone_throws",
    "Verif.Props.C10_st_clone_configured"
   ],
   "note": "Holds for CRSDistance and MinkwoskiDistance; refuted for OneDimDistance, DMatDistance and CRSSTDistance, whose clones lose their parameter. Given the same places and times again, a copy of a space-time distance answers as the original does (C10_st_clone_configured)."
  },
  {
   "property": "C11",
   "status": "partial",
   "theorems": [
    "Verif.Props.C11_dispatch_partial",
    "Verif.Props.C11_general_p_throws",
    "Verif.Props.C11_geographic",
    "Verif.Props.C11_p1_not_manhattan",
    "Verif.Props.C11_rotation_isometry",
    "Verif.Props.C11_max_too_small",
    "Verif.Props.C11_rotated"
   ],
   "note": "The code swaps Chebyshev and Manhattan and throws for any other exponent; what it computes is proved, the documented formula is refuted."
  },
  {
   "property": "C12",
   "status": "partial",
   "theorems": [
    "Verif.Props.C12_lambda_range_partial",
    "Verif.Props.C12_setLambda",
    "Verif.Props.C12_constructor_unchecked",
    "Verif.Props.C12_lambda_one",
    "Verif.Props.C12_lambda_zero",
    "Verif.Props.C12_combine_nonneg_mono",
    "Verif.Props.C12_distance_nonneg",
    "Verif.Props.C12_orthogonal_vs_oblique",
    "Verif.Props.C12_formula",
    "Verif.Props.C12_makeParameter_accepts"
   ],
   "note": "The constructors do not check lambda (refuted by C12_constructor_unchecked); everything else is proved."
  },
  {
   "property": "C13",
   "status": "partial",
   "theorems": [
    "Verif.Props.C13_memory_safe",
    "Verif.Props.C13_no_sharing",
    "Verif.Props.C13_isolation",
    "Verif.Props.C13_copy_values",
    "Verif.Props.C13_assign_values",
    "Verif.Props.C13_set_values",
    "Verif.Props.C13_move_values",
    "Verif.Props.C13_value_semantics",
    "Verif.Props.C13_no_leak",
    "Verif.Props.C13_copy_of_empty_ub",
    "Verif.Props.C13_self_reference_ub"
   ],
   "note": "Holds for every history in which copies are taken from objects that hold a weight and a distance and no object is assigned from itself; copying an empty object and self-assignment are proved undefined behaviour (C13_copy_of_empty_ub, C13_self_reference_ub)."
  },
  {
   "property": "C14",
   "status": "proved",
   "theorems": [
    "Verif.Props.C14_returns_best_evaluated",
    "Verif.Props.C14_unimodal_converges"
   ],
   "note": ""
  },
  {
   "property": "C15",
   "status": "partial",
   "theorems": [
    "Verif.Props.C15_fixed_within_bounds",
    "Verif.Props.C15_adaptive_near_bounds_partial",
    "Verif.Props.C15_adaptive_leaves_bounds"
   ],
   "note": "Proved for fixed bandwidths. Refuted for adaptive ones (C15_adaptive_leaves_bounds: bounds 20..29, returns 19); the drift bound is C15_adaptive_near_bounds_partial."
  },
  {
   "property": "C16",
   "status": "proved",
   "theorems": [
    "Verif.Props.C16_call_bound",
    "Verif.Props.C16_stops_after_failure",
    "Verif.Props.C16_interval_shrinks"
   ],
   "note": ""
  },
  {
   "property": "C17",
   "status": "proved",
   "theorems": [
    "Verif.Props.C17_kernel_kind_kept",
    "Verif.Props.C17_failure_protocol"
   ],
   "note": ""
  },
  {
   "property": "C18",
   "status": "proved",
   "theorems": [
    "Verif.Props.C18_criterion_list"
   ],
   "note": ""
  },
  {
   "property": "C19",
   "status": "proved",
   "theorems": [
    "Verif.Props.C19_greedy_search",
    "Verif.Props.C19_failure_returns_candidates",
    "Verif.Props.C19_reported_list"
   ],
   "note": ""
  },
  {
   "property": "C20",
   "status": "partial",
   "theorems": [
    "Verif.Props.C20_selects_last_gap_partial",
    "Verif.Props.C20_no_gap_undefined",
    "Verif.Props.C20_single_candidate_undefined",
    "Verif.Props.C20_selected_was_visited",
    "Verif.Props.C20_selects_stage_loser"
   ],
   "note": "Refuted as stated: with no gap or a single candidate the choice is undefined, and a stage loser can be selected (C20_no_gap_undefined, C20_single_candidate_undefined, C20_selects_stage_loser)."
  },
  {
   "property": "C21",
   "status": "proved",
   "theorems": [
    "Verif.Props.C21_fit_is_weighted_least_squares",
    "Verif.Props.C21_normal_equations",
    "Verif.Props.C21_prediction_is_weighted_least_squares",
    "Verif.Props.C21_fit_succeeds_iff"
   ],
   "note": ""
  },
  {
   "property": "C22",
   "status": "proved",
   "theorems": [
    "Verif.Props.C22_exact_law",
    "Verif.Props.C22_exact_law_prediction"
   ],
   "note": ""
  },
  {
   "property": "C23",
   "status": "proved",
   "theorems": [
    "Verif.Props.C23_weight_scale",
    "Verif.Props.C23_linear_in_response",
    "Verif.Props.C23_zero_weight_ignored"
   ],
   "note": ""
  },
  {
   "property": "C24",
   "status": "proved",
   "theorems": [
    "Verif.Props.C24_own_observation_unused",
    "Verif.Props.C24_score_is_leave_one_out",
    "Verif.Props.C24_criterion_from_coordinates"
   ],
   "note": ""
  },
  {
   "property": "C25",
   "status": "proved",
   "theorems": [
    "Verif.Props.C25_fitted_eq_hat_mul",
    "Verif.Props.C25_traces",
    "Verif.Props.C25_traces_independent_of_storage",
    "Verif.Props.C25_hat_reproduces_covariates",
    "Verif.Props.C25_se_terms",
    "Verif.Props.C25_qdiag"
   ],
   "note": ""
  },
  {
   "property": "C26",
   "status": "proved",
   "theorems": [
    "Verif.Props.C26_diagnostics",
    "Verif.Props.C26_rsquare",
    "Verif.Props.C26_criterion_from_coordinates",
    "Verif.Props.C26_formulas",
    "Verif.Props.C26_standard_errors",
    "Verif.Props.C26_criterion_aicc"
   ],
   "note": ""
  },
  {
   "property": "C27",
   "status": "proved",
   "theorems": [
    "Verif.Props.C27_predict_parallel_eq_serial",
    "Verif.Props.C27_fit_parallel_eq_serial"
   ],
   "note": ""
  },
  {
   "property": "C28",
   "status": "partial",
   "theorems": [
    "Verif.Props.C28_criteria_equal_partial",
    "Verif.Props.C28_singular_criteria_differ",
    "Verif.Props.C28_same_search",
    "Verif.Props.C28_same_fit"
   ],
   "note": "Equal whenever every local fit succeeds; if no tried bandwidth scores DBL_MAX in the serial run, whole searches and fits are the same in every mode (C28_same_search, C28_same_fit). Refuted when a local fit is singular (C28_singular_criteria_differ)."
  },
  {
   "property": "C29",
   "status": "proved",
   "theorems": [
    "Verif.Props.C29_cancelled_criterion_never_wins",
    "Verif.Props.C29_cancelled_run_is_marked"
   ],
   "note": ""
  },
  {
   "property": "C30",
   "status": "partial",
   "theorems": [
    "Verif.Props.C30_ranges_partition",
    "Verif.Props.C30_ranges_balanced",
    "Verif.Props.C30_ranges_nonempty",
    "Verif.Props.C30_malformed_range",
    "Verif.Props.C30_fit_any_arrival_order",
    "Verif.Props.C30_fit_fails_without_work",
    "Verif.Props.C30_cv_any_arrival_order",
    "Verif.Props.C30_aic_any_arrival_order"
   ],
   "note": "Partition and arrival-order independence proved whenever every process gets a range; refuted when (P-1)*ceil(n/P) >= n (C30_malformed_range, C30_fit_fails_without_work)."
  },
  {
   "property": "C31",
   "status": "partial",
   "theorems": [
    "Verif.Props.C31_combined",
    "Verif.Props.C31_nonneg_partial",
    "Verif.Props.C31_negative_coefficients_lost"
   ],
   "note": "Proved for non-negative coefficients; refuted for negative ones, which the maximum reduction loses (C31_negative_coefficients_lost)."
  },
  {
   "property": "C32",
   "status": "partial",
   "theorems": [
    "Verif.Props.C32_product_partial",
    "Verif.Props.C32_overflow"
   ],
   "note": "Proved for products whose element counts fit an int; undefined behaviour beyond (C32_overflow)."
  },
  {
   "property": "C33",
   "status": "partial",
   "theorems": [
    "Verif.Props.C33_groups_cover_once",
    "Verif.Props.C33_fit_cuda_partial",
    "Verif.Props.C33_small_data_fails",
    "Verif.Props.C33_small_data_cv_zero",
    "Verif.Props.C33_cv_cuda_partial",
    "Verif.Props.C33_shat_cuda",
    "Verif.Props.C33_stale_trace",
    "Verif.Props.C33_singular_reported",
    "Verif.Props.C33_predict_cuda_partial",
    "Verif.Props.C33_predict_other_count_fails",
    "Verif.Props.C33_stale_device_points",
    "Verif.Props.C33_launch_covers",
    "Verif.Props.C33_launch_once"
   ],
   "note": "Thread-block geometry, group coverage and equality with the serial fit proved when n is at least the group length; refuted for smaller data and for reused device state (C33_small_data_fails, C33_small_data_cv_zero, C33_stale_trace, C33_predict_other_count_fails, C33_stale_device_points)."
  },
  {
   "property": "C34",
   "status": "proved",
   "theorems": [
    "Verif.Props.C34_parallel_agrees",
    "Verif.Props.C34_hat_matrices",
    "Verif.Props.C34_any_order",
    "Verif.Props.C34_diagnostics"
   ],
   "note": "Serial and OpenMP, one process, any bandwidth choices and stop requests; diagnostics are those of the accumulated hat matrix. MPI and CUDA variants of the update not modelled."
  },
  {
   "property": "C35",
   "status": "proved",
   "theorems": [
    "Verif.Props.C35_iteration_limit",
    "Verif.Props.C35_frozen_iff_converged",
    "Verif.Props.C35_frozen_never_changes",
    "Verif.Props.C35_ends_when_converged",
    "Verif.Props.C35_returns"
   ],
   "note": "Iteration limit, exact characterisation of frozen variables, persistence of frozen bandwidths, reason for ending."
  },
  {
   "property": "C36",
   "status": "proved",
   "theorems": [
    "Verif.Props.C36_slots",
    "Verif.Props.C36_normal_equations",
    "Verif.Props.C36_scale_zero",
    "Verif.Props.C36_coefficients"
   ],
   "note": "For every degree, positive scale and non-negative penalty: slots injective and in range, tables equal weighted normal equations with the polynomial kernel weights, coefficients are the weighted least squares solution or zero when not determined. Scale 0 gives no finite result. The GSL minimiser that picks scale and penalty is arbitrary."
  },
  {
   "property": "C37",
   "status": "partial",
   "theorems": [
    "Verif.Props.C37_neighbours",
    "Verif.Props.C37_search_lists",
    "Verif.Props.C37_cv_small_bandwidth_fails",
    "Verif.Props.C37_works_partial"
   ],
   "note": "Lists proved; the search fails with CV for every bandwidth of 2..50 points below n (C37_cv_small_bandwidth_fails)."
  },
  {
   "property": "C38",
   "status": "proved",
   "theorems": [
    "Verif.Props.C38_lambda",
    "Verif.Props.C38_small_threshold"
   ],
   "note": "For every weighted design matrix and threshold > 1, with singular values specified by extreme stretching; lambda is positive, makes the ratio equal to the threshold and is the smallest that does. C38_small_threshold: thresholds <= 1 are accepted and give nonfinite or negative lambda."
  },
  {
   "property": "C39",
   "status": "partial",
   "theorems": [
    "Verif.Props.C39_lcr_enp_grows",
    "Verif.Props.C39_lcr_parallel_repeatable",
    "Verif.Props.C39_scalable_second_fit_fails"
   ],
   "note": "Refuted for serial ridge regression (effective parameters grow with each fit) and for scalable regression (second fit fails); proved for parallel ridge regression."
  },
  {
   "property": "C40",
   "status": "proved",
   "theorems": [
    "Verif.Props.C40_mean_between",
    "Verif.Props.C40_variance",
    "Verif.Props.C40_correlation",
    "Verif.Props.C40_correlation_run",
    "Verif.Props.C40_shape",
    "Verif.Props.C40_correlation_table"
   ],
   "note": ""
  },
  {
   "property": "C41",
   "status": "proved",
   "theorems": [
    "Verif.Props.C41_columns",
    "Verif.Props.C41_too_few"
   ],
   "note": ""
  },
  {
   "property": "C42",
   "status": "partial",
   "theorems": [
    "Verif.Props.C42_quartiles_partial",
    "Verif.Props.C42_defined_iff",
    "Verif.Props.C42_two_points_undefined"
   ],
   "note": "Proved whenever the run is defined; C42_defined_iff says exactly when it is, and C42_two_points_undefined refutes the claim as stated (an unsigned index wraps around)."
  },
  {
   "property": "C43",
   "status": "partial",
   "theorems": [
    "Verif.Props.C43_weight_function",
    "Verif.Props.C43_first_method",
    "Verif.Props.C43_second_method",
    "Verif.Props.C43_result_is_weighted_least_squares",
    "Verif.Props.C43_perfect_fit_fails",
    "Verif.Props.C43_second_method_steps"
   ],
   "note": "Weight function, both iteration schemes and the meaning of the result are proved; refuted for a perfect fit, where the second method gives every observation weight 0 and throws (C43_perfect_fit_fails)."
  },
  {
   "property": "C44",
   "status": "proved",
   "theorems": [
    "Verif.Props.C44_lambda_in_range",
    "Verif.Props.C44_search_ends",
    "Verif.Props.C44_fit_uses_selected"
   ],
   "note": "For every objective, also history-dependent, non-finite or interrupted by a stop request: lambda and all tried lambdas in [0,1], 4 to 104 evaluations, a fit with automatic lambda equals the fit with the selected lambda."
  },
  {
   "property": "C45",
   "status": "proved",
   "theorems": [
    "Verif.Props.C45_levels",
    "Verif.Props.C45_partition",
    "Verif.Props.C45_sizes",
    "Verif.Props.C45_group",
    "Verif.Props.C45_correct_rate",
    "Verif.Props.C45_entropy",
    "Verif.Props.C45_entropy_formula"
   ],
   "note": "Classes, partition, sizes, predicted label, correct rate and the entropy function. The published, normalised entropy is C80."
  },
  {
   "property": "C46",
   "status": "partial",
   "theorems": [
    "Verif.Props.C46_binomial_range",
    "Verif.Props.C46_binomial_link_linkinv",
    "Verif.Props.C46_binomial_linkinv_link",
    "Verif.Props.C46_binomial_link_domain",
    "Verif.Props.C46_binomial_muEta",
    "Verif.Props.C46_poisson_range",
    "Verif.Props.C46_poisson_link_linkinv",
    "Verif.Props.C46_poisson_linkinv_link",
    "Verif.Props.C46_poisson_clamped",
    "Verif.Props.C46_poisson_muEta",
    "Verif.Props.C46_poisson_deviance",
    "Verif.Props.C46_binomial_deviance",
    "Verif.Props.C46_poisson_deviance_sign",
    "Verif.Props.C46_binomial_deviance_sign",
    "Verif.Props.C46_iteration_wls",
    "Verif.Props.C46_iteration_limit",
    "Verif.Props.C46_reported_state",
    "Verif.Props.C46_poisson_fit_deviance",
    "Verif.Props.C46_binomial_fit_deviance",
    "Verif.Props.C46_poisson_fixed_point",
    "Verif.Props.C46_binomial_fixed_point",
    "Verif.Props.C46_poisson_fit_completes",
    "Verif.Props.C46_binomial_fit_completes",
    "Verif.Props.C46_poisson_pseudo_r2",
    "Verif.Props.C46_poisson_stationary",
    "Verif.Props.C46_binomial_stationary"
   ],
   "note": "Binomial: all of it. Poisson: link and inverse link are inverse on predictors whose mean is at least the clamping constant; below it they are not (C46_poisson_clamped). Deviance, iteration limit, completeness, weighted least squares per iteration and stationary point = maximum likelihood are proved for both families."
  },
  {
   "property": "C47",
   "status": "partial",
   "theorems": [
    "Verif.Props.C47_basic_partial",
    "Verif.Props.C47_default_violates",
    "Verif.Props.C47_gwdr",
    "Verif.Props.C47_gtwr_partial",
    "Verif.Props.C47_lcr_partial",
    "Verif.Props.C47_generalized_partial"
   ],
   "note": "Basic GWR, GTWR and generalised GWR: the criterion minimised is the one reported after every history that contains a choice of criterion (or of an accepted parallel type); new objects report AIC and minimise CV (refuted on data where the values differ). GWDR: holds for every history. Ridge regression: AIC calls a null pointer."
  },
  {
   "property": "C48",
   "status": "partial",
   "theorems": [
    "Verif.Props.C48_basic",
    "Verif.Props.C48_storeS_violates",
    "Verif.Props.C48_storeS_partial",
    "Verif.Props.C48_generalized_partial",
    "Verif.Props.C48_regression_data_violates",
    "Verif.Props.C48_multiscale_violates"
   ],
   "note": "Last value set is the value returned, for every history of setters of basic and generalised GWR. Refuted for isStoreS, the regression data of generalised GWR and the initial weight and per-variable settings of multiscale GWR."
  },
  {
   "property": "C49",
   "status": "partial",
   "theorems": [
    "Verif.Props.C49_freed_once_partial",
    "Verif.Props.C49_move_assignment_leaks",
    "Verif.Props.C49_moved_from_twice",
    "Verif.Props.C49_moved_view",
    "Verif.Props.C49_copy_to_default_leaks",
    "Verif.Props.C49_transpose_to_moved_from",
    "Verif.Props.C49_self_move_leaks",
    "Verif.Props.C49_copy_of_smaller_ub",
    "Verif.Props.C49_batched_move"
   ],
   "note": "Proved for every program that moves only from owners, assigns by copy between equal sizes to owners and by move to non-owners; refuted for the others (C49_move_assignment_leaks, C49_moved_from_twice, C49_moved_view, C49_copy_to_default_leaks, C49_transpose_to_moved_from, C49_self_move_leaks, C49_copy_of_smaller_ub, C49_batched_move)."
  },
  {
   "property": "C50",
   "status": "proved",
   "theorems": [
    "Verif.Props.C50_predict_at_data_eq_fit",
    "Verif.Props.C50_prediction_depends_on_location_only"
   ],
   "note": "Serial mode (parallel through C27), coordinate distances, no stop request."
  },
  {
   "property": "C51",
   "status": "proved",
   "theorems": [
    "Verif.Props.C51_reordering",
    "Verif.Props.C51_reordering_selection",
    "Verif.Props.C51_rigid_motion"
   ],
   "note": "Serial mode (parallel through C27), coordinate distances. Reordering: fit, diagnostics, criterion values and selection with given bounds. Rigid motions: fit, prediction and automatic selection incl. default bounds."
  },
  {
   "property": "C52",
   "status": "partial",
   "theorems": [
    "Verif.Props.C52_validation_partial",
    "Verif.Props.C52_no_weight_ub",
    "Verif.Props.C52_missing_distance_accepted",
    "Verif.Props.C52_unusable_bandwidth_accepted",
    "Verif.Props.C52_gwss_rows_unchecked"
   ],
   "note": "Exact acceptance conditions proved; refuted: null weight is dereferenced, a missing distance, an adaptive bandwidth below 1 and (GWSS, GWDA) mismatching rows are accepted."
  },
  {
   "property": "C53",
   "status": "proved",
   "theorems": [
    "Verif.Props.C53_percentages"
   ],
   "note": ""
  },
  {
   "property": "C54",
   "status": "partial",
   "theorems": [
    "Verif.Props.C54_product_weights",
    "Verif.Props.C54_fit_is_gwr",
    "Verif.Props.C54_fit",
    "Verif.Props.C54_parallel_hides_failures",
    "Verif.Props.C54_cross_validation",
    "Verif.Props.C54_aic"
   ],
   "note": "Product weights, serial fit, cross-validation and AICc (both variants) proved; refuted for the parallel fit, which returns zeros for failed locations instead of throwing (C54_parallel_hides_failures)."
  },
  {
   "property": "C55",
   "status": "partial",
   "theorems": [
    "Verif.Props.C55_geo_symmetric",
    "Verif.Props.C55_geo_accuracy",
    "Verif.Props.C55_geo_finite_iff",
    "Verif.Props.C55_pole_nonfinite",
    "Verif.Props.C55_shortcut_wrong"
   ],
   "note": "Symmetry, sign and accuracy proved for every answered query; the pole and the 0..360 longitude convention are refuted."
  },
  {
   "property": "C56",
   "status": "proved",
   "theorems": [
    "Verif.Props.C56_leverage",
    "Verif.Props.C56_edf_nonneg",
    "Verif.Props.C56_enp_range"
   ],
   "note": ""
  },
  {
   "property": "C57",
   "status": "partial",
   "theorems": [
    "Verif.Props.C57_selected_bandwidth_fits",
    "Verif.Props.C57_parallel_selects_unusable"
   ],
   "note": "Proved for serial mode, planar and geographic coordinates; refuted for parallel mode (C57_parallel_selects_unusable)."
  },
  {
   "property": "C58",
   "status": "proved",
   "theorems": [
    "Verif.Props.C58_ranks",
    "Verif.Props.C58_ties_differ"
   ],
   "note": ""
  },
  {
   "property": "C59",
   "status": "proved",
   "theorems": [
    "Verif.Props.C59_average_parallel",
    "Verif.Props.C59_correlation_parallel",
    "Verif.Props.C59_stopped_prefix"
   ],
   "note": ""
  },
  {
   "property": "C60",
   "status": "partial",
   "theorems": [
    "Verif.Props.C60_predicts_zero"
   ],
   "note": "Holds for GWRBasic (C21_prediction_is_weighted_least_squares, C50); refuted for GWDR and GWRMultiscale, whose predict returns zeros."
  },
  {
   "property": "C61",
   "status": "partial",
   "theorems": [
    "Verif.Props.C61_search_terminates",
    "Verif.Props.C61_adaptive_partial",
    "Verif.Props.C61_fixed_start_wrong",
    "Verif.Props.C61_small_bandwidth_lost"
   ],
   "note": "Termination and verdict proved. Start and rounding proved for adaptive kernels; refuted for fixed kernels (start at n times the bandwidth) and for small bandwidths (rounded to 0)."
  },
  {
   "property": "C62",
   "status": "partial",
   "theorems": [
    "Verif.Props.C62_percentages_are_local_variances",
    "Verif.Props.C62_components_maximise_variance",
    "Verif.Props.C62_sdev_partial",
    "Verif.Props.C62_errors",
    "Verif.Props.C62_sdev_wrong"
   ],
   "note": "Loadings, optimality, percentages proved for every valid decomposition; standard deviations are off by a factor (C62_sdev_partial, refuted by C62_sdev_wrong)."
  },
  {
   "property": "C63",
   "status": "partial",
   "theorems": [
    "Verif.Props.C63_winner_has_largest_loading",
    "Verif.Props.C63_winner_depends_on_sign"
   ],
   "note": "Largest signed loading proved; refuted as stated (C63_winner_depends_on_sign)."
  },
  {
   "property": "C64",
   "status": "proved",
   "theorems": [
    "Verif.Props.C64_update_is_weighted_least_squares",
    "Verif.Props.C64_fixed_point",
    "Verif.Props.C64_criterion_is_leave_one_out",
    "Verif.Props.C64_criterion_is_aicc"
   ],
   "note": ""
  },
  {
   "property": "C65",
   "status": "partial",
   "theorems": [
    "Verif.Props.C65_initial_fixed_kernel_fails",
    "Verif.Props.C65_fit_fails"
   ],
   "note": "Refuted: with type Initial, fixed kernel and no explicit bounds the search runs between 0 and 0 and the fit throws for every data set."
  },
  {
   "property": "C66",
   "status": "proved",
   "theorems": [
    "Verif.Props.C66_centring"
   ],
   "note": ""
  },
  {
   "property": "C67",
   "status": "partial",
   "theorems": [
    "Verif.Props.C67_own_point_used",
    "Verif.Props.C67_own_point_twice"
   ],
   "note": "Refuted by theorem: the own observation is in the CV list with positive weight; with AIC it is listed twice."
  },
  {
   "property": "C68",
   "status": "partial",
   "theorems": [
    "Verif.Props.C68_trace_depends_on_units"
   ],
   "note": "Refuted by theorem: the reported trace scales with 1/c^2 while the leverage is invariant."
  },
  {
   "property": "C69",
   "status": "partial",
   "theorems": [
    "Verif.Props.C69_exponential_is_gaussian"
   ],
   "note": "Refuted by theorem: the exponential kernel is a Gaussian with another scale."
  },
  {
   "property": "C70",
   "status": "proved",
   "theorems": [
    "Verif.Props.C70_ridge",
    "Verif.Props.C70_zero_is_wls",
    "Verif.Props.C70_exists"
   ],
   "note": "Unique minimiser for all data; division by a zero standard deviation yields no result."
  },
  {
   "property": "C71",
   "status": "partial",
   "theorems": [
    "Verif.Props.C71_traces_ignore_ridge",
    "Verif.Props.C71_leverage_too_large",
    "Verif.Props.C71_collinear_fit_fails"
   ],
   "note": "Refuted: traces ignore the ridge parameter, the reported leverage exceeds the true one, and fits of collinear data fail although the ridge estimate exists."
  },
  {
   "property": "C72",
   "status": "partial",
   "theorems": [
    "Verif.Props.C72_parallel_predict_dies"
   ],
   "note": "Refuted: parallel prediction ends the program for any locations."
  },
  {
   "property": "C73",
   "status": "proved",
   "theorems": [
    "Verif.Props.C73_predict_rows",
    "Verif.Props.C73_predict_eq_fit",
    "Verif.Props.C73_own_response_unused",
    "Verif.Props.C73_score",
    "Verif.Props.C73_stopped_score"
   ],
   "note": "Serial prediction, CV score."
  },
  {
   "property": "C74",
   "status": "partial",
   "theorems": [
    "Verif.Props.C74_single_peak_partial",
    "Verif.Props.C74_equal_ends_stop"
   ],
   "note": "Proved: the bracket keeps the peak and lambda is within half its width. Refuted: if R-squared agrees at the two ends of the bracket the search stops at once; concrete data where the result is worse than a tried lambda."
  },
  {
   "property": "C75",
   "status": "proved",
   "theorems": [
    "Verif.Props.C75_fit_is_weighted_least_squares"
   ],
   "note": "Planar spatial distance."
  },
  {
   "property": "C76",
   "status": "partial",
   "theorems": [
    "Verif.Props.C76_future_ignored_partial",
    "Verif.Props.C76_adaptive_uses_future"
   ],
   "note": "Proved for fixed bandwidths below 10^13 and kernels of bounded support. Refuted for an adaptive bandwidth with the Gaussian kernel: the sentinel distance becomes the bandwidth."
  },
  {
   "property": "C77",
   "status": "partial",
   "theorems": [
    "Verif.Props.C77_prediction_is_fit_of_same_row",
    "Verif.Props.C77_prediction_ignores_location"
   ],
   "note": "Refuted: the locations are ignored, row r gets the coefficients of observation r, more locations than observations throw. The theorems describe what happens and give a witness."
  },
  {
   "property": "C78",
   "status": "partial",
   "theorems": [
    "Verif.Props.C78_search_range_is_sentinel"
   ],
   "note": "Refuted: the range ends at the sentinel 10^13 whenever an observation is later than another."
  },
  {
   "property": "C79",
   "status": "proved",
   "theorems": [
    "Verif.Props.C79_linear_rule"
   ],
   "note": "For non-negative weights and a pooled covariance that is not singular."
  },
  {
   "property": "C80",
   "status": "partial",
   "theorems": [
    "Verif.Props.C80_two_classes_no_entropy",
    "Verif.Props.C80_entropy_bound_partial",
    "Verif.Props.C80_entropy_exceeds_one"
   ],
   "note": "Fails: with two classes the entropy is divided by zero; with three or more it can exceed 1. Proved: bound log m / log (m-1). C80_entropy_exceeds_one is about a row of published probabilities, not a whole data set."
  },
  {
   "property": "C81",
   "status": "partial",
   "theorems": [
    "Verif.Props.C81_quadratic_needs_all_options"
   ],
   "note": "Fails: the quadratic rule throws unless all three options are local."
  },
  {
   "property": "C82",
   "status": "partial",
   "theorems": [
    "Verif.Props.C82_parallel_differs"
   ],
   "note": "Fails on a data set: only the serial run leaves the location itself out. Later serial runs agree with OpenMP (C83_later_runs_agree_partial)."
  },
  {
   "property": "C83",
   "status": "partial",
   "theorems": [
    "Verif.Props.C83_second_run_differs",
    "Verif.Props.C83_later_runs_agree_partial"
   ],
   "note": "Fails on a data set for the second serial run. Proved: all runs after the first agree with each other."
  },
  {
   "property": "C84",
   "status": "partial",
   "theorems": [
    "Verif.Props.C84_sum_one_partial",
    "Verif.Props.C84_negative_probability"
   ],
   "note": "Fails on a data set: the last column is not exponentiated, so that probabilities can be negative. Proved: they add up to one."
  },
  {
   "property": "C85",
   "status": "partial",
   "theorems": [
    "Verif.Props.C85_named_class_less_probable",
    "Verif.Props.C85_order_reversed"
   ],
   "note": "Fails on a data set; the order among the classes other than the last one is always reversed."
  },
  {
   "property": "C86",
   "status": "partial",
   "theorems": [
    "Verif.Props.C86_correction_partial",
    "Verif.Props.C86_correction_truncated",
    "Verif.Props.C86_correction_vanishes",
    "Verif.Props.C86_correction_few",
    "Verif.Props.C86_division_by_zero"
   ],
   "note": "Holds when n-k-1 divides 2k(k+1), and the value is always within 1 below (C86_correction_partial); integer division truncates (C86_correction_truncated, C86_correction_vanishes) and n = k+1 divides by zero (C86_division_by_zero)."
  },
  {
   "property": "C87",
   "status": "partial",
   "theorems": [
    "Verif.Props.C87_fit_without_hat_matrix_fails",
    "Verif.Props.C87_predict_fails"
   ],
   "note": "Refuted: both entry points fail for every data set with two or more observations (C87_fit_without_hat_matrix_fails, C87_predict_fails)."
  },
  {
   "property": "C88",
   "status": "partial",
   "theorems": [
    "Verif.Props.C88_means_partial",
    "Verif.Props.C88_limit_violates"
   ],
   "note": "Holds when the calibration converged (C88_means_partial); at the iteration limit it fails (C88_limit_violates)."
  },
  {
   "property": "C89",
   "status": "partial",
   "theorems": [
    "Verif.Props.C89_poisson_deviance",
    "Verif.Props.C89_binomial_deviance",
    "Verif.Props.C89_proportion_violates",
    "Verif.Props.C89_poisson_pseudo_r2"
   ],
   "note": "Proved for Poisson counts and for binomial 0/1 responses; refuted for binomial proportions (C89_proportion_violates)."
  },
  {
   "property": "C90",
   "status": "proved",
   "theorems": [
    "Verif.Props.C90_parallel_fit",
    "Verif.Props.C90_parallel_cv"
   ],
   "note": ""
  },
  {
   "property": "C91",
   "status": "partial",
   "theorems": [
    "Verif.Props.C91_parallel_value",
    "Verif.Props.C91_single_thread_partial",
    "Verif.Props.C91_threads_violate"
   ],
   "note": "Equal when one thread does all the work (C91_single_thread_partial); C91_parallel_value says what is computed for every schedule (only thread 0's part of the trace); refuted in general by C91_threads_violate."
  },
  {
   "property": "C92",
   "status": "proved",
   "theorems": [
    "Verif.Props.C92_coefficients_wls",
    "Verif.Props.C92_calibration_completes"
   ],
   "note": ""
  },
  {
   "property": "C93",
   "status": "partial",
   "theorems": [
    "Verif.Props.C93_penalty",
    "Verif.Props.C93_penalty_too_large"
   ],
   "note": "Refuted: the penalty is the number of observations (C93_penalty, C93_penalty_too_large)."
  },
  {
   "property": "C94",
   "status": "partial",
   "theorems": [
    "Verif.Props.C94_cv_throws",
    "Verif.Props.C94_aic_throws"
   ],
   "note": "Refuted: the criterion throws, serial and parallel (C94_cv_throws, C94_aic_throws)."
  },
  {
   "property": "C95",
   "status": "partial",
   "theorems": [
    "Verif.Props.C95_generalized_partial",
    "Verif.Props.C95_generalized_violates",
    "Verif.Props.C95_generalized_order",
    "Verif.Props.C95_basic",
    "Verif.Props.C95_summary",
    "Verif.Props.C95_omp",
    "Verif.Props.C95_robust_partial",
    "Verif.Props.C95_lcr_reports_omp",
    "Verif.Props.C95_discriminant",
    "Verif.Props.C95_multiscale_partial",
    "Verif.Props.C95_multiscale_violates",
    "Verif.Props.C95_robust_violates"
   ],
   "note": "Holds for basic GWR, GWSS, GTWR, GWDR, discriminant analysis and ridge regression for every history. Refuted for generalised GWR (null pointer for combined MPI types, uninitialised family), robust GWR (inherited pointers not refreshed), multiscale GWR (combined MPI types are accepted and run serial cores) and ridge regression without OpenMP."
  },
  {
   "property": "C96",
   "status": "partial",
   "theorems": [
    "Verif.Props.C96_basic",
    "Verif.Props.C96_robust_violates",
    "Verif.Props.C96_default_bounds"
   ],
   "note": "Holds for basic GWR with a fixed kernel (adaptive: C15). Refuted for robust GWR, which ignores the bounds."
  },
  {
   "property": "C97",
   "status": "proved",
   "theorems": [
    "Verif.Props.C97_fixed_kernel_formula",
    "Verif.Props.C97_adaptive_kernel_formula"
   ],
   "note": "Identity with the textbook formulas (Spec/Formulas) for all five kernels, fixed and adaptive bandwidths, over the reals."
  },
  {
   "property": "C98",
   "status": "proved",
   "theorems": [
    "Verif.Props.C98_fit_is_gwr",
    "Verif.Props.C98_adaptive_fit_is_gwr",
    "Verif.Props.C98_prediction_is_gwr",
    "Verif.Props.C98_adaptive_prediction_is_gwr",
    "Verif.Props.C98_auto_fit_is_gwr",
    "Verif.Props.C98_fit_succeeds_iff",
    "Verif.Props.C98_bandwidth_choice"
   ],
   "note": "End to end from coordinates to coefficients for planar distances, fixed and adaptive bandwidths with 1 <= k < n, fit, prediction and automatic selection; exact success condition for fixed bandwidths. Real arithmetic. Adaptive case: no k observations coincide with a regression point."
  },
  {
   "property": "C99",
   "status": "proved",
   "theorems": [
    "Verif.Props.C99_bandwidths",
    "Verif.Props.C99_last_variable",
    "Verif.Props.C99_single_predictor",
    "Verif.Props.C99_diagnostics"
   ],
   "note": "Serial mode, planar distances, hat matrix on, no stop requests. All variables, all modes, geographic distances: C135."
  },
  {
   "property": "C100",
   "status": "proved",
   "theorems": [
    "Verif.Props.C100_aic_value",
    "Verif.Props.C100_fit_is_scalable_regression",
    "Verif.Props.C100_prediction_is_scalable_regression",
    "Verif.Props.C100_cv_value"
   ],
   "note": "Whole serial runs of fit and predict, from a distance matrix to coefficients, with the parameter minimiser, the order among equal distances and the treatment of singular systems in CV left open. Stop requests and the second trace are not modelled."
  },
  {
   "property": "C101",
   "status": "partial",
   "theorems": [
    "Verif.Props.C101_basic_prediction_pointwise",
    "Verif.Props.C101_scalable_prediction_at_data",
    "Verif.Props.C101_scalable_depends_on_other_locations"
   ],
   "note": "Proved for basic regression and, for scalable regression, that prediction at the observations equals the fit. Refuted for scalable regression in general: its base bandwidth is a median over the requested locations (C101_scalable_depends_on_other_locations)."
  },
  {
   "property": "C102",
   "status": "partial",
   "theorems": [
    "Verif.Props.C102_criterion",
    "Verif.Props.C102_selected_variables",
    "Verif.Props.C102_fit_uses_selected",
    "Verif.Props.C102_auto_fit_uses_selected",
    "Verif.Props.C102_selection_ignores_bandwidth",
    "Verif.Props.C102_second_fit_undefined",
    "Verif.Props.C102_auto_fit_range"
   ],
   "note": "Search, criterion, columns and coefficients of the fit proved here for fixed bandwidths in planar coordinates; C120 proves the same for both kinds of bandwidth, geographic coordinates and every mode. Refuted: the criterion uses bandwidth DBL_MAX, not the bandwidth of the model, and a second fit of the object starts from the reduced data (with one selected variable it reads before the start of a list). Missing: runs whose criterion is not finite."
  },
  {
   "property": "C103",
   "status": "proved",
   "theorems": [
    "Verif.Props.C103_fit_is_local_ridge",
    "Verif.Props.C103_adaptive_fit_is_local_ridge",
    "Verif.Props.C103_auto_fit_is_local_ridge",
    "Verif.Props.C103_bandwidth_choice",
    "Verif.Props.C103_prediction_is_local_ridge",
    "Verif.Props.C103_diagnostics",
    "Verif.Props.C103_modes_agree",
    "Verif.Props.C103_any_fit",
    "Verif.Props.C103_any_choice"
   ],
   "note": "Assumes an exact singular value decomposition (ExactSV; exactSV_exists shows that one exists), no stop request, a nonnegative ridge parameter and a radius that is positive everywhere. C103_modes_agree, C103_any_fit and C103_any_choice hold for serial and multithreaded runs, planar and geographic coordinates, fixed and adaptive bandwidths. The hat matrix is the unpenalised one (see C71 for what that breaks)."
  },
  {
   "property": "C104",
   "status": "proved",
   "theorems": [
    "Verif.Props.C104_radius_zero_is_worst",
    "Verif.Props.C104_fit_is_gtwr",
    "Verif.Props.C104_adaptive_fit_is_gtwr",
    "Verif.Props.C104_objective",
    "Verif.Props.C104_lambda_near_peak",
    "Verif.Props.C104_run",
    "Verif.Props.C104_bandwidth_choice",
    "Verif.Props.C104_any_fit",
    "Verif.Props.C104_any_run",
    "Verif.Props.C104_any_lambda"
   ],
   "note": "No stop requests. The factor of the mixed term is the one the distance object uses (1, or the cosine of the angle: C12). A selected bandwidth is judged with the \u03bb set before the run, as the statement says. C79: without a single peak nothing is promised about \u03bb."
  },
  {
   "property": "C105",
   "status": "partial",
   "theorems": [
    "Verif.Props.C105_linear_scores",
    "Verif.Props.C105_quadratic_scores",
    "Verif.Props.C105_quadratic_rule_partial",
    "Verif.Props.C105_quadratic_rule_fails"
   ],
   "note": "Fails on a data set of nine observations: the code penalises a class by half the number of classes (rounded down) times the logarithm of the norm of its covariance, in place of half the logarithm of the determinant. Proved: the exact scores of both rules and the rule that the code implements."
  },
  {
   "property": "C106",
   "status": "proved",
   "theorems": [
    "Verif.Props.C106_linear_run",
    "Verif.Props.C106_published"
   ],
   "note": "The entropy formula is for rows that are distributions; which rows are is C84. OpenMP only fills the weight matrix."
  },
  {
   "property": "C107",
   "status": "proved",
   "theorems": [
    "Verif.Props.C107_poisson_trace",
    "Verif.Props.C107_logistic_trace",
    "Verif.Props.C107_poisson_diagnostics",
    "Verif.Props.C107_logistic_diagnostics"
   ],
   "note": "Spec/IRLS.lean is the textbook iteration. The corrected AIC, computed in unsigned integers, is C86."
  },
  {
   "property": "C108",
   "status": "partial",
   "theorems": [
    "Verif.Props.C108_calibration",
    "Verif.Props.C108_fit",
    "Verif.Props.C108_adaptive_fit",
    "Verif.Props.C108_bandwidth_choice",
    "Verif.Props.C108_criterion",
    "Verif.Props.C108_any_fit",
    "Verif.Props.C108_any_choice"
   ],
   "note": "Fits and bandwidth choice proved for every kind of bandwidth, planar and geographic coordinates, serial and parallel mode. Refuted for one case: the Akaike criterion in parallel mode counts only the leverages of the locations run by thread 0, so the choice is not by that criterion (C108_criterion gives the value compared, C91_threads_violate a difference)."
  },
  {
   "property": "C109",
   "status": "partial",
   "theorems": [
    "Verif.Props.C109_local_likelihood_partial",
    "Verif.Props.C109_local_likelihood_fails"
   ],
   "note": "False: all locations share one working response, built from every observation's own coefficients. Refuted for every pair of different counts at two locations with weight strictly between 0 and 1; proved where the neighbours' linear predictors agree with the local coefficients."
  },
  {
   "property": "C110",
   "status": "proved",
   "theorems": [
    "Verif.Props.C110_fit",
    "Verif.Props.C110_adaptive_fit",
    "Verif.Props.C110_bandwidth_choice",
    "Verif.Props.C110_any_fit",
    "Verif.Props.C110_any_choice"
   ],
   "note": "Every kind of bandwidth, planar and geographic coordinates, serial and threaded (C110_any_fit, C110_any_choice); no stop requests. Bandwidths must make sense for the distances (UsableRadius)."
  },
  {
   "property": "C111",
   "status": "partial",
   "theorems": [
    "Verif.Props.C111_prediction",
    "Verif.Props.C111_predict_at_data_partial",
    "Verif.Props.C111_predict_at_data_fails"
   ],
   "note": "Refuted for every n \u2265 11 and both methods: predict does not use the robust weights. Proved when the last robust weights are all 1. C111_prediction says what is predicted at any places."
  },
  {
   "property": "C112",
   "status": "partial",
   "theorems": [
    "Verif.Props.C112_fit",
    "Verif.Props.C112_success",
    "Verif.Props.C112_parallel_fails"
   ],
   "note": "Coefficients, diagnostics and standard errors proved for fixed and adaptive kernels, serial and threaded; exact condition for serial success. Refuted in parallel mode: undetermined locations silently get coefficients 0."
  },
  {
   "property": "C113",
   "status": "partial",
   "theorems": [
    "Verif.Props.C113_auto_fit",
    "Verif.Props.C113_small_units_fail",
    "Verif.Props.C113_small_units_given",
    "Verif.Props.C113_start"
   ],
   "note": "Results are those of the reported bandwidths, which are whole numbers; starting bandwidth proved for fixed kernels here, for adaptive kernels in C61. Refuted: a best bandwidth below 1/2 is rounded to 0 and the fit never returns. GSL's minimiser is arbitrary; that it improves on the start is not proved."
  },
  {
   "property": "C114",
   "status": "proved",
   "theorems": [
    "Verif.Props.C114_selection",
    "Verif.Props.C114_both"
   ],
   "note": "Both with given and with selected bandwidths; every thread schedule."
  },
  {
   "property": "C115",
   "status": "partial",
   "theorems": [
    "Verif.Props.C115_average",
    "Verif.Props.C115_quantiles",
    "Verif.Props.C115_quantiles_need_four",
    "Verif.Props.C115_correlation"
   ],
   "note": "C115_average and C115_correlation: runs always succeed and give the explicit weighted statistics. C115_quantiles: with quantiles the run works exactly if the smallest observation has at most a quarter of the weights. Refuted for quantiles by C115_quantiles_need_four: undefined behaviour for every data set of fewer than four observations, and whenever the smallest observation has fewer than four effective neighbours."
  },
  {
   "property": "C116",
   "status": "proved",
   "theorems": [
    "Verif.Props.C116_average_units",
    "Verif.Props.C116_correlation_units",
    "Verif.Props.C116_map"
   ],
   "note": "C116_average_units, C116_correlation_units (rank correlations: if no two observations have the same value; with ties the library's sorting order decides, C58_ties_differ), C116_map."
  },
  {
   "property": "C117",
   "status": "partial",
   "theorems": [
    "Verif.Props.C117_run",
    "Verif.Props.C117_invariance",
    "Verif.Props.C117_sdev_wrong"
   ],
   "note": "C117_run (success exactly when some variable varies; optimal orthonormal components; percentages; winners) and C117_invariance. Refuted for the standard deviations by C117_sdev_wrong: they are scaled by the weights of the last location. Existence of a decomposition as assumed: Lemmas.exists_rightSVD."
  },
  {
   "property": "C118",
   "status": "proved",
   "theorems": [
    "Verif.Props.C118_fit",
    "Verif.Props.C118_predict"
   ],
   "note": "The weights themselves are the model's kernels of C97 and distances of C07/C55."
  },
  {
   "property": "C119",
   "status": "partial",
   "theorems": [
    "Verif.Props.C119_criterion",
    "Verif.Props.C119_auto_fit",
    "Verif.Props.C119_small_map",
    "Verif.Props.C119_small_response"
   ],
   "note": "The selection and its report are proved; independence of units is refuted (absolute tolerances 1e-4 on bandwidth and criterion). In parallel mode the value of a bandwidth with failing locations is arbitrary (C28)."
  },
  {
   "property": "C120",
   "status": "partial",
   "theorems": [
    "Verif.Props.C120_criterion",
    "Verif.Props.C120_fit",
    "Verif.Props.C120_auto_fit",
    "Verif.Props.C120_parallel_selects_zeros"
   ],
   "note": "Proved where the candidate regressions are determined (and serially everywhere); refuted in parallel mode for undetermined candidates."
  },
  {
   "property": "C121",
   "status": "proved",
   "theorems": [
    "Verif.Props.C121_map",
    "Verif.Props.C121_response",
    "Verif.Props.C121_covariates",
    "Verif.Props.C121_known_effect"
   ],
   "note": "Whole runs with a given bandwidth."
  },
  {
   "property": "C122",
   "status": "partial",
   "theorems": [
    "Verif.Props.C122_report",
    "Verif.Props.C122_units",
    "Verif.Props.C122_trace_depends_on_units"
   ],
   "note": "Every reported number is given explicitly in terms of the weights. Independence of the unit is refuted: the trace is divided by the square of the factor, because the code applies the inverse of the squared cross-product matrix where the inverse of the matrix belongs, and takes the square root of the variances twice."
  },
  {
   "property": "C123",
   "status": "partial",
   "theorems": [
    "Verif.Props.C123_success_certifies_fit",
    "Verif.Props.C123_success_certifies_prediction",
    "Verif.Props.C123_status",
    "Verif.Props.C123_refit",
    "Verif.Props.C123_given_bandwidth",
    "Verif.Props.C123_terminated_never_searches",
    "Verif.Props.C123_new_object",
    "Verif.Props.C123_cancelled_prediction_shape",
    "Verif.Props.C123_terminated_fit",
    "Verif.Props.C123_cancelled_object"
   ],
   "note": "Success certifies the result, for every history and every stop request (C123_success_certifies_*). Without a stop request fits do not influence each other (C123_refit); runs with a given bandwidth never do (C123_given_bandwidth). Refuted after a stop request: the status is never reset, and from then on automatic bandwidth selection does nothing, silently (C123_terminated_never_searches, C123_terminated_fit, C123_cancelled_object). Refuted: a prediction cancelled at its first poll has one row per observation, not per location (C123_cancelled_prediction_shape). Left out: automatic variable selection within a history (it replaces the stored data)."
  },
  {
   "property": "C124",
   "status": "partial",
   "theorems": [
    "Verif.Props.C124_device_distances",
    "Verif.Props.C124_minkowski_ignored",
    "Verif.Props.C124_gpu_fit_partial",
    "Verif.Props.C124_gpu_small_data",
    "Verif.Props.C124_gpu_predict_partial"
   ],
   "note": "Proved end to end: device distances equal the CPU's for planar and geographic coordinates; with at least as many observations as the group size and a bandwidth that means the same on both devices (C06), fit and prediction succeed exactly where the CPU's do and return the same. Refuted: Minkowski metrics are ignored on the device (C124_minkowski_ignored); fewer observations than the group size always throw (C124_gpu_small_data)."
  },
  {
   "property": "C125",
   "status": "partial",
   "theorems": [
    "Verif.Props.C125_gpu_criterion_partial",
    "Verif.Props.C125_gpu_auto_fit_partial",
    "Verif.Props.C125_undefined_is_zero_fit",
    "Verif.Props.C125_gpu_search_prefers_undefined"
   ],
   "note": "Proved: criterion values and completed runs, where the criterion is defined and the bandwidth means the same on both devices. Refuted: an undefined leave-one-out score counts as the sum of squares of the response (C125_undefined_is_zero_fit), so the search may select such a bandwidth (C125_gpu_search_prefers_undefined)."
  },
  {
   "property": "C126",
   "status": "partial",
   "theorems": [
    "Verif.Props.C126_gpu_criterion_partial",
    "Verif.Props.C126_gpu_var_fit_partial",
    "Verif.Props.C126_gpu_var_auto_fit_partial",
    "Verif.Props.C126_undetermined_is_zero_fit",
    "Verif.Props.C126_gpu_selects_zeros"
   ],
   "note": "Criterion and whole runs proved where the regressions are determined (any kernel and bandwidth: the device gives every observation weight 1 for DBL_MAX). Refuted: an undetermined set is scored as a model without parameters, so a column of zeros is selected and the fit throws."
  },
  {
   "property": "C127",
   "status": "partial",
   "theorems": [
    "Verif.Props.C127_search_starts",
    "Verif.Props.C127_basic_range",
    "Verif.Props.C127_basic_fit",
    "Verif.Props.C127_multiscale_initial",
    "Verif.Props.C127_multiscale_range",
    "Verif.Props.C127_gpu_range",
    "Verif.Props.C127_robust_range",
    "Verif.Props.C127_ridge_range",
    "Verif.Props.C127_generalised_range",
    "Verif.Props.C127_spacetime_range",
    "Verif.Props.C127_spacetime_range_is_astronomic",
    "Verif.Props.C127_few_observations"
   ],
   "note": "Proved for basic regression (CPU, any mode, with bounds; GPU), robust, local ridge, generalised and space-time regression and for multiscale regression (initial fit and variables without start value). Refuted in spirit in two situations: with observations of different times the largest space-time distance is the sentinel 10^13, so a fixed bandwidth is first tried at 6*10^12 whatever the data, and with fewer than 18 observations the range 20..n is upside down and the first number of neighbours tried exceeds n."
  },
  {
   "property": "C128",
   "status": "partial",
   "theorems": [
    "Verif.Props.C128_data_entry",
    "Verif.Props.C128_asked_for",
    "Verif.Props.C128_location_not_stored",
    "Verif.Props.C128_location_throws",
    "Verif.Props.C128_location_two_calls",
    "Verif.Props.C128_fit_partial",
    "Verif.Props.C128_small_data",
    "Verif.Props.C128_selecting_fit_partial",
    "Verif.Props.C128_failed_call_changes_nothing",
    "Verif.Props.C128_runs_independent",
    "Verif.Props.C128_predict_partial",
    "Verif.Props.C128_minkowski_settings_ignored",
    "Verif.Props.C128_missing_settings",
    "Verif.Props.C128_predict_elsewhere"
   ],
   "note": "Every entry of predictors and responses, and bandwidth, kernel, is the last given one in any session; a fit that returns true makes readable exactly the report of basic regression (with or without selections of bandwidth and variables), for at least 64 observations; failing calls change nothing; fits do not depend on earlier runs. Refuted: setCoords takes the first coordinate as a column number, so locations are not stored (or the call throws); exponent and angle of Minkowski distances have no effect in any session; fewer than 64 observations always fail; prediction at fewer places fails and at more is undefined; missing kernel settings are undefined. Missing: CUDA errors, and geographic prediction at other numbers of places."
  },
  {
   "property": "C129",
   "status": "partial",
   "theorems": [
    "Verif.Props.C129_copies_are_values_partial",
    "Verif.Props.C129_memory_lost",
    "Verif.Props.C129_copies_lose_diagnostics",
    "Verif.Props.C129_fit_diagnostics_not_zero",
    "Verif.Props.C129_copy_without_distance"
   ],
   "note": "Proved for every program: the heap program ends without memory error exactly if the program on values is defined, all calls end alike, and the tasks agree in everything but the diagnostics (pointers are never shared). Refuted: copies have all diagnostics 0 and assigned tasks keep their old ones; the exact amount of memory lost is proved (one object per choice of a distance type, two per assignment); tasks with another type number cannot be copied. Missing: GWRBasicGpuTask_Del deletes through a class without virtual destructor, which the language leaves undefined; tasks of different sizes."
  },
  {
   "property": "C130",
   "status": "partial",
   "theorems": [
    "Verif.Props.C130_serial_runs",
    "Verif.Props.C130_parallel_partial",
    "Verif.Props.C130_parallel_jumps",
    "Verif.Props.C130_parallel_failed",
    "Verif.Props.C130_gpu",
    "Verif.Props.C130_scalable",
    "Verif.Props.C130_selection",
    "Verif.Props.C130_search_percent",
    "Verif.Props.C130_percent_successive",
    "Verif.Props.C130_percent_back",
    "Verif.Props.C130_calibration_over_one",
    "Verif.Props.C130_simplex_over_one"
   ],
   "note": "Proved for serial fits and predictions, the GPU, the scalable regression and variable selection, all with stop requests and failures; percentages of bandwidth searches are fractions. Multithreaded: each count at most once and within the total; refuted: 'n of n' can come first and is reported by fits that fail. Refuted: the calibration of the generalised regression and the converged search of the scalable regression report more than 100 %; percentages of a search go down."
  },
  {
   "property": "C131",
   "status": "partial",
   "theorems": [
    "Verif.Props.C131_density",
    "Verif.Props.C131_spacetime",
    "Verif.Props.C131_ridge_components",
    "Verif.Props.C131_serial_reports",
    "Verif.Props.C131_parallel_dies",
    "Verif.Props.C131_accepted_never_preferred"
   ],
   "note": "Serial fits, predictions, local statistics and ridge fits throw for all inputs; the serial criterion gives the worst value. Refuted for multithreaded runs (C131_parallel_dies): the exception leaves the parallel loop and ends the program. isValid accepts such a bandwidth (C131_accepted_never_preferred). The same for space-time, density and ridge regression, and serially for principal components (C131_spacetime, C131_density, C131_ridge_components)."
  },
  {
   "property": "C132",
   "status": "partial",
   "theorems": [
    "Verif.Props.C132_selection_partial",
    "Verif.Props.C132_program_partial",
    "Verif.Props.C132_memory_is_lost"
   ],
   "note": "Proved for all programs: no memory error, no sharing, every model holds what its searches give (refinement to the search on values), and the exact number of lost objects. Refuted: objects are lost - one by every completed selection (setWeight clones the returned object and nobody deletes it), two by a selection that throws or is stopped at its start (C132_memory_is_lost)."
  },
  {
   "property": "C133",
   "status": "partial",
   "theorems": [
    "Verif.Props.C133_in_step_partial",
    "Verif.Props.C133_one_process",
    "Verif.Props.C133_never_negative",
    "Verif.Props.C133_exact_data"
   ],
   "note": "The processes stay in step and agree; with one process the result is the ordinary one. Refuted for two or more: coefficients are combined by MPI_MAX over vectors padded with zeros, so no negative coefficient survives (C133_never_negative), and exactly linear data with a negative coefficient are not recovered (C133_exact_data). Missing: blocks of 2^31 entries or more, processes without work, stop requests."
  },
  {
   "property": "C134",
   "status": "partial",
   "theorems": [
    "Verif.Props.C134_private_cell",
    "Verif.Props.C134_results",
    "Verif.Props.C134_no_race",
    "Verif.Props.C134_default_races",
    "Verif.Props.C134_failure_races",
    "Verif.Props.C134_ridge_results",
    "Verif.Props.C134_ridge_members_lost"
   ],
   "note": "The results are those of the serial fit under every interleaving (C134_results, C134_ridge_results) and are never raced on (C134_no_race). Refuted: with default settings every pair of working threads races on the discarded slice of the coefficient matrices, and on the discarded hat row from 8192 observations on (C134_default_races); reporting a failure races (C134_failure_races); the ridge fit races on its trace members and can lose updates (C134_ridge_members_lost). Missing: multithreaded loops of the other algorithms, accesses inside the user's telegram; interleavings are sequentially consistent."
  },
  {
   "property": "C135",
   "status": "proved",
   "theorems": [
    "Verif.Props.C135_same_report",
    "Verif.Props.C135_run",
    "Verif.Props.C135_diagnostics"
   ],
   "note": "Refinement of Spec/BackFitting for every combination of modes; two runs that differ only in the way their fits are threaded report the same (C135_same_report). In multithreaded searches the value of a bandwidth whose regressions cannot be done is not specified (it is not DBL_MAX, see C28). Stop requests: C130; MPI: C133; CUDA not modelled. Several fits of one object: C136."
  },
  {
   "property": "C136",
   "status": "partial",
   "theorems": [
    "Verif.Props.C136_second_fit",
    "Verif.Props.C136_given_kept",
    "Verif.Props.C136_settled_kept",
    "Verif.Props.C136_refit_partial",
    "Verif.Props.C136_second_fit_differs"
   ],
   "note": "Proved when all bandwidths are given (C136_refit_partial). In general a further fit is the first fit of a new object that starts from the bandwidths found and takes settled ones as given (C136_second_fit, C136_settled_kept). Refuted when bandwidths are searched: C136_second_fit_differs gives a data set on which the coefficients of two fits in a row differ."
  },
  {
   "property": "C137",
   "status": "partial",
   "theorems": [
    "Verif.Props.C137_any_angle",
    "Verif.Props.C137_obtuse_fails",
    "Verif.Props.C137_default_fails"
   ],
   "note": "C137_any_angle: the factor is |cos \u03b8| for every \u03b8 that is not a right angle (up to 1e-15), so the claim holds for acute angles. Refuted for every obtuse angle (C137_obtuse_fails) and for the default (C137_default_fails), which uses factor 1 and not 0."
  },
  {
   "property": "C138",
   "status": "partial",
   "theorems": [
    "Verif.Props.C138_spacetime",
    "Verif.Props.C138_robust",
    "Verif.Props.C138_generalised_partial",
    "Verif.Props.C138_density"
   ],
   "note": "C138_spacetime and C138_robust: from a run completing in any mode, every mode gives the same report. C138_generalised_partial: equality of whole runs for the cross-validation criterion; for AIC the multithreaded criterion depends on the schedule (C91_threads_violate). C138_density: the threaded run repeats every completed serial run; when the serial run throws, the threaded one can differ (C112_parallel_fails). Ridge: C103_modes_agree. Missing: exceptional outcomes in the first two, stop requests, CUDA."
  },
  {
   "property": "C139",
   "status": "partial",
   "theorems": [
    "Verif.Props.C139_robust",
    "Verif.Props.C139_spacetime",
    "Verif.Props.C139_density"
   ],
   "note": "C139_robust and C139_spacetime: from a completing run in any mode to the run on the changed response in any mode; lambda selected by the run is allowed when the effect is the same everywhere (otherwise R-squared itself changes). C139_density: from a completing serial run; its second part, selected bandwidths, gives both runs the same answers of the external minimiser, which is an assumption. Missing: automatic bandwidth selection (the comparison with the largest double is not scale free), unfinished runs. Ridge regression: C146."
  },
  {
   "property": "C140",
   "status": "partial",
   "theorems": [
    "Verif.Props.C140_basic",
    "Verif.Props.C140_robust",
    "Verif.Props.C140_spacetime",
    "Verif.Props.C140_density_criteria",
    "Verif.Props.C140_density"
   ],
   "note": "C140_basic, C140_robust and C140_spacetime: from a completing run in any mode to the run on reordered data in any mode, bandwidth given or selected; the bandwidth search of C140_basic is the serial one (C28_same_fit relates it to the others). C140_density: from a completing serial run; with selected bandwidths both runs get the same answers of the external minimiser, whose objective and starting point are shown to be the same (C140_density_criteria). Exact arithmetic: floating-point sums do depend on the order. Ridge, generalised regression and discriminant analysis: C143, C145, C144. Missing: multiscale regression, variable selection, unfinished runs."
  },
  {
   "property": "C141",
   "status": "partial",
   "theorems": [
    "Verif.Props.C141_matrix",
    "Verif.Props.C141_weights_unit",
    "Verif.Props.C141_equal_weights",
    "Verif.Props.C141_shape",
    "Verif.Props.C141_pairs",
    "Verif.Props.C141_pairs_unit_fails"
   ],
   "note": "C141_matrix, C141_weights_unit, C141_equal_weights and C141_shape for the matrix function; C141_pairs for weights that add up to one. For other weights the pair functions fail: C141_pairs_unit_fails has a variance and a self-correlation of -1."
  },
  {
   "property": "C142",
   "status": "partial",
   "theorems": [
    "Verif.Props.C142_del_partial",
    "Verif.Props.C142_single_fails"
   ],
   "note": "C142_del_partial for vectors of at least two elements; C142_single_fails: the only element of a vector cannot be removed, the call throws."
  },
  {
   "property": "C143",
   "status": "partial",
   "theorems": [
    "Verif.Props.C143_ridge",
    "Verif.Props.C143_average",
    "Verif.Props.C143_correlation",
    "Verif.Props.C143_ties_fails",
    "Verif.Props.C143_components_partial",
    "Verif.Props.C143_components_fails"
   ],
   "note": "C143_ridge, C143_average (quartiles for variables without equal values) and C143_correlation. C143_ties_fails: for variables with equal values the rank correlation depends on the order, however ties are broken. C143_components_partial: the percentages move with their observations and the variances up to one common factor; C143_components_fails: the factor is not 1, because the code scales with the weights at the observation listed last."
  },
  {
   "property": "C144",
   "status": "partial",
   "theorems": [
    "Verif.Props.C144_classes",
    "Verif.Props.C144_probabilities_fails"
   ],
   "note": "C144_classes: scores per label, named classes (where the scores of an observation differ from each other) and the correct rate. C144_probabilities_fails: the published probabilities depend on the order, because the score of the class met last is not exponentiated."
  },
  {
   "property": "C145",
   "status": "partial",
   "theorems": [
    "Verif.Props.C145_fit",
    "Verif.Props.C145_selection",
    "Verif.Props.C145_selection_modes"
   ],
   "note": "C145_fit: given bandwidth, all modes. C145_selection: bandwidth selected by AIC or cross-validation, serially. C145_selection_modes: cross-validation in all modes. Missing: the multithreaded AIC criterion, which uses only the sum of one thread (C91) and so depends on the schedule."
  },
  {
   "property": "C146",
   "status": "partial",
   "theorems": [
    "Verif.Props.C146_unit",
    "Verif.Props.C146_unit_prediction",
    "Verif.Props.C146_effect_without_ridge",
    "Verif.Props.C146_effect_fails"
   ],
   "note": "C146_unit and C146_unit_prediction: given bandwidth. C146_effect_without_ridge: ridge parameter 0, both runs completing (a response without weighted variation does not complete). C146_effect_fails: with any other given ridge parameter no effect is found again at any location, because the intercept is shrunk too. Missing: automatic bandwidth selection (the comparison with the largest double is not scale free), effects with adjusted ridge parameters."
  },
  {
   "property": "C147",
   "status": "partial",
   "theorems": [
    "Verif.Props.C147_drawings",
    "Verif.Props.C147_ridge",
    "Verif.Props.C147_robust",
    "Verif.Props.C147_generalised",
    "Verif.Props.C147_discriminant",
    "Verif.Props.C147_components",
    "Verif.Props.C147_any_regression",
    "Verif.Props.C147_any_robust",
    "Verif.Props.C147_any_analysis",
    "Verif.Props.C147_density",
    "Verif.Props.C147_density_selection",
    "Verif.Props.C147_selected_distance",
    "Verif.Props.C147_exact_scale_fails",
    "Verif.Props.C147_basic_selection_any_mode",
    "Verif.Props.C147_multiscale",
    "Verif.Props.C147_scalable",
    "Verif.Props.C147_ridge_selected_distance",
    "Verif.Props.C147_generalised_selected_distance",
    "Verif.Props.C147_ridge_selection",
    "Verif.Props.C147_generalised_selection",
    "Verif.Props.C147_robust_selection",
    "Verif.Props.C147_basic_selection",
    "Verif.Props.C147_spacetime"
   ],
   "note": "C147_drawings: motions of the plane are redrawings; the theorems without _selection are about every redrawing (all distances multiplied by one factor), and equate outcomes, also failing ones. The _selection theorems are about automatic bandwidths on planar maps: a number of neighbours under every motion, a distance under motions that keep the scale, without any condition on radii. Basic regression and summary statistics with a given bandwidth: C121, C116. C147_spacetime and C147_multiscale: turning and shifting only, with and without selections. C147_scalable: all distances multiplied by one factor, for a sort that lists equal distances in the same order. C147_selected_distance: the distances selected on a map and on a larger drawing of it, in the same units, differ by at most 0.0002, with any data and either criterion (basic and robust regression; C147_ridge_selected_distance and C147_generalised_selected_distance: the same for ridge and generalised regression, when no evaluation throws); C147_exact_scale_fails: they need not be equal. C147_any_regression, C147_any_robust, C147_any_analysis: given bandwidths on planar maps without any condition on radii or sizes. C147_density, C147_density_selection: density regression with a new unit, origin and direction on every axis; for the selection the minimiser is a black box that sees the same criterion and start. Missing: density regression that selects distances; given bandwidths with radius 0 on geographic maps."
  }
 ]
}
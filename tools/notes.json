{
 "C06": {
  "status": "partial",
  "note": "CPU and GPU agree for every kernel except boxcar at distance equal to the bandwidth (fixed) and for integral adaptive bandwidths up to n; the remaining disagreements are proved as C06_boxcar_boundary_differs, C06_fractional_differs, C06_large_differs."
 },
 "C09": {
  "status": "partial",
  "note": "Holds for the coordinate and one-dimensional distances; refuted for the distance-matrix class (C09_dmat_violates) and for the spatio-temporal class, which keeps answering after a rejected set-up (C09_st_rejected_still_answers). What the set-up of the latter accepts is proved (C09_st_make_reports, C09_st_accepted)."
 },
 "C10": {
  "status": "partial",
  "note": "Holds for CRSDistance and MinkwoskiDistance; refuted for OneDimDistance, DMatDistance and CRSSTDistance, whose clones lose their parameter. Given the same places and times again, a copy of a space-time distance answers as the original does (C10_st_clone_configured)."
 },
 "C11": {
  "status": "partial",
  "note": "The code swaps Chebyshev and Manhattan and throws for any other exponent; what it computes is proved, the documented formula is refuted."
 },
 "C12": {
  "status": "partial",
  "note": "The constructors do not check lambda (refuted by C12_constructor_unchecked); everything else is proved."
 },
 "C55": {
  "status": "partial",
  "note": "Symmetry, sign and accuracy proved for every answered query; the pole and the 0..360 longitude convention are refuted."
 },
 "C13": {
  "status": "partial",
  "note": "Holds for every history in which copies are taken from objects that hold a weight and a distance and no object is assigned from itself; copying an empty object and self-assignment are proved undefined behaviour (C13_copy_of_empty_ub, C13_self_reference_ub)."
 },
 "C15": {
  "status": "partial",
  "note": "Proved for fixed bandwidths. Refuted for adaptive ones (C15_adaptive_leaves_bounds: bounds 20..29, returns 19); the drift bound is C15_adaptive_near_bounds_partial."
 },
 "C33": {
  "status": "partial",
  "note": "Thread-block geometry, group coverage and equality with the serial fit proved when n is at least the group length; refuted for smaller data and for reused device state (C33_small_data_fails, C33_small_data_cv_zero, C33_stale_trace, C33_predict_other_count_fails, C33_stale_device_points)."
 },
 "C20": {
  "status": "partial",
  "note": "Refuted as stated: with no gap or a single candidate the choice is undefined, and a stage loser can be selected (C20_no_gap_undefined, C20_single_candidate_undefined, C20_selects_stage_loser)."
 },
 "C28": {
  "status": "partial",
  "note": "Equal whenever every local fit succeeds; if no tried bandwidth scores DBL_MAX in the serial run, whole searches and fits are the same in every mode (C28_same_search, C28_same_fit). Refuted when a local fit is singular (C28_singular_criteria_differ)."
 },
 "C50": {
  "status": "proved",
  "note": "Serial mode (parallel through C27), coordinate distances, no stop request."
 },
 "C57": {
  "status": "partial",
  "note": "Proved for serial mode, planar and geographic coordinates; refuted for parallel mode (C57_parallel_selects_unusable)."
 },
 "C52": {
  "status": "partial",
  "note": "Exact acceptance conditions proved; refuted: null weight is dereferenced, a missing distance, an adaptive bandwidth below 1 and (GWSS, GWDA) mismatching rows are accepted."
 },
 "C51": {
  "status": "proved",
  "note": "Serial mode (parallel through C27), coordinate distances. Reordering: fit, diagnostics, criterion values and selection with given bounds. Rigid motions: fit, prediction and automatic selection incl. default bounds."
 },
 "C30": {
  "status": "partial",
  "note": "Partition and arrival-order independence proved whenever every process gets a range; refuted when (P-1)*ceil(n/P) >= n (C30_malformed_range, C30_fit_fails_without_work)."
 },
 "C31": {
  "status": "partial",
  "note": "Proved for non-negative coefficients; refuted for negative ones, which the maximum reduction loses (C31_negative_coefficients_lost)."
 },
 "C32": {
  "status": "partial",
  "note": "Proved for products whose element counts fit an int; undefined behaviour beyond (C32_overflow)."
 },
 "C49": {
  "status": "partial",
  "note": "Proved for every program that moves only from owners, assigns by copy between equal sizes to owners and by move to non-owners; refuted for the others (C49_move_assignment_leaks, C49_moved_from_twice, C49_moved_view, C49_copy_to_default_leaks, C49_transpose_to_moved_from, C49_self_move_leaks, C49_copy_of_smaller_ub, C49_batched_move)."
 },
 "C42": {
  "status": "partial",
  "note": "Proved whenever the run is defined; C42_defined_iff says exactly when it is, and C42_two_points_undefined refutes the claim as stated (an unsigned index wraps around)."
 },
 "C43": {
  "status": "partial",
  "note": "Weight function, both iteration schemes and the meaning of the result are proved; refuted for a perfect fit, where the second method gives every observation weight 0 and throws (C43_perfect_fit_fails)."
 },
 "C54": {
  "status": "partial",
  "note": "Product weights, serial fit, cross-validation and AICc (both variants) proved; refuted for the parallel fit, which returns zeros for failed locations instead of throwing (C54_parallel_hides_failures)."
 },
 "C60": {
  "status": "partial",
  "note": "Holds for GWRBasic (C21_prediction_is_weighted_least_squares, C50); refuted for GWDR and GWRMultiscale, whose predict returns zeros."
 },
 "C61": {
  "status": "partial",
  "note": "Termination and verdict proved. Start and rounding proved for adaptive kernels; refuted for fixed kernels (start at n times the bandwidth) and for small bandwidths (rounded to 0)."
 },
 "C62": {
  "status": "partial",
  "note": "Loadings, optimality, percentages proved for every valid decomposition; standard deviations are off by a factor (C62_sdev_partial, refuted by C62_sdev_wrong)."
 },
 "C63": {
  "status": "partial",
  "note": "Largest signed loading proved; refuted as stated (C63_winner_depends_on_sign)."
 },
 "C34": {
  "status": "proved",
  "note": "Serial and OpenMP, one process, any bandwidth choices and stop requests; diagnostics are those of the accumulated hat matrix. MPI and CUDA variants of the update not modelled."
 },
 "C35": {
  "status": "proved",
  "note": "Iteration limit, exact characterisation of frozen variables, persistence of frozen bandwidths, reason for ending."
 },
 "C64": {
  "status": "proved",
  "note": ""
 },
 "C65": {
  "status": "partial",
  "note": "Refuted: with type Initial, fixed kernel and no explicit bounds the search runs between 0 and 0 and the fit throws for every data set."
 },
 "C66": {
  "status": "proved",
  "note": ""
 },
 "C36": {
  "status": "proved",
  "note": "For every degree, positive scale and non-negative penalty: slots injective and in range, tables equal weighted normal equations with the polynomial kernel weights, coefficients are the weighted least squares solution or zero when not determined. Scale 0 gives no finite result. The GSL minimiser that picks scale and penalty is arbitrary."
 },
 "C37": {
  "status": "partial",
  "note": "Lists proved; the search fails with CV for every bandwidth of 2..50 points below n (C37_cv_small_bandwidth_fails)."
 },
 "C67": {
  "status": "partial",
  "note": "Refuted by theorem: the own observation is in the CV list with positive weight; with AIC it is listed twice."
 },
 "C68": {
  "status": "partial",
  "note": "Refuted by theorem: the reported trace scales with 1/c^2 while the leverage is invariant."
 },
 "C69": {
  "status": "partial",
  "note": "Refuted by theorem: the exponential kernel is a Gaussian with another scale."
 },
 "C38": {
  "status": "proved",
  "note": "For every weighted design matrix and threshold > 1, with singular values specified by extreme stretching; lambda is positive, makes the ratio equal to the threshold and is the smallest that does. C38_small_threshold: thresholds <= 1 are accepted and give nonfinite or negative lambda."
 },
 "C39": {
  "status": "partial",
  "note": "Refuted for serial ridge regression (effective parameters grow with each fit) and for scalable regression (second fit fails); proved for parallel ridge regression."
 },
 "C70": {
  "status": "proved",
  "note": "Unique minimiser for all data; division by a zero standard deviation yields no result."
 },
 "C71": {
  "status": "partial",
  "note": "Refuted: traces ignore the ridge parameter, the reported leverage exceeds the true one, and fits of collinear data fail although the ridge estimate exists."
 },
 "C72": {
  "status": "partial",
  "note": "Refuted: parallel prediction ends the program for any locations."
 },
 "C73": {
  "status": "proved",
  "note": "Serial prediction, CV score."
 },
 "C44": {
  "status": "proved",
  "note": "For every objective, also history-dependent, non-finite or interrupted by a stop request: lambda and all tried lambdas in [0,1], 4 to 104 evaluations, a fit with automatic lambda equals the fit with the selected lambda."
 },
 "C74": {
  "status": "partial",
  "note": "Proved: the bracket keeps the peak and lambda is within half its width. Refuted: if R-squared agrees at the two ends of the bracket the search stops at once; concrete data where the result is worse than a tried lambda."
 },
 "C75": {
  "status": "proved",
  "note": "Planar spatial distance."
 },
 "C76": {
  "status": "partial",
  "note": "Proved for fixed bandwidths below 10^13 and kernels of bounded support. Refuted for an adaptive bandwidth with the Gaussian kernel: the sentinel distance becomes the bandwidth."
 },
 "C77": {
  "status": "partial",
  "note": "Refuted: the locations are ignored, row r gets the coefficients of observation r, more locations than observations throw. The theorems describe what happens and give a witness."
 },
 "C78": {
  "status": "partial",
  "note": "Refuted: the range ends at the sentinel 10^13 whenever an observation is later than another."
 },
 "C45": {
  "status": "proved",
  "note": "Classes, partition, sizes, predicted label, correct rate and the entropy function. The published, normalised entropy is C80."
 },
 "C79": {
  "status": "proved",
  "note": "For non-negative weights and a pooled covariance that is not singular."
 },
 "C80": {
  "status": "partial",
  "note": "Fails: with two classes the entropy is divided by zero; with three or more it can exceed 1. Proved: bound log m / log (m-1). C80_entropy_exceeds_one is about a row of published probabilities, not a whole data set."
 },
 "C81": {
  "status": "partial",
  "note": "Fails: the quadratic rule throws unless all three options are local."
 },
 "C82": {
  "status": "partial",
  "note": "Fails on a data set: only the serial run leaves the location itself out. Later serial runs agree with OpenMP (C83_later_runs_agree_partial)."
 },
 "C83": {
  "status": "partial",
  "note": "Fails on a data set for the second serial run. Proved: all runs after the first agree with each other."
 },
 "C84": {
  "status": "partial",
  "note": "Fails on a data set: the last column is not exponentiated, so that probabilities can be negative. Proved: they add up to one."
 },
 "C85": {
  "status": "partial",
  "note": "Fails on a data set; the order among the classes other than the last one is always reversed."
 },
 "C46": {
  "status": "partial",
  "note": "Binomial: all of it. Poisson: link and inverse link are inverse on predictors whose mean is at least the clamping constant; below it they are not (C46_poisson_clamped). Deviance, iteration limit, completeness, weighted least squares per iteration and stationary point = maximum likelihood are proved for both families."
 },
 "C86": {
  "status": "partial",
  "note": "Holds when n-k-1 divides 2k(k+1), and the value is always within 1 below (C86_correction_partial); integer division truncates (C86_correction_truncated, C86_correction_vanishes) and n = k+1 divides by zero (C86_division_by_zero)."
 },
 "C87": {
  "status": "partial",
  "note": "Refuted: both entry points fail for every data set with two or more observations (C87_fit_without_hat_matrix_fails, C87_predict_fails)."
 },
 "C88": {
  "status": "partial",
  "note": "Holds when the calibration converged (C88_means_partial); at the iteration limit it fails (C88_limit_violates)."
 },
 "C89": {
  "status": "partial",
  "note": "Proved for Poisson counts and for binomial 0/1 responses; refuted for binomial proportions (C89_proportion_violates)."
 },
 "C91": {
  "status": "partial",
  "note": "Equal when one thread does all the work (C91_single_thread_partial); C91_parallel_value says what is computed for every schedule (only thread 0's part of the trace); refuted in general by C91_threads_violate."
 },
 "C93": {
  "status": "partial",
  "note": "Refuted: the penalty is the number of observations (C93_penalty, C93_penalty_too_large)."
 },
 "C94": {
  "status": "partial",
  "note": "Refuted: the criterion throws, serial and parallel (C94_cv_throws, C94_aic_throws)."
 },
 "C47": {
  "status": "partial",
  "note": "Basic GWR, GTWR and generalised GWR: the criterion minimised is the one reported after every history that contains a choice of criterion (or of an accepted parallel type); new objects report AIC and minimise CV (refuted on data where the values differ). GWDR: holds for every history. Ridge regression: AIC calls a null pointer."
 },
 "C48": {
  "status": "partial",
  "note": "Last value set is the value returned, for every history of setters of basic and generalised GWR. Refuted for isStoreS, the regression data of generalised GWR and the initial weight and per-variable settings of multiscale GWR."
 },
 "C95": {
  "status": "partial",
  "note": "Holds for basic GWR, GWSS, GTWR, GWDR, discriminant analysis and ridge regression for every history. Refuted for generalised GWR (null pointer for combined MPI types, uninitialised family), robust GWR (inherited pointers not refreshed), multiscale GWR (combined MPI types are accepted and run serial cores) and ridge regression without OpenMP."
 },
 "C96": {
  "status": "partial",
  "note": "Holds for basic GWR with a fixed kernel (adaptive: C15). Refuted for robust GWR, which ignores the bounds."
 },
 "C97": {
  "status": "proved",
  "note": "Identity with the textbook formulas (Spec/Formulas) for all five kernels, fixed and adaptive bandwidths, over the reals."
 },
 "C98": {
  "status": "proved",
  "note": "End to end from coordinates to coefficients for planar distances, fixed and adaptive bandwidths with 1 <= k < n, fit, prediction and automatic selection; exact success condition for fixed bandwidths. Real arithmetic. Adaptive case: no k observations coincide with a regression point."
 },
 "C99": {
  "status": "proved",
  "note": "Serial mode, planar distances, hat matrix on, no stop requests. All variables, all modes, geographic distances: C135."
 },
 "C100": {
  "status": "proved",
  "note": "Whole serial runs of fit and predict, from a distance matrix to coefficients, with the parameter minimiser, the order among equal distances and the treatment of singular systems in CV left open. Stop requests and the second trace are not modelled."
 },
 "C101": {
  "status": "partial",
  "note": "Proved for basic regression and, for scalable regression, that prediction at the observations equals the fit. Refuted for scalable regression in general: its base bandwidth is a median over the requested locations (C101_scalable_depends_on_other_locations)."
 },
 "C102": {
  "status": "partial",
  "note": "Search, criterion, columns and coefficients of the fit proved here for fixed bandwidths in planar coordinates; C120 proves the same for both kinds of bandwidth, geographic coordinates and every mode. Refuted: the criterion uses bandwidth DBL_MAX, not the bandwidth of the model, and a second fit of the object starts from the reduced data (with one selected variable it reads before the start of a list). Missing: runs whose criterion is not finite."
 },
 "C103": {
  "status": "proved",
  "note": "Assumes an exact singular value decomposition (ExactSV; exactSV_exists shows that one exists), no stop request, a nonnegative ridge parameter and a radius that is positive everywhere. C103_modes_agree, C103_any_fit and C103_any_choice hold for serial and multithreaded runs, planar and geographic coordinates, fixed and adaptive bandwidths. The hat matrix is the unpenalised one (see C71 for what that breaks)."
 },
 "C104": {
  "status": "proved",
  "note": "No stop requests. The factor of the mixed term is the one the distance object uses (1, or the cosine of the angle: C12). A selected bandwidth is judged with the λ set before the run, as the statement says. C79: without a single peak nothing is promised about λ."
 },
 "C105": {
  "status": "partial",
  "note": "Fails on a data set of nine observations: the code penalises a class by half the number of classes (rounded down) times the logarithm of the norm of its covariance, in place of half the logarithm of the determinant. Proved: the exact scores of both rules and the rule that the code implements."
 },
 "C106": {
  "status": "proved",
  "note": "The entropy formula is for rows that are distributions; which rows are is C84. OpenMP only fills the weight matrix."
 },
 "C107": {
  "status": "proved",
  "note": "Spec/IRLS.lean is the textbook iteration. The corrected AIC, computed in unsigned integers, is C86."
 },
 "C108": {
  "status": "partial",
  "note": "Fits and bandwidth choice proved for every kind of bandwidth, planar and geographic coordinates, serial and parallel mode. Refuted for one case: the Akaike criterion in parallel mode counts only the leverages of the locations run by thread 0, so the choice is not by that criterion (C108_criterion gives the value compared, C91_threads_violate a difference)."
 },
 "C109": {
  "status": "partial",
  "note": "False: all locations share one working response, built from every observation's own coefficients. Refuted for every pair of different counts at two locations with weight strictly between 0 and 1; proved where the neighbours' linear predictors agree with the local coefficients."
 },
 "C110": {
  "status": "proved",
  "note": "Every kind of bandwidth, planar and geographic coordinates, serial and threaded (C110_any_fit, C110_any_choice); no stop requests. Bandwidths must make sense for the distances (UsableRadius)."
 },
 "C111": {
  "status": "partial",
  "note": "Refuted for every n ≥ 11 and both methods: predict does not use the robust weights. Proved when the last robust weights are all 1. C111_prediction says what is predicted at any places."
 },
 "C112": {
  "status": "partial",
  "note": "Coefficients, diagnostics and standard errors proved for fixed and adaptive kernels, serial and threaded; exact condition for serial success. Refuted in parallel mode: undetermined locations silently get coefficients 0."
 },
 "C113": {
  "status": "partial",
  "note": "Results are those of the reported bandwidths, which are whole numbers; starting bandwidth proved for fixed kernels here, for adaptive kernels in C61. Refuted: a best bandwidth below 1/2 is rounded to 0 and the fit never returns. GSL's minimiser is arbitrary; that it improves on the start is not proved."
 },
 "C114": {
  "status": "proved",
  "note": "Both with given and with selected bandwidths; every thread schedule."
 },
 "C115": {
  "status": "partial",
  "note": "C115_average and C115_correlation: runs always succeed and give the explicit weighted statistics. C115_quantiles: with quantiles the run works exactly if the smallest observation has at most a quarter of the weights. Refuted for quantiles by C115_quantiles_need_four: undefined behaviour for every data set of fewer than four observations, and whenever the smallest observation has fewer than four effective neighbours."
 },
 "C116": {
  "status": "proved",
  "note": "C116_average_units, C116_correlation_units (rank correlations: if no two observations have the same value; with ties the library's sorting order decides, C58_ties_differ), C116_map."
 },
 "C117": {
  "status": "partial",
  "note": "C117_run (success exactly when some variable varies; optimal orthonormal components; percentages; winners) and C117_invariance. Refuted for the standard deviations by C117_sdev_wrong: they are scaled by the weights of the last location. Existence of a decomposition as assumed: Lemmas.exists_rightSVD."
 },
 "C118": {
  "status": "proved",
  "note": "The weights themselves are the model's kernels of C97 and distances of C07/C55."
 },
 "C119": {
  "status": "partial",
  "note": "The selection and its report are proved; independence of units is refuted (absolute tolerances 1e-4 on bandwidth and criterion). In parallel mode the value of a bandwidth with failing locations is arbitrary (C28)."
 },
 "C120": {
  "status": "partial",
  "note": "Proved where the candidate regressions are determined (and serially everywhere); refuted in parallel mode for undetermined candidates."
 },
 "C121": {
  "status": "proved",
  "note": "Whole runs with a given bandwidth."
 },
 "C122": {
  "status": "partial",
  "note": "Every reported number is given explicitly in terms of the weights. Independence of the unit is refuted: the trace is divided by the square of the factor, because the code applies the inverse of the squared cross-product matrix where the inverse of the matrix belongs, and takes the square root of the variances twice."
 },
 "C123": {
  "status": "partial",
  "note": "Success certifies the result, for every history and every stop request (C123_success_certifies_*). Without a stop request fits do not influence each other (C123_refit); runs with a given bandwidth never do (C123_given_bandwidth). Refuted after a stop request: the status is never reset, and from then on automatic bandwidth selection does nothing, silently (C123_terminated_never_searches, C123_terminated_fit, C123_cancelled_object). Refuted: a prediction cancelled at its first poll has one row per observation, not per location (C123_cancelled_prediction_shape). Left out: automatic variable selection within a history (it replaces the stored data)."
 },
 "C124": {
  "status": "partial",
  "note": "Proved end to end: device distances equal the CPU's for planar and geographic coordinates; with at least as many observations as the group size and a bandwidth that means the same on both devices (C06), fit and prediction succeed exactly where the CPU's do and return the same. Refuted: Minkowski metrics are ignored on the device (C124_minkowski_ignored); fewer observations than the group size always throw (C124_gpu_small_data)."
 },
 "C125": {
  "status": "partial",
  "note": "Proved: criterion values and completed runs, where the criterion is defined and the bandwidth means the same on both devices. Refuted: an undefined leave-one-out score counts as the sum of squares of the response (C125_undefined_is_zero_fit), so the search may select such a bandwidth (C125_gpu_search_prefers_undefined)."
 },
 "C126": {
  "status": "partial",
  "note": "Criterion and whole runs proved where the regressions are determined (any kernel and bandwidth: the device gives every observation weight 1 for DBL_MAX). Refuted: an undetermined set is scored as a model without parameters, so a column of zeros is selected and the fit throws."
 },
 "C127": {
  "status": "partial",
  "note": "Proved for basic regression (CPU, any mode, with bounds; GPU), robust, local ridge, generalised and space-time regression and for multiscale regression (initial fit and variables without start value). Refuted in spirit in two situations: with observations of different times the largest space-time distance is the sentinel 10^13, so a fixed bandwidth is first tried at 6*10^12 whatever the data, and with fewer than 18 observations the range 20..n is upside down and the first number of neighbours tried exceeds n."
 },
 "C128": {
  "status": "partial",
  "note": "Every entry of predictors and responses, and bandwidth, kernel, is the last given one in any session; a fit that returns true makes readable exactly the report of basic regression (with or without selections of bandwidth and variables), for at least 64 observations; failing calls change nothing; fits do not depend on earlier runs. Refuted: setCoords takes the first coordinate as a column number, so locations are not stored (or the call throws); exponent and angle of Minkowski distances have no effect in any session; fewer than 64 observations always fail; prediction at fewer places fails and at more is undefined; missing kernel settings are undefined. Missing: CUDA errors, and geographic prediction at other numbers of places."
 },
 "C129": {
  "status": "partial",
  "note": "Proved for every program: the heap program ends without memory error exactly if the program on values is defined, all calls end alike, and the tasks agree in everything but the diagnostics (pointers are never shared). Refuted: copies have all diagnostics 0 and assigned tasks keep their old ones; the exact amount of memory lost is proved (one object per choice of a distance type, two per assignment); tasks with another type number cannot be copied. Missing: GWRBasicGpuTask_Del deletes through a class without virtual destructor, which the language leaves undefined; tasks of different sizes."
 },
 "C130": {
  "status": "partial",
  "note": "Proved for serial fits and predictions, the GPU, the scalable regression and variable selection, all with stop requests and failures; percentages of bandwidth searches are fractions. Multithreaded: each count at most once and within the total; refuted: 'n of n' can come first and is reported by fits that fail. Refuted: the calibration of the generalised regression and the converged search of the scalable regression report more than 100 %; percentages of a search go down."
 },
 "C131": {
  "status": "partial",
  "note": "Serial fits, predictions, local statistics and ridge fits throw for all inputs; the serial criterion gives the worst value. Refuted for multithreaded runs (C131_parallel_dies): the exception leaves the parallel loop and ends the program. isValid accepts such a bandwidth (C131_accepted_never_preferred). The same for space-time, density and ridge regression, and serially for principal components (C131_spacetime, C131_density, C131_ridge_components)."
 },
 "C132": {
  "status": "partial",
  "note": "Proved for all programs: no memory error, no sharing, every model holds what its searches give (refinement to the search on values), and the exact number of lost objects. Refuted: objects are lost - one by every completed selection (setWeight clones the returned object and nobody deletes it), two by a selection that throws or is stopped at its start (C132_memory_is_lost)."
 },
 "C133": {
  "status": "partial",
  "note": "The processes stay in step and agree; with one process the result is the ordinary one. Refuted for two or more: coefficients are combined by MPI_MAX over vectors padded with zeros, so no negative coefficient survives (C133_never_negative), and exactly linear data with a negative coefficient are not recovered (C133_exact_data). Missing: blocks of 2^31 entries or more, processes without work, stop requests."
 },
 "C134": {
  "status": "partial",
  "note": "The results are those of the serial fit under every interleaving (C134_results, C134_ridge_results) and are never raced on (C134_no_race). Refuted: with default settings every pair of working threads races on the discarded slice of the coefficient matrices, and on the discarded hat row from 8192 observations on (C134_default_races); reporting a failure races (C134_failure_races); the ridge fit races on its trace members and can lose updates (C134_ridge_members_lost). Missing: multithreaded loops of the other algorithms, accesses inside the user's telegram; interleavings are sequentially consistent."
 },
 "C135": {
  "status": "proved",
  "note": "Refinement of Spec/BackFitting for every combination of modes; two runs that differ only in the way their fits are threaded report the same (C135_same_report). In multithreaded searches the value of a bandwidth whose regressions cannot be done is not specified (it is not DBL_MAX, see C28). Stop requests: C130; MPI: C133; CUDA not modelled. Several fits of one object: C136."
 },
 "C136": {
  "status": "partial",
  "note": "Proved when all bandwidths are given (C136_refit_partial). In general a further fit is the first fit of a new object that starts from the bandwidths found and takes settled ones as given (C136_second_fit, C136_settled_kept). Refuted when bandwidths are searched: C136_second_fit_differs gives a data set on which the coefficients of two fits in a row differ."
 },
 "C137": {
  "status": "partial",
  "note": "C137_any_angle: the factor is |cos θ| for every θ that is not a right angle (up to 1e-15), so the claim holds for acute angles. Refuted for every obtuse angle (C137_obtuse_fails) and for the default (C137_default_fails), which uses factor 1 and not 0."
 },
 "C138": {
  "status": "partial",
  "note": "C138_spacetime and C138_robust: from a run completing in any mode, every mode gives the same report. C138_generalised_partial: equality of whole runs for the cross-validation criterion; for AIC the multithreaded criterion depends on the schedule (C91_threads_violate). C138_density: the threaded run repeats every completed serial run; when the serial run throws, the threaded one can differ (C112_parallel_fails). Ridge: C103_modes_agree. Missing: exceptional outcomes in the first two, stop requests, CUDA."
 },
 "C139": {
  "status": "partial",
  "note": "C139_robust and C139_spacetime: from a completing run in any mode to the run on the changed response in any mode; lambda selected by the run is allowed when the effect is the same everywhere (otherwise R-squared itself changes). C139_density: from a completing serial run; its second part, selected bandwidths, gives both runs the same answers of the external minimiser, which is an assumption. Missing: automatic bandwidth selection (the comparison with the largest double is not scale free), unfinished runs. Ridge regression: C146."
 },
 "C140": {
  "status": "partial",
  "note": "C140_basic, C140_robust and C140_spacetime: from a completing run in any mode to the run on reordered data in any mode, bandwidth given or selected; the bandwidth search of C140_basic is the serial one (C28_same_fit relates it to the others). C140_density: from a completing serial run; with selected bandwidths both runs get the same answers of the external minimiser, whose objective and starting point are shown to be the same (C140_density_criteria). Exact arithmetic: floating-point sums do depend on the order. Ridge, generalised regression and discriminant analysis: C143, C145, C144. Missing: multiscale regression, variable selection, unfinished runs."
 },
 "C141": {
  "status": "partial",
  "note": "C141_matrix, C141_weights_unit, C141_equal_weights and C141_shape for the matrix function; C141_pairs for weights that add up to one. For other weights the pair functions fail: C141_pairs_unit_fails has a variance and a self-correlation of -1."
 },
 "C142": {
  "status": "partial",
  "note": "C142_del_partial for vectors of at least two elements; C142_single_fails: the only element of a vector cannot be removed, the call throws."
 },
 "C143": {
  "status": "partial",
  "note": "C143_ridge, C143_average (quartiles for variables without equal values) and C143_correlation. C143_ties_fails: for variables with equal values the rank correlation depends on the order, however ties are broken. C143_components_partial: the percentages move with their observations and the variances up to one common factor; C143_components_fails: the factor is not 1, because the code scales with the weights at the observation listed last."
 },
 "C144": {
  "status": "partial",
  "note": "C144_classes: scores per label, named classes (where the scores of an observation differ from each other) and the correct rate. C144_probabilities_fails: the published probabilities depend on the order, because the score of the class met last is not exponentiated."
 },
 "C145": {
  "status": "partial",
  "note": "C145_fit: given bandwidth, all modes. C145_selection: bandwidth selected by AIC or cross-validation, serially. C145_selection_modes: cross-validation in all modes. Missing: the multithreaded AIC criterion, which uses only the sum of one thread (C91) and so depends on the schedule."
 },
 "C146": {
  "status": "partial",
  "note": "C146_unit and C146_unit_prediction: given bandwidth. C146_effect_without_ridge: ridge parameter 0, both runs completing (a response without weighted variation does not complete). C146_effect_fails: with any other given ridge parameter no effect is found again at any location, because the intercept is shrunk too. Missing: automatic bandwidth selection (the comparison with the largest double is not scale free), effects with adjusted ridge parameters."
 },
 "C147": {
  "status": "partial",
  "note": "C147_drawings: motions of the plane are redrawings; the theorems without _selection are about every redrawing (all distances multiplied by one factor), and equate outcomes, also failing ones. The _selection theorems are about automatic bandwidths on planar maps: a number of neighbours under every motion, a distance under motions that keep the scale, without any condition on radii. Basic regression and summary statistics with a given bandwidth: C121, C116. C147_spacetime and C147_multiscale: turning and shifting only, with and without selections. C147_scalable: all distances multiplied by one factor, for a sort that lists equal distances in the same order. C147_selected_distance: the distances selected on a map and on a larger drawing of it, in the same units, differ by at most 0.0002, with any data and either criterion (basic and robust regression; C147_ridge_selected_distance and C147_generalised_selected_distance: the same for ridge and generalised regression, when no evaluation throws); C147_exact_scale_fails: they need not be equal. C147_any_regression, C147_any_robust, C147_any_analysis: given bandwidths on planar maps without any condition on radii or sizes. C147_density, C147_density_selection: density regression with a new unit, origin and direction on every axis; for the selection the minimiser is a black box that sees the same criterion and start. Missing: density regression that selects distances; given bandwidths with radius 0 on geographic maps."
 }
}
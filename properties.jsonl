{"id": "C01", "title": "Kernel weights are proper weights", "statement": "For every kernel function offered by the bandwidth weight, and every positive bandwidth, the weight given to a distance d >= 0 lies in [0,1], equals 1 at d = 0, and never increases when the distance grows.", "quantifier": "every kernel type, every real bandwidth > 0, every pair of non-negative distances", "why_tests_cant": "The claim ranges over a continuum of distances and bandwidths and five kernels; samples cannot show monotonicity between samples.", "anchors": ["include/gwmodelpp/spatialweight/BandwidthWeight.h: GaussianKernelFunction, ExponentialKernelFunction, BisquareKernelFunction, TricubeKernelFunction, BoxcarKernelFunction", "src/gwmodelpp/spatialweight/BandwidthWeight.cpp: weight"]}
{"id": "C02", "title": "Support of the kernels", "statement": "Bisquare, tricube and boxcar give weight 0 exactly to the distances at or beyond the bandwidth; Gaussian and exponential never give weight 0, so no observation is silently dropped.", "quantifier": "every kernel type, every bandwidth > 0, every distance >= 0", "why_tests_cant": "Exactly-zero versus positive is an all-distances statement with a boundary at equality.", "anchors": ["include/gwmodelpp/spatialweight/BandwidthWeight.h"]}
{"id": "C03", "title": "A larger bandwidth never reduces a weight", "statement": "For a fixed set of distances, increasing the bandwidth (fixed, and adaptive between neighbour counts) never decreases the weight of any observation.", "quantifier": "every kernel, every pair of bandwidths b1 <= b2, every vector of non-negative distances", "why_tests_cant": "Ranges over all pairs of bandwidths, including fractional adaptive ones, and all distance vectors.", "anchors": ["src/gwmodelpp/spatialweight/BandwidthWeight.cpp: weight"]}
{"id": "C04", "title": "Meaning of an adaptive bandwidth", "statement": "With an adaptive bandwidth b over n distances: an integer 1 <= b < n uses the b-th smallest distance as radius; a fractional b interpolates linearly between the two neighbouring order statistics; b >= n uses b/n times the largest distance; b < 1 (with n > 1) or an empty vector is reported as an error. With a compactly supported kernel fewer than b observations receive positive weight for integer b.", "quantifier": "every n, every distance vector (ties included), every real adaptive bandwidth, every kernel", "why_tests_cant": "Order statistics with ties over vectors of every length, and every error branch.", "anchors": ["src/gwmodelpp/spatialweight/BandwidthWeight.cpp: weight"]}
{"id": "C05", "title": "Weights follow the observations", "statement": "Weighting is equivariant: permuting the distances permutes the weights the same way, and the output always has as many entries as the input.", "quantifier": "every distance vector, every permutation, every kernel and bandwidth, adaptive or not", "why_tests_cant": "All permutations of all vectors.", "anchors": ["src/gwmodelpp/spatialweight/BandwidthWeight.cpp: weight"]}
{"id": "C06", "title": "CPU and GPU weights agree", "statement": "The GPU weight computation returns the same weights as the CPU one for the same distances, bandwidth and kernel.", "quantifier": "every distance vector, kernel, bandwidth and adaptive flag", "why_tests_cant": "The two implementations are different code; agreement is for every input, and tests on one device compare a few points.", "anchors": ["src/gwmodelpp/spatialweight/cuda/BandwidthWeightKernel.cu", "src/gwmodelpp/spatialweight/BandwidthWeight.cpp"]}
{"id": "C07", "title": "Planar distance is a metric", "statement": "The coordinate distance (non-geographic) returned for a focus point is non-negative, symmetric, zero exactly at equal coordinates, obeys the triangle inequality, and is unchanged when all coordinates are translated or rotated.", "quantifier": "every set of coordinates, every focus index, every rigid motion", "why_tests_cant": "Universal over real coordinates.", "anchors": ["src/gwmodelpp/spatialweight/CRSDistance.cpp: EuclideanDistance"]}
{"id": "C08", "title": "Reported maximum and minimum distances are sharp", "statement": "maxDistance() and minDistance() bound every distance between any focus and data point and are attained by some pair, so that bandwidth search bounds built from them cover all distances.", "quantifier": "every non-empty coordinate sets", "why_tests_cant": "Quantifies over all pairs of all inputs.", "anchors": ["src/gwmodelpp/spatialweight/CRSDistance.cpp: maxDistance, minDistance"]}
{"id": "C09", "title": "Distance parameter protocol", "statement": "A distance object answers a query only after it has been given valid parameters: before that, or after a rejected call, it throws; a query with an index at or beyond the number of focus points throws; otherwise it returns one entry per data point.", "quantifier": "every history of makeParameter (valid, wrong count, wrong shape) and distance calls", "why_tests_cant": "Property of all call histories, including those after failures.", "anchors": ["src/gwmodelpp/spatialweight/CRSDistance.cpp: makeParameter, distance", "src/gwmodelpp/spatialweight/DMatDistance.cpp", "src/gwmodelpp/spatialweight/OneDimDistance.cpp"]}
{"id": "C10", "title": "A copied distance gives the same distances", "statement": "Cloning a distance object yields one that answers every query as the original did.", "quantifier": "every distance type, every parameter state, every query", "why_tests_cant": "Holds or fails per type and state over all data.", "anchors": ["include/gwmodelpp/spatialweight/CRSDistance.h", "include/gwmodelpp/spatialweight/OneDimDistance.h", "include/gwmodelpp/spatialweight/CRSSTDistance.h", "include/gwmodelpp/spatialweight/DMatDistance.h"]}
{"id": "C11", "title": "Minkowski distance follows its exponent", "statement": "For exponent p the Minkowski distance is the L_p distance of the rotated coordinate differences; in particular p = 1 is the Manhattan distance and p = 2 the Euclidean one, and rotation does not change the Euclidean distance.", "quantifier": "every p, theta and coordinates", "why_tests_cant": "Ranges over all exponents, angles and coordinates.", "anchors": ["src/gwmodelpp/spatialweight/MinkwoskiDistance.cpp", "include/gwmodelpp/spatialweight/MinkwoskiDistance.h"]}
{"id": "C12", "title": "Spatio-temporal distance and its lambda", "statement": "lambda is always within [0,1] whatever the history of constructors and setters (others throw and change nothing); with lambda = 1 the distance is the spatial one and with lambda = 0 the temporal one; it is non-negative and non-decreasing in both parts; observations of the future get the sentinel distance.", "quantifier": "every setter history, every lambda, every pair of distance vectors", "why_tests_cant": "All histories and a continuum of values.", "anchors": ["src/gwmodelpp/spatialweight/CRSSTDistance.cpp", "include/gwmodelpp/spatialweight/CRSSTDistance.h"]}
{"id": "C13", "title": "Spatial weight objects own deep copies", "statement": "A spatial weight never shares its weight or distance object with another one or with the caller: after any history of construction, copy, move, assignment, set and destruction each heap object is freed at most once and never used after being freed, and changing one spatial weight changes no other.", "quantifier": "every finite history of operations on any number of spatial weight objects", "why_tests_cant": "Aliasing bugs show only on particular histories.", "anchors": ["include/gwmodelpp/spatialweight/SpatialWeight.h", "src/gwmodelpp/spatialweight/SpatialWeight.cpp"]}
{"id": "C14", "title": "Bandwidth search returns the best bandwidth it tried among its final pair", "statement": "Golden-section bandwidth optimisation returns a bandwidth that was evaluated, whose criterion value is the smallest of all evaluated ones when no evaluation ties, and which is never worse than both starting candidates.", "quantifier": "every criterion function, every bounds, adaptive or fixed", "why_tests_cant": "Ranges over all criterion functions.", "anchors": ["src/gwmodelpp/BandwidthSelector.cpp: optimize"]}
{"id": "C15", "title": "Bandwidth search stays within its bounds", "statement": "Every bandwidth evaluated or returned by the search lies between the lower and upper bound.", "quantifier": "every criterion function, every lower <= upper, adaptive (integer bounds) and fixed", "why_tests_cant": "The search path depends on the unknown criterion.", "anchors": ["src/gwmodelpp/BandwidthSelector.cpp: optimize"]}
{"id": "C16", "title": "Bandwidth search terminates", "statement": "The search evaluates the criterion at most 102 times, one new evaluation per iteration, whatever the criterion returns (also failures), and shrinks the interval geometrically.", "quantifier": "every criterion function and every cancellation schedule", "why_tests_cant": "Worst-case over all functions.", "anchors": ["src/gwmodelpp/BandwidthSelector.cpp: optimize"]}
{"id": "C17", "title": "Bandwidth search keeps kernel and kind; failure protocol", "statement": "The returned bandwidth has the kernel and adaptive flag of the one supplied; if cancelled before starting the supplied bandwidth is returned unchanged; if both starting evaluations fail an exception is raised.", "quantifier": "every criterion, status and input bandwidth", "why_tests_cant": "All criterion/cancellation combinations.", "anchors": ["src/gwmodelpp/BandwidthSelector.cpp: optimize"]}
{"id": "C18", "title": "Bandwidth criterion list", "statement": "The reported list of (bandwidth, criterion) has strictly increasing bandwidths, contains exactly the successful evaluations, each with its criterion value.", "quantifier": "every search history", "why_tests_cant": "All histories of the search.", "anchors": ["src/gwmodelpp/BandwidthSelector.cpp: bandwidthCriterion"]}
{"id": "C19", "title": "Forward selection explores nested greedy models", "statement": "Forward variable selection visits models that are duplicate-free subsets of the candidates, grows by one variable per stage, at each stage keeps the candidate with the smallest criterion, and evaluates exactly k(k+1)/2 models.", "quantifier": "every number of candidate variables, every criterion function", "why_tests_cant": "All criterion functions and candidate counts.", "anchors": ["src/gwmodelpp/VariableForwardSelector.cpp: optimize"]}
{"id": "C20", "title": "Forward selection threshold", "statement": "The selected model is the largest stage whose criterion gain over the preceding stage reaches the threshold; when no stage gains that much the selection is still well defined.", "quantifier": "every list of stage criteria and every threshold", "why_tests_cant": "The loop runs off the front of the list only for particular data.", "anchors": ["src/gwmodelpp/VariableForwardSelector.cpp: select"]}
{"id": "C21", "title": "GWR coefficients solve the local weighted least squares problem", "statement": "At every location the returned coefficients satisfy the weighted normal equations and minimise the weighted residual sum of squares over all coefficient vectors; they are the unique minimiser.", "quantifier": "every data set, every location, every weighting with a positive definite weighted Gram matrix", "why_tests_cant": "Optimality ranges over all competing coefficient vectors.", "anchors": ["src/gwmodelpp/GWRBasic.cpp: fitCoreSerial, predictSerial"]}
{"id": "C22", "title": "GWR reproduces an exact linear law", "statement": "If the dependent variable is an exact linear combination of the independent variables, every local coefficient vector equals it, fitted values equal the observations and RSS is 0.", "quantifier": "every design, coefficients, weighting", "why_tests_cant": "Universal over designs and weights.", "anchors": ["src/gwmodelpp/GWRBasic.cpp: fitCoreSerial, predictSerial", "include/gwmodelpp/GWRBase.h: Fitted, RSS"]}
{"id": "C23", "title": "GWR invariances", "statement": "Coefficients do not change when all weights are multiplied by a positive constant, are linear in the dependent variable, and do not depend on observations with weight zero.", "quantifier": "every data set, weighting and constant", "why_tests_cant": "Universal algebraic laws.", "anchors": ["src/gwmodelpp/GWRBasic.cpp: fitCoreSerial"]}
{"id": "C24", "title": "Leave-one-out really leaves one out", "statement": "The cross-validation score's residual at an observation uses coefficients that do not depend on that observation's response or covariates.", "quantifier": "every data set, every replacement of the left-out row", "why_tests_cant": "Independence is a statement about all replacements.", "anchors": ["src/gwmodelpp/GWRBasic.cpp: fitCoreCVSerial"]}
{"id": "C25", "title": "Hat matrix identities", "statement": "With the hat matrix requested, fitted values equal S times the responses, the reported traces are tr(S) and tr(S'S), and with an intercept every row of S sums to 1.", "quantifier": "every data set and weighting", "why_tests_cant": "Universal identities.", "anchors": ["src/gwmodelpp/GWRBasic.cpp: fitCoreSerial, fitCoreSHatSerial"]}
{"id": "C26", "title": "Diagnostics are consistent", "statement": "ENP + EDF = number of observations, RSS >= 0, R2 <= 1, and criterion and diagnostic AICc use the same formula.", "quantifier": "every fitted result", "why_tests_cant": "All inputs.", "anchors": ["src/gwmodelpp/GWRBasic.cpp: CalcDiagnostic", "include/gwmodelpp/GWRBase.h: AICc"]}
{"id": "C27", "title": "Parallel fitting equals serial fitting", "statement": "Multi-threaded fitting and prediction give the same coefficients, standard errors, traces and hat matrix as the serial version for every number of threads and every schedule, and report failure iff the serial version does.", "quantifier": "every data set, thread count, assignment and order of iterations", "why_tests_cant": "Schedules cannot be enumerated by tests.", "anchors": ["src/gwmodelpp/GWRBasic.cpp: fitCoreOmp, predictOmp"]}
{"id": "C28", "title": "Parallel bandwidth criterion equals the serial one", "statement": "The criterion value used by bandwidth search does not depend on the parallel mode, including when a local fit is singular.", "quantifier": "every data set, bandwidth, thread count and schedule", "why_tests_cant": "Schedules and singular data.", "anchors": ["src/gwmodelpp/GWRBasic.cpp: fitCoreCVSerial, fitCoreCVOmp, fitCoreSHatSerial, fitCoreSHatOmp"]}
{"id": "C29", "title": "Cancellation protocol", "statement": "A cancelled run never looks successful: once a stop request is seen the status is Terminated for the rest of the run, no criterion evaluation made afterwards can win a search.", "quantifier": "every point at which a stop request becomes visible", "why_tests_cant": "Every cancellation point of every run.", "anchors": ["include/gwmodelpp/Algorithm.h", "src/gwmodelpp/GWRBasic.cpp: fit, bandwidthSizeCriterionCV"]}
{"id": "C30", "title": "Work distribution over processes covers every observation once", "statement": "For every number of observations and processes the process ranges are well formed, disjoint and cover 0..n-1, and collecting results in any arrival order reassembles the serial result.", "quantifier": "every n, worker count and message arrival order", "why_tests_cant": "All sizes and all arrival orders.", "anchors": ["src/gwmodelpp/GWRBasic.cpp: fit, fitMpi"]}
{"id": "C31", "title": "Multiscale distributed coefficients", "statement": "Combining partial coefficient vectors of several processes yields the coefficients a single process computes.", "quantifier": "every coefficient vector, sign, and number of processes", "why_tests_cant": "Depends on signs of all coefficients.", "anchors": ["src/gwmodelpp/GWRMultiscale.cpp: fitVarMpi"]}
{"id": "C32", "title": "Distributed matrix product", "statement": "The distributed matrix product equals the mathematical product for every shape and number of processes.", "quantifier": "every shape and worker count", "why_tests_cant": "All shapes.", "anchors": ["src/gwmodelpp/utils/armampi.cpp: mat_mul_mpi"]}
{"id": "C33", "title": "GPU batching covers every observation once", "statement": "Splitting work in groups for the GPU and threads in blocks processes every observation exactly once and the accumulated traces equal the serial ones, for every group length.", "quantifier": "every n and group length", "why_tests_cant": "All n and group sizes, including partial last groups.", "anchors": ["src/gwmodelpp/GWRBasic.cpp: fitCoreCuda, fitCoreSHatCuda"]}
{"id": "C34", "title": "Multiscale hat matrix", "statement": "After any number of back-fitting updates, in any order, the fitted values are S0 times the response, each component fit is its own hat matrix times the response, and S0 is the sum of the component hat matrices.", "quantifier": "every update history, every bandwidths", "why_tests_cant": "Invariant over histories.", "anchors": ["src/gwmodelpp/GWRMultiscale.cpp: fitVarBase, backfitting"]}
{"id": "C35", "title": "Back-fitting terminates and frozen bandwidths stay", "statement": "Back-fitting does at most the maximum number of iterations, and once a variable's bandwidth is considered converged it is never changed again.", "quantifier": "every data and criterion sequence", "why_tests_cant": "All histories.", "anchors": ["src/gwmodelpp/GWRMultiscale.cpp: backfitting"]}
{"id": "C36", "title": "Scalable GWR's packed accumulators mean a weighted regression", "statement": "The precomputed packed tables combine into normal equations of a weighted regression with non-negative weights that sum the polynomial kernel terms plus a global term; no two table entries share a slot.", "quantifier": "every data, polynomial degree, scale and penalty", "why_tests_cant": "All dimensions and parameters.", "anchors": ["src/gwmodelpp/GWRScalable.cpp: prepare, fitSerial"]}
{"id": "C37", "title": "Scalable GWR neighbour search", "statement": "The neighbour lists contain the k nearest points in non-decreasing distance order, and searching with any valid bandwidth works for both criteria.", "quantifier": "every coordinates and k", "why_tests_cant": "All inputs.", "anchors": ["src/gwmodelpp/GWRScalable.cpp: findNeighbours, findDataPointNeighbours"]}
{"id": "C38", "title": "Local ridge adjustment achieves the condition-number threshold", "statement": "When the local condition number exceeds the threshold the chosen lambda makes the adjusted condition number equal to the threshold and is positive; otherwise lambda is 0 (or the global one).", "quantifier": "every singular-value pair and threshold > 1", "why_tests_cant": "A continuum of values.", "anchors": ["src/gwmodelpp/GWRLocalCollinearity.cpp: fitSerial"]}
{"id": "C39", "title": "Refitting gives the same answer", "statement": "Calling fit() twice on the same object returns the same coefficients and diagnostics both times.", "quantifier": "every algorithm state reachable by fits", "why_tests_cant": "Histories of fits.", "anchors": ["src/gwmodelpp/GWRLocalCollinearity.cpp: fitSerial", "src/gwmodelpp/GWRBasic.cpp: fit"]}
{"id": "C40", "title": "Local summary statistics are proper statistics", "statement": "Local means lie between the smallest and largest value with positive weight, local variances are non-negative, local correlations are in [-1,1].", "quantifier": "every data and weights", "why_tests_cant": "All data.", "anchors": ["src/gwmodelpp/GWSS.cpp: GWAverageSerial, GWCorrelationSerial", "include/gwmodelpp/GWSS.h: covwt, corwt"]}
{"id": "C41", "title": "Local correlation columns enumerate each pair once", "statement": "Every unordered pair of variables has exactly one output column, in the documented order.", "quantifier": "every number of variables", "why_tests_cant": "All sizes.", "anchors": ["src/gwmodelpp/GWSS.cpp: GWCorrelationSerial, run"]}
{"id": "C42", "title": "Local quantiles", "statement": "The local quantile returned is a data value (or interpolation between neighbours) for every valid weighting and probability.", "quantifier": "every data, weight, probability", "why_tests_cant": "UB only for particular weights.", "anchors": ["src/gwmodelpp/GWSS.cpp: findq"]}
{"id": "C43", "title": "Robust re-weighting", "statement": "Robust weights are in [0,1], ordinary residuals keep weight 1, outliers get 0, and the iteration stops within the limit.", "quantifier": "every residual vector", "why_tests_cant": "All residuals and histories.", "anchors": ["src/gwmodelpp/GWRRobust.cpp"]}
{"id": "C44", "title": "GTWR lambda search", "statement": "The automatically selected lambda is in [0,1] and the search terminates.", "quantifier": "every objective function and stop schedule", "why_tests_cant": "All functions.", "anchors": ["src/gwmodelpp/GTWR.cpp: LambdaAutoSelection"]}
{"id": "C45", "title": "Discriminant analysis bookkeeping", "statement": "Classes are listed without repetition, the group split is a partition of the observations, group sizes sum to n, entropy is between 0 and its maximum, predicted label is one of the classes.", "quantifier": "every label vector and data", "why_tests_cant": "All inputs.", "anchors": ["src/gwmodelpp/GWDA.cpp"]}
{"id": "C46", "title": "Generalised linear model links", "statement": "Link and inverse link are mutually inverse on their domains, fitted means stay in the valid range, deviance is non-negative and zero for a perfect fit, and iteration stops within the limit.", "quantifier": "every mean / linear predictor / response", "why_tests_cant": "Continuum.", "anchors": ["src/gwmodelpp/PoissonModel.cpp", "src/gwmodelpp/BinomialModel.cpp", "src/gwmodelpp/GeneralizedLinearModel.cpp"]}
{"id": "C47", "title": "The selected criterion is the one used", "statement": "The bandwidth selection criterion reported by the getter is the one minimised, after every history of setters.", "quantifier": "every sequence of setCriterion / setParallelType calls", "why_tests_cant": "Histories.", "anchors": ["include/gwmodelpp/GWRBasic.h", "src/gwmodelpp/GWRBasic.cpp: setBandwidthSelectionCriterion, setParallelType"]}
{"id": "C48", "title": "Setters are reflected by getters", "statement": "A value stored through a public setter is what the getter returns.", "quantifier": "every setter history", "why_tests_cant": "Histories.", "anchors": ["include/gwmodelpp/GWRGeneralized.h: setHasRegressionData"]}
{"id": "C49", "title": "Device buffers are freed once", "statement": "GPU matrix wrappers free every buffer they own exactly once under every history of copies, moves and assignments.", "quantifier": "every history", "why_tests_cant": "Histories.", "anchors": ["include/gwmodelpp/utils/cumat.hpp"]}
{"id": "C50", "title": "Prediction at the data locations equals the fit", "statement": "Predicting at the locations used for fitting returns the coefficients fit returned.", "quantifier": "every data set", "why_tests_cant": "All inputs.", "anchors": ["src/gwmodelpp/GWRBasic.cpp: predictSerial, fitBase"]}
{"id": "C51", "title": "Results follow the observations", "statement": "Reordering observations reorders coefficient rows and fitted values the same way and changes nothing else; translating or rotating coordinates changes nothing.", "quantifier": "every permutation and rigid motion", "why_tests_cant": "All permutations.", "anchors": ["src/gwmodelpp/GWRBasic.cpp", "src/gwmodelpp/spatialweight/CRSDistance.cpp"]}
{"id": "C52", "title": "Input validation", "statement": "A model accepted by isValid has matching row counts, at least one variable, a usable spatial weight and positive bandwidth, and validation rejects everything else.", "quantifier": "every configuration", "why_tests_cant": "All configurations.", "anchors": ["src/gwmodelpp/GWRBasic.cpp: isValid", "include/gwmodelpp/SpatialMonoscaleAlgorithm.h"]}
{"id": "C53", "title": "Geographically weighted PCA percentages", "statement": "Local percentages of variance are within [0,100], decreasing by component, and their total over kept components is at most 100.", "quantifier": "every singular values", "why_tests_cant": "Continuum.", "anchors": ["src/gwmodelpp/GWPCA.cpp"]}
{"id": "C54", "title": "Density regression weights", "statement": "The weight used at a location is the product of the per-dimension weights, so it is in [0,1], does not depend on the order of dimensions, and is zero iff some dimension's weight is zero.", "quantifier": "every number of dimensions and weights", "why_tests_cant": "All dimensions.", "anchors": ["src/gwmodelpp/GWDR.cpp: fitSerial"]}
{"id": "C55", "title": "Geographic distances", "statement": "Distances between longitude/latitude points are symmetric, non-negative, zero from a point to itself, and within the flattening factor of the great-circle distance for all points that are neither coincident nor antipodal.", "quantifier": "every pair of longitudes and latitudes", "why_tests_cant": "Continuum of coordinates, with singular pole and antipode cases and a wrap-around shortcut.", "anchors": ["src/gwmodelpp/spatialweight/CRSDistance.cpp: SpGcdist", "include/gwmodelpp/spatialweight/CRSDistance.h: SpatialDistance"]}
{"id": "C56", "title": "Leverages and effective degrees of freedom stay in range", "statement": "After a successful fit, the effective degrees of freedom are never negative; with non-negative weights every location's leverage lies in [0,1] and the hat matrix trace in [0,n]; if moreover no weight exceeds the own weight one, the effective number of parameters lies in [0,n].", "quantifier": "every data set, weights and location", "why_tests_cant": "Continuum of designs and weights.", "anchors": ["src/gwmodelpp/GWRBasic.cpp: fitCoreSerial, fit", "include/gwmodelpp/GWRBasic.h"]}
{"id": "C57", "title": "An automatically selected bandwidth is usable", "statement": "If automatic bandwidth selection returns a bandwidth, the fit with that bandwidth does not fail at any location, and no evaluated bandwidth had a smaller criterion.", "quantifier": "every coordinates, data, kernel, bounds and criterion", "why_tests_cant": "All data sets and all search paths.", "anchors": ["src/gwmodelpp/GWRBasic.cpp: fit, bandwidthSizeCriterionCV, bandwidthSizeCriterionAIC", "src/gwmodelpp/BandwidthSelector.cpp: optimize"]}
{"id": "C58", "title": "Spearman ranks", "statement": "The ranks behind local Spearman correlations are the numbers 1..n, each used once, and increase with the value.", "quantifier": "every data and every behaviour of the sorting routine on ties", "why_tests_cant": "The order of equal values is unspecified; every input matters.", "anchors": ["include/gwmodelpp/GWSS.h: rank", "src/gwmodelpp/GWSS.cpp: GWCorrelationSerial"]}
{"id": "C59", "title": "Local summary statistics do not depend on threads and stop cleanly", "statement": "A parallel run returns the same table as a serial one for every thread schedule; a stopped run returns the rows of an undisturbed run up to some location and zeros after it.", "quantifier": "every schedule, every stop point, every data", "why_tests_cant": "Schedules and stop points cannot be enumerated.", "anchors": ["src/gwmodelpp/GWSS.cpp: GWAverageSerial, GWAverageOmp, GWCorrelationSerial, GWCorrelationOmp"]}
{"id": "C60", "title": "Prediction returns estimated coefficients", "statement": "predict() at new locations returns the coefficients estimated for those locations.", "quantifier": "every regression algorithm, data and location set", "why_tests_cant": "Must hold for every algorithm and every data set; a test of one algorithm says nothing about the next.", "anchors": ["include/gwmodelpp/GWDR.h: predict", "include/gwmodelpp/GWRMultiscale.h: predict", "src/gwmodelpp/GWRBasic.cpp: predict"]}
{"id": "C61", "title": "Density regression bandwidth search", "statement": "The simplex search for the bandwidths starts from the bandwidths set, stops within the iteration limit, reports success exactly if it converged, and stores the best bandwidths it found.", "quantifier": "every minimiser behaviour, every bandwidths and limits", "why_tests_cant": "The minimiser's path is arbitrary.", "anchors": ["src/gwmodelpp/GWDR.cpp: GWDRBandwidthOptimizer::optimize, criterion_function"]}
{"id": "C62", "title": "Local principal components are principal components", "statement": "At every location the loadings are orthonormal, each component has the largest locally weighted variance among directions orthogonal to the earlier ones, the percentages are shares of the total local variance and the standard deviations are the locally weighted ones.", "quantifier": "every data, weights and number of components", "why_tests_cant": "Statement about all directions and all data.", "anchors": ["src/gwmodelpp/GWPCA.cpp: solveSerial, wpca"]}
{"id": "C63", "title": "The winning variable is determined by the data", "statement": "The winning variable of a location is the one with the largest loading in absolute value on the first component, whatever signs the decomposition happens to choose.", "quantifier": "every data and every valid singular value decomposition", "why_tests_cant": "The sign chosen by the linear algebra library is arbitrary.", "anchors": ["src/gwmodelpp/GWPCA.cpp: run"]}
{"id": "C64", "title": "Each back-fitting update is a local regression on the partial residuals", "statement": "Updating a variable replaces its coefficients, at every location, by the weighted least squares fit of that variable alone to the response minus the other components, and touches no other coefficient; the bandwidth criterion is the leave-one-out error of the same regression; a state no update changes solves all these problems at once.", "quantifier": "every data, weights, state of back-fitting and variable", "why_tests_cant": "Quantifies over all intermediate states of an iterative algorithm.", "anchors": ["src/gwmodelpp/GWRMultiscale.cpp: backfitting, fitVarCoreSerial, fitVarCoreOmp, bandwidthSizeCriterionVarCVBase"]}
{"id": "C65", "title": "Start values for multiscale bandwidths are usable", "statement": "A variable whose bandwidth is given as a start value is searched between the smallest and largest distance (or the user's bounds), so the fit works for fixed kernels as it does for adaptive ones.", "quantifier": "every data set, kernel, criterion and start value", "why_tests_cant": "Depends on the combination of initialisation type and kernel for every data set.", "anchors": ["src/gwmodelpp/GWRMultiscale.cpp: fit, backfitting", "src/gwmodelpp/BandwidthSelector.cpp: optimize"]}
{"id": "C66", "title": "Predictor centring", "statement": "Predictors marked for centring have mean zero during the fit, the intercept and unmarked columns are untouched, and a second fit() does not change them further.", "quantifier": "every data matrix and set of marks", "why_tests_cant": "For every matrix.", "anchors": ["src/gwmodelpp/GWRMultiscale.cpp: fit"]}
{"id": "C67", "title": "Scalable GWR: parameter search predicts each observation without itself", "statement": "When the scale and penalty of scalable regression are chosen by CV, each observation is predicted without using it; with either criterion every neighbour is used once.", "quantifier": "every data set with distinct coordinates, bandwidth and criterion", "why_tests_cant": "A test sees one chosen parameter pair, not which observations entered the score.", "anchors": ["src/gwmodelpp/GWRScalable.cpp: findDataPointNeighbours, Loocv, AICvalue"]}
{"id": "C68", "title": "Scalable GWR: reported effective parameters do not depend on units", "statement": "The trace of the hat matrix that scalable regression reports is the sum of leverages; expressing all explanatory variables in other units does not change it.", "quantifier": "every data, scale, penalty, neighbour lists and unit factor", "why_tests_cant": "Comparison against recorded numbers fixes one set of units.", "anchors": ["src/gwmodelpp/GWRScalable.cpp: fitSerial, AICvalue, CalcDiagnostic"]}
{"id": "C69", "title": "Scalable GWR: the exponential kernel is exponential", "statement": "With the exponential kernel the base weight falls exponentially with the distance.", "quantifier": "every distance and base bandwidth", "why_tests_cant": "A recorded result cannot tell which kernel shape produced it for other distances.", "anchors": ["src/gwmodelpp/GWRScalable.cpp: fit, predict, fitSerial, predictSerial"]}
{"id": "C70", "title": "Ridge GWR: local coefficients solve the ridge problem", "statement": "At every location the local ridge coefficients are the unique minimiser of the weighted residual sum of squares plus lambda times the squared coefficients measured in standard deviations of their variables; with lambda 0 they are the weighted least squares solution; with a positive lambda they exist however collinear the variables are.", "quantifier": "every data set, weights and lambda >= 0", "why_tests_cant": "A test compares numbers for one data set and one lambda.", "anchors": ["src/gwmodelpp/GWRLocalCollinearity.cpp: ridgelm"]}
{"id": "C71", "title": "Ridge GWR: effective number of parameters describes the ridge fit", "statement": "The reported traces are those of the matrix that maps the responses to the fitted values of the ridge fit, and a fit succeeds wherever the ridge estimate exists.", "quantifier": "every data set, weights and lambda", "why_tests_cant": "Needs comparison of two quantities over all data and lambdas.", "anchors": ["src/gwmodelpp/GWRLocalCollinearity.cpp: fitSerial, fitOmp, fit"]}
{"id": "C72", "title": "Ridge GWR: parallel prediction equals serial prediction", "statement": "Predicting with OpenMP gives the coefficients that serial prediction gives.", "quantifier": "every data set, locations and schedule", "why_tests_cant": "The test suite runs a handful of schedules.", "anchors": ["src/gwmodelpp/GWRLocalCollinearity.cpp: predictSerial, predictOmp"]}
{"id": "C73", "title": "Ridge GWR: prediction and cross-validation use the local ridge estimate", "statement": "Prediction returns at every location the ridge estimate for the weights there, equal to the fit at the data points; the CV score is the sum of squared errors of predicting each observation with coefficients that do not depend on its own response.", "quantifier": "every data set, weights, lambda and condition number threshold", "why_tests_cant": "Independence of a response quantifies over all responses.", "anchors": ["src/gwmodelpp/GWRLocalCollinearity.cpp: predictSerial, bandwidthSizeCriterionCVSerial"]}
{"id": "C74", "title": "GTWR: the selected lambda is a good one", "statement": "If R-squared as a function of lambda has a single peak, the automatically selected lambda is close to the peak, and it is never worse than a lambda the search itself tried.", "quantifier": "every single-peaked objective; every data set", "why_tests_cant": "All functions and data sets; a test looks at one curve.", "anchors": ["src/gwmodelpp/GTWR.cpp: LambdaAutoSelection, RsquareByLambda"]}
{"id": "C75", "title": "GTWR: coefficients are local least squares in space and time", "statement": "The coefficients of an observation are the unique weighted least squares solution with the weights the kernel gives to the documented space-time distances from that observation.", "quantifier": "every data set, times, lambda, kernel and bandwidth for which the fit returns", "why_tests_cant": "A minimiser over all coefficient vectors, for all data.", "anchors": ["src/gwmodelpp/GTWR.cpp: fit, fitSerial", "src/gwmodelpp/spatialweight/CRSSTDistance.cpp"]}
{"id": "C76", "title": "GTWR: the future does not influence the past", "statement": "With lambda below 1 the coefficients of an observation do not depend on later observations.", "quantifier": "every pair of data sets that agree up to the time of the observation; every kernel and bandwidth", "why_tests_cant": "Relates two runs, for all data.", "anchors": ["src/gwmodelpp/spatialweight/CRSSTDistance.cpp: OrthogonalSTDistance, ObliqueSTDistance", "src/gwmodelpp/GTWR.cpp: fit"]}
{"id": "C77", "title": "GTWR: prediction estimates coefficients at the given locations", "statement": "The coefficients predicted at a location are the weighted least squares fit with the weights of that location, for any number of locations.", "quantifier": "every list of locations", "why_tests_cant": "All location lists; the existing tests predict at the data locations, where the fault does not show.", "anchors": ["src/gwmodelpp/GTWR.cpp: predict, createPredictionDistanceParameter, predictSerial"]}
{"id": "C78", "title": "GTWR: bandwidth search range", "statement": "The automatic search for a fixed bandwidth looks at bandwidths up to the largest space-time distance between two observations.", "quantifier": "every data set and lambda", "why_tests_cant": "All data sets.", "anchors": ["src/gwmodelpp/GTWR.cpp: fit", "src/gwmodelpp/spatialweight/CRSSTDistance.cpp: maxDistance"]}
{"id": "C79", "title": "Discriminant analysis: the linear rule", "statement": "Linear discriminant analysis names, at every location, a class that minimises half the squared Mahalanobis distance to the local class mean (in the pooled local covariance) minus the logarithm of the local prior.", "quantifier": "every data set, weights, choice of local or global mean, covariance and prior", "why_tests_cant": "All data sets and options.", "anchors": ["src/gwmodelpp/GWDA.cpp: wlda, wMean, wVarCov, wPrior, covwtmat"]}
{"id": "C80", "title": "Discriminant analysis: published entropy is a number between 0 and 1", "statement": "The entropy published for every location is a number between 0 (certain) and 1 (all classes equally probable).", "quantifier": "every number of classes and all scores", "why_tests_cant": "All numbers of classes.", "anchors": ["src/gwmodelpp/GWDA.cpp: run, shannonEntropy"]}
{"id": "C81", "title": "Discriminant analysis: options of the quadratic rule", "statement": "The quadratic rule can be run with every choice of local or global mean, covariance and prior.", "quantifier": "every data set and choice of options", "why_tests_cant": "All data sets.", "anchors": ["src/gwmodelpp/GWDA.cpp: wqda"]}
{"id": "C82", "title": "Discriminant analysis: parallel run gives the serial result", "statement": "Running with OpenMP gives the scores of the serial run.", "quantifier": "every data set", "why_tests_cant": "All data sets.", "anchors": ["src/gwmodelpp/GWDA.cpp: discriminantAnalysisSerial, discriminantAnalysisOmp"]}
{"id": "C83", "title": "Discriminant analysis: running again gives the same result", "statement": "Calling run() a second time on an unchanged object gives the result of the first call.", "quantifier": "every data set and number of calls", "why_tests_cant": "All histories of calls.", "anchors": ["src/gwmodelpp/GWDA.cpp: run, discriminantAnalysisSerial"]}
{"id": "C84", "title": "Discriminant analysis: published probabilities are probabilities", "statement": "The probabilities published for a location are between 0 and 1 and add up to one.", "quantifier": "every data set", "why_tests_cant": "All data sets.", "anchors": ["src/gwmodelpp/GWDA.cpp: run"]}
{"id": "C85", "title": "Discriminant analysis: the named class is the most probable one", "statement": "The class named for a location has the largest published probability.", "quantifier": "every data set", "why_tests_cant": "All data sets.", "anchors": ["src/gwmodelpp/GWDA.cpp: run, wlda, wqda"]}
{"id": "C86", "title": "Global model: small-sample correction of AICc", "statement": "The reported AICc of the global generalised linear model is AIC + 2k(k+1)/(n-k-1).", "quantifier": "every number of observations n and coefficients k with n > k + 1", "why_tests_cant": "All n and k; a test with one pair cannot see where integer arithmetic differs.", "anchors": ["src/gwmodelpp/GWRGeneralized.cpp: CalGLMModel"]}
{"id": "C87", "title": "Generalised regression: fit without hat matrix and prediction", "statement": "A fit with the hat matrix switched off, and a prediction, return a coefficient row per location.", "quantifier": "every data set with at least two observations", "why_tests_cant": "All data sets.", "anchors": ["src/gwmodelpp/GWRGeneralized.cpp: fit, predict, fitPoissonSerial, fitBinomialSerial"]}
{"id": "C88", "title": "Generalised regression: coefficients and means agree", "statement": "The means from which the diagnostics are computed are the means of the returned coefficients.", "quantifier": "every data set, family, tolerance and iteration limit", "why_tests_cant": "Depends on whether the iteration converges.", "anchors": ["src/gwmodelpp/GWRGeneralized.cpp: CalGLMModel, fit, mCalWtFunction implementations"]}
{"id": "C89", "title": "Generalised regression: deviance", "statement": "The reported deviance is the deviance of the fit, hence non-negative, and the pseudo R-squared is 1 exactly when the responses are reproduced.", "quantifier": "every response the family accepts and every fit", "why_tests_cant": "All responses.", "anchors": ["src/gwmodelpp/GWRGeneralized.cpp: diagnostic part of fit"]}
{"id": "C90", "title": "Generalised regression: parallel fit equals serial fit", "statement": "For every schedule the parallel fit gives the same result, including the failures, as the serial one; likewise the cross-validation score.", "quantifier": "every schedule, number of threads and data set", "why_tests_cant": "All schedules.", "anchors": ["src/gwmodelpp/GWRGeneralized.cpp: fitPoissonOmp, fitBinomialOmp, bandwidthSizeGGWRCriterionCVOmp"]}
{"id": "C91", "title": "Generalised regression: parallel AIC criterion equals serial", "statement": "For every schedule the AIC score of a bandwidth computed in parallel equals the one computed serially.", "quantifier": "every schedule and number of threads", "why_tests_cant": "All schedules.", "anchors": ["src/gwmodelpp/GWRGeneralized.cpp: bandwidthSizeGGWRCriterionAICOmp"]}
{"id": "C92", "title": "Generalised regression: local coefficients", "statement": "The coefficients at a location minimise the weighted squares of the working response, and calibration completes whenever every location determines its coefficients.", "quantifier": "every data set, family, tolerance and iteration limit", "why_tests_cant": "All data sets.", "anchors": ["src/gwmodelpp/GWRGeneralized.cpp: mCalWtFunction implementations, fit*"]}
{"id": "C93", "title": "Global model: AIC penalises coefficients", "statement": "The AIC reported by the global generalised linear model adds twice the number of coefficients to the deviance part.", "quantifier": "every data set", "why_tests_cant": "All data sets.", "anchors": ["src/gwmodelpp/GeneralizedLinearModel.cpp: fit, aic", "src/gwmodelpp/PoissonModel.cpp: aic"]}
{"id": "C94", "title": "Generalised regression: a bandwidth that cannot be calibrated", "statement": "A candidate bandwidth under which some location does not determine its coefficients is given the worst score and the search goes on.", "quantifier": "every data set and schedule", "why_tests_cant": "All data sets.", "anchors": ["src/gwmodelpp/GWRGeneralized.cpp: bandwidthSizeGGWRCriterion*"]}
{"id": "C95", "title": "An accepted parallel type is the one that runs", "statement": "After any sequence of setter calls, fitting, prediction and the bandwidth criterion run in the implementation (serial, multithreaded, GPU, distributed) that the parallel type getter reports, and never through an unset function pointer.", "quantifier": "every class with parallel versions, every build configuration, every sequence of setter calls", "why_tests_cant": "Tests set the parallel type once in one order on one build; the claim is about every order and repetition of setters and every combination of compile-time options.", "anchors": ["src/gwmodelpp/GWRBasic.cpp setParallelType", "src/gwmodelpp/GWRRobust.cpp setParallelType", "src/gwmodelpp/GWRGeneralized.cpp setParallelType, setFamily", "src/gwmodelpp/GWSS.cpp updateCalculator", "include/gwmodelpp/IParallelizable.h ParallelType", "src/gwmodelpp/GWRMultiscale.cpp setParallelType, bandwidthSizeCriterionVar", "src/gwmodelpp/GWDA.cpp setParallelType"]}
{"id": "C96", "title": "Search bounds set by the user are honoured", "statement": "When the user sets a lower and an upper bound for the golden-section bandwidth search, the search of a subsequent fit evaluates only bandwidths between the bounds that were set last.", "quantifier": "every sequence of setter calls, data set, kernel and pair of bounds, for each class that offers the bounds", "why_tests_cant": "Tests look at the bandwidth returned for a few data sets; a search that ignores the bounds usually returns a value inside them.", "anchors": ["include/gwmodelpp/GWRBasic.h setGoldenUpperBounds, setGoldenLowerBounds", "src/gwmodelpp/GWRBasic.cpp fit", "src/gwmodelpp/GWRRobust.cpp fit"]}
{"id": "C97", "title": "Kernels follow their documented formulas", "statement": "For a positive fixed bandwidth b the weight given to distance d is exactly exp(-(d/b)^2/2) (Gaussian), exp(-d/b) (exponential), (1-(d/b)^2)^2 for d<b else 0 (bisquare), (1-(d/b)^3)^3 for d<b else 0 (tricube), 1 for d<b else 0 (boxcar); for an adaptive bandwidth of k neighbours the same with b the distance of the k-th nearest observation.", "quantifier": "every kernel, bandwidth and distance vector", "why_tests_cant": "A test compares a few values of one kernel; the claim is an identity of functions for a continuum of distances and bandwidths.", "anchors": ["include/gwmodelpp/spatialweight/BandwidthWeight.h: GaussianKernelFunction, ExponentialKernelFunction, BisquareKernelFunction, TricubeKernelFunction, BoxcarKernelFunction", "src/gwmodelpp/spatialweight/BandwidthWeight.cpp: Kernel, weight"]}
{"id": "C98", "title": "A run computes geographically weighted regression", "statement": "A basic GWR fit on planar coordinates with a positive bandwidth that returns without a stop request reports, at every observation, the unique minimiser of the sum of squared residuals weighted by the chosen kernel at the straight line distances, the bandwidth being the given number or, if adaptive, the distance of the k-th nearest observation. The same holds for prediction at any list of locations and for fits with automatic bandwidth selection at the reported bandwidth. A fit with fixed bandwidth returns coefficients exactly if the coordinates have two columns and one row per observation and the observations of positive weight determine the coefficients everywhere.", "quantifier": "all coordinate matrices, covariates, responses, kernels, positive bandwidths, location lists and stop behaviours", "why_tests_cant": "The claim joins distances, kernels and local regressions for all data; a test compares a few numbers with numbers from another program.", "anchors": ["src/gwmodelpp/GWRBasic.cpp: GWRBasic::fit, predict, fitBase, fitCoreSerial", "src/gwmodelpp/spatialweight/BandwidthWeight.cpp: BandwidthWeight::weight", "src/gwmodelpp/spatialweight/CRSDistance.cpp: CRSDistance::distance"]}
{"id": "C99", "title": "A multiscale run estimates what it reports", "statement": "When multiscale GWR returns, every variable whose bandwidth the caller specified still has that bandwidth, every variable keeps its kernel and its kind of bandwidth, automatically chosen fixed bandwidths lie within the caller's bounds (or between 0 and the largest distance), the coefficients of the variable updated last are geographically weighted regression of the remaining response on it with the reported bandwidth, with a single predictor the whole model is geographically weighted regression, and the diagnostics belong to the returned coefficients.", "quantifier": "all planar coordinates, covariates, responses, kernels, bounds, thresholds, retry counts and iteration limits for which the run returns", "why_tests_cant": "The bandwidths go through two rounds of searches and a freezing rule; a test sees one data set, while the claim is about every sequence of search results.", "anchors": ["src/gwmodelpp/GWRMultiscale.cpp: fit", "src/gwmodelpp/GWRMultiscale.cpp: backfitting", "src/gwmodelpp/GWRMultiscale.cpp: createDistanceParameter"]}
{"id": "C100", "title": "A run of scalable regression computes the scalable regression it reports", "statement": "Whenever fit returns coefficients, they are at every observation the weighted least squares solution for the weights that the documentation of scalable regression gives for the reported scale and penalty: the polynomial kernel of the base weight for the nearest observations, the penalty for all; the base bandwidth is the median distance to a fixed rank of neighbour. Predicted coefficients are the solutions for the weights at the requested locations. The reported CV value is the sum of squared differences of those regressions, the reported AIC value the corrected Akaike value of regressions in which the own observation is counted once more.", "quantifier": "every data set, distances, degree, bandwidth, criterion, order among equal distances and outcome of the parameter search", "why_tests_cant": "A recorded result fixes one data set and one outcome of the search.", "anchors": ["src/gwmodelpp/GWRScalable.cpp: fit, fitSerial, predict, predictSerial, Loocv, findNeighbours, prepare"]}
{"id": "C101", "title": "A prediction at a location does not depend on the other requested locations", "statement": "The coefficients predicted at a location are the same whether it is requested alone or together with other locations, in whatever order.", "quantifier": "every data set, every two lists of locations that share a location", "why_tests_cant": "A test compares one list of locations with recorded numbers.", "anchors": ["src/gwmodelpp/GWRBasic.cpp: predict, predictSerial", "src/gwmodelpp/GWRScalable.cpp: predict, predictSerial"]}
{"id": "C102", "title": "A fit with automatic variable selection fits the variables it selected", "statement": "When fit selects variables automatically, the selection is a greedy forward search over all columns except the intercept, comparing the corrected AIC of the regression on exactly the tried columns with the bandwidth of the model; the selected variables are distinct columns of the data, the intercept is kept, the coefficients returned are the regression on the selected columns with the reported bandwidth, and fitting the same object again gives the same selection.", "quantifier": "every data set, kernel, bandwidth, threshold, order among equal criteria, with and without intercept", "why_tests_cant": "A test sees one data set, where another column order, a dropped intercept or another bandwidth inside the criterion may select the same variables.", "anchors": ["src/gwmodelpp/GWRBasic.cpp: fit, indepVarsSelectionCriterion", "src/gwmodelpp/VariableForwardSelector.cpp: optimize", "include/gwmodelpp/VariableForwardSelector.h: index2uvec"]}
{"id": "C103", "title": "A run of local ridge regression computes the estimates, diagnostics and bandwidth it reports", "statement": "A successful fit of locally compensated ridge regression returns at every location the unique minimiser of the weighted residual sum of squares plus the ridge penalty, with kernel weights computed from the distances between the coordinates and the ridge parameter that the condition number of the weighted unit columns calls for; predictions do the same at the requested locations; the diagnostics are the published formulas of the residuals and of the traces of the weighted least squares hat matrix; an automatically selected bandwidth lies between 0 and the largest distance and no evaluated bandwidth has a smaller leave-one-out error.", "quantifier": "every data set, kernel, bandwidth, global ridge parameter, threshold above 1, with and without adjustment, set of requested locations", "why_tests_cant": "A test compares one table of estimates with a reference run; a wrong scale, weight or threshold that matters for other data is not seen.", "anchors": ["src/gwmodelpp/GWRLocalCollinearity.cpp: fit, predict, fitSerial, predictSerial, ridgelm, calcDiagnosticInfo, criterionCVSerial"]}
{"id": "C104", "title": "A run of space-time regression computes the coefficients, λ, bandwidth and diagnostics it reports", "statement": "A successful fit of space-time regression returns at every observation the weighted least squares coefficients with kernel weights of the combined space-time distance for the reported bandwidth and the reported λ, and the diagnostics and standard errors of these coefficients; if λ is selected automatically and R² has a single peak in λ, the reported λ is within half the width of a bracket that contains the peak, namely 0.618^j after j rounds, and the search stops after 100 rounds or when R² at the ends of the bracket agrees up to 1e-12; an automatically selected bandwidth has the smallest leave-one-out error (or corrected AIC) of the bandwidths tried, computed with the λ that was set before the run.", "quantifier": "every data set with planar or geographic coordinates and times, kernel, fixed or adaptive bandwidth, λ, choice of automatic selections, serial mode and every schedule of every number of threads", "why_tests_cant": "A test compares one table of coefficients with a reference run; a wrong mixture of space and time, or a λ that belongs to another fit, is not seen for other data.", "anchors": ["src/gwmodelpp/GTWR.cpp: fit, fitSerial, bandwidthSizeCriterionCVSerial, bandwidthSizeCriterionAICSerial, lambdaAutoSelection, criterionByLambda", "src/gwmodelpp/spatialweight/CRSSTDistance.cpp: OrthogonalSTDistance"]}
{"id": "C105", "title": "Discriminant analysis: the quadratic rule", "statement": "Quadratic discriminant analysis names, at every location, a class that minimises half the logarithm of the determinant of its local covariance plus half the squared Mahalanobis distance to its local mean, in that covariance, minus the logarithm of its local prior.", "quantifier": "every data set, labels, non-negative weights, location", "why_tests_cant": "A test compares labels of one data set, on which a wrong penalty for the covariance need not change any label.", "anchors": ["src/gwmodelpp/GWDA.cpp: wqda, wMean, wVarCov, wPrior, covwtmat"]}
{"id": "C106", "title": "A run of discriminant analysis publishes classes and numbers computed from the coordinates", "statement": "A run of linear discriminant analysis names at every observation a class of the data that minimises the linear discriminant cost with kernel weights of the distances between the coordinates; the correct rate is the share of the observations named their own class; probabilities, their maximum and the entropy are computed from the published scores by fixed formulas.", "quantifier": "every data set with planar coordinates, kernel, fixed bandwidth, choice of options, first or later run, serial or OpenMP", "why_tests_cant": "A test compares one table of results; weights that belong to other locations, or a formula that is wrong for other numbers of classes, are not seen.", "anchors": ["src/gwmodelpp/GWDA.cpp: run, discriminantAnalysisSerial, discriminantAnalysisOmp, wlda, shannonEntropy"]}
{"id": "C107", "title": "Generalised linear model: the iterations and the diagnostics", "statement": "A fit starts from the documented linear predictor (log of count plus 0.1; logit of the mean of the proportion and one half), every iteration is the weighted least squares fit of the working response with the working weights of the family, iteration goes on exactly as long as the relative change of the deviance is not below 1e-8 (at most 25 times), the coefficients, means and deviance reported are those of the last iteration, and the diagnostics are deviance, null deviance, AIC = deviance + 2p and 1 - deviance / null deviance.", "quantifier": "every design matrix and every vector of counts or proportions", "why_tests_cant": "All data sets, every number of iterations.", "anchors": ["src/gwmodelpp/GeneralizedLinearModel.cpp: fit", "src/gwmodelpp/PoissonModel.cpp", "src/gwmodelpp/BinomialModel.cpp", "src/gwmodelpp/GWRGeneralized.cpp: calGLMModel"]}
{"id": "C108", "title": "Generalised regression: from coordinates to coefficients and diagnostics", "statement": "A completed fit runs local scoring from the documented start: every iteration fits, at every location, the working response by least squares weighted with kernel weight times working weight, until the relative change of the log-likelihood is below the tolerance or the limit is reached. Coefficients, standard errors, trace of the hat matrix, deviance, AIC, AICc and pseudo R-squared are the stated functions of it. An automatically selected bandwidth has the smallest score, by the chosen criterion, of all bandwidths tried.", "quantifier": "every family, data set, kernel, bandwidth, tolerance, iteration limit and thread schedule", "why_tests_cant": "All data sets, every number of iterations, all schedules.", "anchors": ["src/gwmodelpp/GWRGeneralized.cpp: fit, fitPoissonSerial, fitBinomialSerial, PoissonWtSerial, BinomialWtSerial, bandwidthSizeGGWRCriterionCVSerial, bandwidthSizeGGWRCriterionAICSerial"]}
{"id": "C109", "title": "Generalised regression: local likelihood", "statement": "When the calibration has come to rest, the coefficients at every location maximise the likelihood weighted with the kernel weights of that location.", "quantifier": "every data set, kernel and bandwidth", "why_tests_cant": "All data sets; a reference implementation with the same iteration agrees with the code.", "anchors": ["src/gwmodelpp/GWRGeneralized.cpp: PoissonWtSerial, PoissonWtOmp, Fitted"]}
{"id": "C110", "title": "Robust regression: from coordinates to coefficients, weights and diagnostics", "statement": "A successful robust fit returns, at every location, the local regression with the kernel weights computed from the coordinates times the robust weights. In the first method those are 0 exactly for the observations whose residual in the ordinary fit exceeds three of its standard errors; in the second they come from the bisquare-like function of the previous residuals, repeated until the mean square settles or 20 times. RSS, the traces, degrees of freedom, AIC, AICc, R² and standard errors are those of that last fit. With automatic selection the bandwidth is the evaluated candidate with the smallest non-robust criterion.", "quantifier": "every data set, planar coordinates, kernel, bandwidth, method, serial or threaded execution and schedule", "why_tests_cant": "All data sets, all masks produced on the way and all interleavings.", "anchors": ["src/gwmodelpp/GWRRobust.cpp: fit, robustGWRCaliFirst, robustGWRCaliSecond, filtWeight, fitSerial, fitOmp"]}
{"id": "C111", "title": "Robust regression: prediction at the observations", "statement": "Predicting at the observations' own coordinates returns the coefficients of the robust fit.", "quantifier": "every data set, kernel, bandwidth and method", "why_tests_cant": "Data without outliers agree; the difference depends on the residuals of the fit.", "anchors": ["src/gwmodelpp/GWRRobust.cpp: fit, predict"]}
{"id": "C112", "title": "Density regression: whole fit", "statement": "With given bandwidths, the coefficients at an observation are those of the weighted least squares regression in which another observation's weight is the product over the coordinate axes of that axis's kernel weight of the distance along the axis; the diagnostics and standard errors are those of these regressions; a fit that cannot be determined somewhere fails instead of returning numbers, serially and in parallel.", "quantifier": "every data set, number of axes, kernels, fixed and adaptive bandwidths, serial or any thread schedule", "why_tests_cant": "The tests compare stored numbers on one data set; the failure case in parallel mode returns plausible zeros.", "anchors": ["src/gwmodelpp/GWDR.cpp: fit, fitSerial, fitOmp", "src/gwmodelpp/spatialweight/OneDimDistance.cpp: distance"]}
{"id": "C113", "title": "Density regression: automatic bandwidths", "statement": "With automatic selection, the search starts from the configured bandwidth if it is within the range of the axis; the fit is the one with the reported bandwidths; and a bandwidth found best by the search is one the fit can use.", "quantifier": "every data set, axes, kernels, and every behaviour of the simplex minimiser", "why_tests_cant": "It depends on the unit of the coordinates: in metres the rounding to whole numbers is invisible, in degrees it destroys the bandwidth.", "anchors": ["src/gwmodelpp/GWDR.cpp: fit, GWDRBandwidthOptimizer::optimize, criterion_function"]}
{"id": "C114", "title": "Density regression: selection of variables", "statement": "Automatic selection is a forward search in which each model is judged by the corrected Akaike criterion of its regression on exactly the listed columns (ordinary regression if bandwidths are to be selected as well); the reported list holds exactly the visited models, and the fit continues with the selected columns.", "quantifier": "every data set, number of columns, threshold, intercept setting, sort routine, thread schedule per evaluation", "why_tests_cant": "The tests check one selected list; the search visits data-dependent models.", "anchors": ["src/gwmodelpp/GWDR.cpp: fit, indepVarCriterionSerial, indepVarCriterionOmp", "src/gwmodelpp/VariableForwardSelector.cpp: optimize"]}
{"id": "C115", "title": "A run of local summary statistics reports the kernel-weighted statistics", "statement": "Given coordinates, a kernel and a usable bandwidth (fixed or adaptive, planar or geographic), a run of summary statistics succeeds and its tables hold at every location the mean, variance, standard deviation, skewness, coefficient of variation, quartiles, covariances, correlations and rank correlations of the data, weighted by the kernel of the distances; entries are not numbers exactly where the statistic is undefined.", "quantifier": "every number of observations and variables, all data and coordinates, every kernel, bandwidth and sorting order, serial runs and every thread schedule", "why_tests_cant": "Tests compare a few tables of one data set; success and correctness for every data set, bandwidth kind and schedule, and undefined behaviour for small neighbourhoods, need a proof.", "anchors": ["src/gwmodelpp/GWSS.cpp: run, GWAverageSerial, GWAverageOmp, GWCorrelationSerial, GWCorrelationOmp, findq", "include/gwmodelpp/GWSS.h: covwt, corwt, rank", "src/gwmodelpp/spatialweight/BandwidthWeight.cpp: weight"]}
{"id": "C116", "title": "Local summary statistics follow units and ignore how the map is drawn", "statement": "Changing the unit and origin of a variable changes its means, variances, standard deviations, skewness, coefficients of variation, covariances and correlations as it must and leaves rank correlations alone; moving, turning or rescaling the map (with a fixed bandwidth rescaled alike) changes nothing.", "quantifier": "all data, coordinates, units, origins, kernels, bandwidths, thread schedules", "why_tests_cant": "Invariance relates pairs of runs over all data and all transformations; tests see a few pairs.", "anchors": ["src/gwmodelpp/GWSS.cpp: run", "include/gwmodelpp/GWSS.h: covwt, corwt", "src/gwmodelpp/spatialweight/CRSDistance.cpp: distance"]}
{"id": "C117", "title": "A run of local principal components reports the kernel-weighted components", "statement": "Given coordinates, a kernel and a usable bandwidth, a run of local principal components succeeds exactly if at every location some variable varies among the observations with weight, and reports the principal components of the kernel-weighted data with their percentages, standard deviations and winning variables; moving or rescaling the map and shifting variables changes nothing.", "quantifier": "every number of observations, variables and kept components, all data and coordinates, every kernel and bandwidth, every valid singular value decomposition", "why_tests_cant": "Optimality among all directions and correctness for every data set and every admissible decomposition cannot be sampled.", "anchors": ["src/gwmodelpp/GWPCA.cpp: run, solveSerial, wpca"]}
{"id": "C118", "title": "A basic regression fit or prediction is exactly textbook geographically weighted regression", "statement": "For planar or geographic coordinates, every kernel and every bandwidth (fixed, adaptive with an integer or a fractional number of neighbours), serially or in parallel: fit succeeds exactly if at every observation the observations of positive weight determine the coefficients, and throws otherwise; the coefficients, diagnostics, standard errors, hat matrix and coefficient matrices are the textbook ones of the regressions weighted by the kernel of the distances; prediction at other places likewise.", "quantifier": "All data, coordinates, kernels, bandwidths, flags, thread counts and schedules", "why_tests_cant": "Whether the optimised code equals the defining minimisation for all data, bandwidth kinds and schedules is not settled by examples", "anchors": ["src/gwmodelpp/GWRBasic.cpp: GWRBasic::fit, predict, fitBase, fitCoreSerial, fitCoreOmp"]}
{"id": "C119", "title": "Automatic bandwidth selection of a basic regression minimises the stated criterion, independently of units", "statement": "In any mode, a fit with automatic bandwidth selection returns a bandwidth it tried, none of those tried having a smaller leave-one-out score or corrected Akaike criterion, and everything reported belongs to that bandwidth; the choice does not depend on the units of the map and of the response.", "quantifier": "All data, coordinates, kernels, bandwidth kinds, bounds, criteria, thread counts and schedules; all units", "why_tests_cant": "The search path depends on the data; a dependence on units only shows at scales a test does not use", "anchors": ["src/gwmodelpp/GWRBasic.cpp: GWRBasic::fit", "src/gwmodelpp/BandwidthSelector.cpp: BandwidthSelector::optimize"]}
{"id": "C120", "title": "Automatic variable selection of a basic regression follows the corrected Akaike criterion in every mode", "statement": "In any mode, a fit with automatic variable selection is a greedy forward search by the corrected Akaike criterion of the regressions on exactly the visited columns; variables whose regressions are not determined are never preferred; the fit, and the bandwidth search if requested, continue with the intercept and the selected columns, and everything reported belongs to them.", "quantifier": "All data, coordinates, kernels, thresholds, thread counts and schedules", "why_tests_cant": "The path of the search and the behaviour on degenerate candidates depend on the data and the schedule", "anchors": ["src/gwmodelpp/GWRBasic.cpp: GWRBasic::fit, indepVarsSelectionCriterion, fitCoreSHatOmp", "src/gwmodelpp/VariableForwardSelector.cpp"]}
{"id": "C121", "title": "A whole run of basic regression behaves correctly under changes of unit", "statement": "Maps with proportional distances give identical results; multiplying the response by a number multiplies coefficients, standard errors and residual sum of squares accordingly, moves the Akaike criteria by n log of its square and leaves R-squares, hat matrix and degrees of freedom; rescaling covariates rescales only their coefficients and standard errors; adding a known effect of the covariates to the response adds it to the coefficients and leaves residuals and inference.", "quantifier": "All data, coordinates, kernels, bandwidths, factors, thread counts and schedules", "why_tests_cant": "A relation between infinitely many pairs of runs", "anchors": ["src/gwmodelpp/GWRBasic.cpp: GWRBasic::fit, fitBase, CalcDiagnostic"]}
{"id": "C122", "title": "Traces, diagnostics and standard errors reported by scalable regression", "statement": "Beside the coefficients, a fit of scalable regression reports the traces of the hat matrix, the diagnostics built from them and the standard errors that the local cross-product matrices of its weights determine, and these agree with a change of unit: measuring the regressors in another unit divides coefficients and standard errors by the factor and leaves traces and diagnostics.", "quantifier": "All data, distances, degrees, bandwidths, criteria, parameters the minimiser may pick and orders of equal distances", "why_tests_cant": "Values must be right for every input, and the unit of a regressor can be any real number", "anchors": ["src/gwmodelpp/GWRScalable.cpp: GWRScalable::fit, fitSerial"]}
{"id": "C123", "title": "The status of a basic regression object, and repeated runs on it", "statement": "status() tells whether results can be trusted: if it reports Success after a fit or prediction, that run returned exactly what it would have returned had nobody asked to stop. Fits and predictions on the same object do not influence each other: a fit returns what it returns on a new object, whatever was run, failed or was cancelled before.", "quantifier": "All sequences of fits, predictions and changes of the weight, with any data and settings, all answers to the polls for a stop request, thread counts and schedules", "why_tests_cant": "Histories and moments of a stop request are unbounded", "anchors": ["src/gwmodelpp/GWRBasic.cpp: GWRBasic::fit, predict, fitBase, bandwidthSizeCriterion*", "include/gwmodelpp/Algorithm.h: status, GWM_LOG_STOP_RETURN", "include/gwmodelpp/GWRBasic.h: getCriterion"]}
{"id": "C124", "title": "A whole basic regression on the GPU gives what the CPU gives", "statement": "With the CUDA type a fit or prediction from the same coordinates, data, bandwidth and kernel returns what it returns on the CPU: distances in the chosen metric, kernel weights, coefficients, standard errors and diagnostics, and it fails exactly where the CPU fails.", "quantifier": "All data sets, coordinates (planar or geographic) and metrics, bandwidths, kernels and group sizes", "why_tests_cant": "Data sets, bandwidths and group sizes are unbounded; tests need a GPU and compare a few numbers", "anchors": ["src/gwmodelpp/GWRBasic.cpp: fitCoreCuda, predictCuda", "src/gwmodelpp/spatialweight/CRSDistance.cpp: prepareCuda, distance", "src/gwmodelpp/spatialweight/cuda/CRSDistanceKernel.cu", "include/gwmodelpp/spatialweight/SpatialWeight.h: weightVector"]}
{"id": "C125", "title": "The bandwidth selected on the GPU is the best of those tried by the same criterion as on the CPU", "statement": "An automatic bandwidth selection with the CUDA type compares bandwidths by their leave-one-out score or corrected Akaike criterion, never prefers a bandwidth for which this is not defined, and everything reported belongs to the regressions with the selected bandwidth.", "quantifier": "All data sets, coordinates, bounds, kernels, kinds of bandwidth and group sizes", "why_tests_cant": "The data and the bandwidths visited are unbounded", "anchors": ["src/gwmodelpp/GWRBasic.cpp: fitCoreCVCuda, fitCoreSHatCuda, bandwidthSizeCriterionCV, bandwidthSizeCriterionAIC, fit", "src/gwmodelpp/BandwidthSelector.cpp: optimize"]}
{"id": "C126", "title": "Automatic selection of variables on the GPU compares the same criterion as on the CPU", "statement": "With at least as many observations as the group size, a GPU fit with automatic selection of variables (with or without automatic bandwidth selection) selects by a greedy forward search over all columns but the intercept, comparing the corrected Akaike criterion of the unweighted regressions, stopped by the threshold; everything reported belongs to the regressions on the selected columns; and a set of variables that determines no regression is never preferred to one that does.", "quantifier": "all data sets, coordinates (plane or ellipsoid), kernels, bandwidths, thresholds, group sizes and initial contents of device buffers", "why_tests_cant": "The criterion must be right for every candidate set of every data set, including sets whose matrix cannot be inverted and any leftover content of buffers.", "anchors": ["src/gwmodelpp/GWRBasic.cpp: GWRBasic::indepVarsSelectionCriterion, GWRBasic::fitCoreSHatCuda, GWRBasic::fit", "src/gwmodelpp/spatialweight/cuda/BandwidthWeightKernel.cu: gw_weight_cuda", "src/gwmodelpp/VariableForwardSelector.cpp: VariableForwardSelector::optimize"]}
{"id": "C127", "title": "The range in which a bandwidth is searched", "statement": "Automatic bandwidth selection starts by dividing the search range by the golden section. Unless the user sets bounds, the range of a number of neighbours is from 20 to the number of observations, and the range of a distance is from 0 to the largest distance between observations; a bound that is set (where the class uses it) replaces the corresponding end.", "quantifier": "every class with automatic bandwidth selection based on the golden section, every data set, planar or geographic coordinates, criterion, kernel, mode and pair of bounds", "why_tests_cant": "Holds for all data and criteria; tests look at the selected bandwidth of a few data sets, which does not show where the search began.", "anchors": ["src/gwmodelpp/GWRBasic.cpp: fit", "src/gwmodelpp/GWRRobust.cpp: fit", "src/gwmodelpp/GWRLocalCollinearity.cpp: fit", "src/gwmodelpp/GWRGeneralized.cpp: fit", "src/gwmodelpp/GTWR.cpp: fit", "src/gwmodelpp/GWRMultiscale.cpp: fit", "src/gwmodelpp/BandwidthSelector.cpp: optimize"]}
{"id": "C128", "title": "Sessions with a GPU task", "statement": "A program that uses the library through a GPU task (create, enter data and settings entry by entry, fit or predict, read results) gets the results of basic geographically weighted regression for the data and settings it entered last, whatever calls, successful or failing, came before; calls that fail change nothing.", "quantifier": "every sequence of calls on a task, every number of observations, variables and places, every data set, kernel, bandwidth, map and selection setting", "why_tests_cant": "All call sequences and data sets; the tests make one fixed sequence of calls.", "anchors": ["include/gwmodelcuda/GWRBasicGpuTask.h", "src/gwmodelcuda/GWRBasicGpuTask.cpp", "include/gwmodelcuda/IGWRBasicGpuTask.h"]}
{"id": "C129", "title": "Copies and memory of GPU tasks", "statement": "A copy of a GPU task is a task of its own with everything the original has; calls on one task never change another; programs that use only existing tasks make no memory errors, and destroying all tasks returns all their memory.", "quantifier": "every program of creations, copies, assignments (also to itself), calls and destructions of any number of tasks", "why_tests_cant": "All programs; the tests copy no task.", "anchors": ["include/gwmodelcuda/GWRBasicGpuTask.h: copy constructor, operator=, destructor, setDistanceType", "src/gwmodelcuda/IGWRBasicGpuTask.cpp"]}
{"id": "C130", "title": "Progress reports are consistent", "statement": "While an algorithm runs, the progress it reports through its telegram can drive a progress bar: a report (current, total) never has current above total, the reports of one phase never move backwards, total of total is reported exactly if the phase ran to its end, and percentages lie between 0 and 1.", "quantifier": "all data, kernels and bandwidths, all schedules of the threads, group sizes, answers to the polls for a stop request, failing locations or groups, candidate lists and criterion values", "why_tests_cant": "Tests run without a telegram that looks at the reports, on one schedule and data on which nothing fails; the claim is about every interleaving, every stop point and every failing location.", "anchors": ["include/gwmodelpp/Algorithm.h: GWM_LOG_PROGRESS, GWM_LOG_PROGRESS_PERCENT", "include/gwmodelpp/Logger.h: ITelegram::progress", "src/gwmodelpp/GWRBasic.cpp: fitCoreSerial, fitCoreOmp, fitCoreCuda, predictSerial, predictOmp, indepVarsSelectionCriterion, bandwidthSizeCriterionCV/AIC", "src/gwmodelpp/GWRScalable.cpp: fitSerial, optimize", "src/gwmodelpp/GWRGeneralized.cpp: PoissonWtSerial, BinomialWtSerial", "src/gwmodelpp/GWDR.cpp: indepVarCriterion*, bandwidthCriterion*"]}
{"id": "C131", "title": "An adaptive bandwidth of less than one neighbour is reported, not fatal", "statement": "A run asked for an adaptive bandwidth between 0 and 1 (less than one neighbour) reports an exception to the caller, in serial and in multithreaded mode, and automatic selection never prefers such a bandwidth.", "quantifier": "all numbers of observations, coordinates (planar or geographic), data, kernels, prediction places, numbers of threads and schedules", "why_tests_cant": "The claim is about every data set and every schedule; whether an exception leaves a parallel loop is not seen by tests with valid bandwidths.", "anchors": ["src/gwmodelpp/spatialweight/BandwidthWeight.cpp: weight", "src/gwmodelpp/GWRBasic.cpp: fitCoreOmp, predictOmp, isValid, bandwidthSizeCriterionCV", "src/gwmodelpp/GWSS.cpp: GWAverageOmp, GWCorrelationOmp", "src/gwmodelpp/GWRLocalCollinearity.cpp: fit"]}
{"id": "C132", "title": "Automatic bandwidth selection neither corrupts nor loses memory", "statement": "In a program that runs automatic bandwidth selections on any number of models, in any order, with any outcome (completed, stopped, failed), no bandwidth object is used after deletion or deleted twice, no two models share one, each model ends with the bandwidth that its searches give, and no object is lost.", "quantifier": "all numbers of models, all sequences of selections, all search bounds, all answers of the criterion including stop requests at any call and failures", "why_tests_cant": "A wrong pointer shows only for particular orders of stops and failures, and lost memory changes no result.", "anchors": ["src/gwmodelpp/BandwidthSelector.cpp: optimize", "include/gwmodelpp/spatialweight/SpatialWeight.h: setWeight(Weight*)", "src/gwmodelpp/GWRBasic.cpp: fit", "src/gwmodelpp/GWRMultiscale.cpp: fit, backfitting"]}
{"id": "C133", "title": "A multiscale fit distributed over processes gives the single-process result in every process", "statement": "When a multiscale GWR is fitted with MPI, the processes never get out of step (no process waits for a collective call the others do not make), every process ends with the same coefficients, standard errors, bandwidths and diagnostics whatever the order in which messages arrive, and these are the ones a single process computes.", "quantifier": "All data, weights, bandwidth settings, numbers of processes, message orders, iteration limits and thresholds.", "why_tests_cant": "The outcome depends on the number of processes, on message order and on the sign of every coefficient that occurs during back-fitting; a test runs a few processes on one dataset whose coefficients may all be positive.", "anchors": ["src/gwmodelpp/GWRMultiscale.cpp: fit, backfitting, fitVarMpi, bandwidthSizeCriterionVarCVMpi, bandwidthSizeCriterionVarAICMpi", "src/gwmodelpp/utils/armampi.cpp: mat_mul_mpi"]}
{"id": "C134", "title": "Threads of a multithreaded fit do not disturb each other at the level of single memory accesses", "statement": "When a basic or a ridge GWR is fitted with several threads, no two threads access the same memory with one of them writing, and the results (coefficients, standard errors, traces, stored hat rows and coefficient matrices) are those of the serial fit however the single loads and stores of the threads interleave.", "quantifier": "All data, weights, numbers of threads, assignments of iterations to threads, and all interleavings of single loads and stores.", "why_tests_cant": "The number of interleavings of single accesses is astronomically large and a test runs whichever the machine happens to produce; a lost update may show once in millions of runs.", "anchors": ["src/gwmodelpp/GWRBasic.cpp: fitCoreOmp", "src/gwmodelpp/GWRLocalCollinearity.cpp: fitOmp"]}
{"id": "C135", "title": "Multiscale regression is back-fitting, in every mode", "statement": "When multiscale GWR completes, serially or with any number of threads, on planar or geographic coordinates, with fixed or adaptive bandwidths of any kernel, it has done this: an ordinary GWR with automatically selected bandwidth gives the initial coefficients; the bandwidths of the variables without a given one are searched for the response; then sweeps over the variables follow, in which the bandwidth of every variable that is neither given nor settled is searched again for what the other variables leave of the response, a variable settles when its bandwidth has hardly moved the configured number of times in a row, and the coefficients of every variable become those of the weighted regression of what the other variables leave on it alone with its bandwidth. The sweeps end when the (relative) change of the residual sum of squares no longer exceeds the threshold or at the iteration limit, and not before. The reported coefficients and bandwidths are those of the last sweep, and the reported diagnostics are functions of the matrix that maps the response to the fitted values.", "quantifier": "All data, coordinates, kernels, kinds of bandwidth, criteria, bounds, thresholds, retry counts, iteration limits, and all assignments of the places to threads in every single loop.", "why_tests_cant": "A test compares final numbers on one data set, where wrong partial residuals or a wrong stopping rule converge to nearly the same coefficients; the claim is about each sweep of every run and every schedule.", "anchors": ["src/gwmodelpp/GWRMultiscale.cpp: fit", "src/gwmodelpp/GWRMultiscale.cpp: backfitting", "src/gwmodelpp/GWRMultiscale.cpp: fitVarBase", "src/gwmodelpp/GWRMultiscale.cpp: fitVarCoreOmp", "src/gwmodelpp/GWRMultiscale.cpp: createDistanceParameter"]}
{"id": "C136", "title": "Fitting a multiscale model again", "statement": "Calling fit() again on a multiscale GWR object whose settings have not been changed gives the same coefficients, bandwidths and diagnostics as the first call.", "quantifier": "All data, settings and modes, and every number of fits in a row.", "why_tests_cant": "Tests construct an object and fit it once; whether later fits repeat the first depends on what every fit leaves in the object, on all data and after any number of fits.", "anchors": ["src/gwmodelpp/GWRMultiscale.cpp: fit", "src/gwmodelpp/GWRMultiscale.cpp: backfitting"]}
{"id": "C137", "title": "The angle between space and time", "statement": "A space-time distance constructed with an angle combines distance and elapsed time with a mixed term proportional to the cosine of that angle, for every angle; constructed without one it uses the default of 90 degrees, at which the mixed term vanishes.", "quantifier": "All angles, weights λ in [0,1], and all numbers of places and times.", "why_tests_cant": "The angle ranges over the reals and the object normalises it before use; tests use one acute angle, so they cannot tell the cosine from its absolute value, nor see that the default is not the limit of nearby angles.", "anchors": ["src/gwmodelpp/spatialweight/CRSSTDistance.cpp: CRSSTDistance::CRSSTDistance", "src/gwmodelpp/spatialweight/CRSSTDistance.cpp: ObliqueSTDistance", "src/gwmodelpp/spatialweight/CRSSTDistance.cpp: OrthogonalSTDistance", "include/gwmodelpp/spatialweight/CRSSTDistance.h: mAngle"]}
{"id": "C138", "title": "Threads do not change what the other regressions report", "statement": "For space-time, robust, generalised, ridge and density regression, switching from serial to multithreaded execution, or changing the number of threads or their schedule, does not change the selected bandwidth, the coefficients, the standard errors or the diagnostics of a whole run.", "quantifier": "All data, bandwidths, kernels, criteria, thread counts and schedules of every loop in the run.", "why_tests_cant": "Schedules are not under the control of a test, and a run composes many loops (search, iterations, fit); equality has to hold for every combination of schedules.", "anchors": ["src/gwmodelpp/GTWR.cpp: GTWR::fit", "src/gwmodelpp/GWRRobust.cpp: GWRRobust::fit", "src/gwmodelpp/GWRGeneralized.cpp: GWRGeneralized::fit", "src/gwmodelpp/GWRLocalCollinearity.cpp: GWRLocalCollinearity::fit", "src/gwmodelpp/GWDR.cpp: GWDR::fit"]}
{"id": "C139", "title": "Robust, space-time and density regression follow changes of the response", "statement": "If the response is measured in another unit (also with the opposite sign) and a known linear effect of the predictors is added to it, the local coefficients change by exactly the unit and the effect, residuals and standard errors are scaled, the effective numbers of parameters stay, AIC and AICc move by n log of the squared unit, and R-squared stays when the effect is the same everywhere. Robust regression keeps treating the same observations as outliers, and space-time regression keeps selecting the same lambda.", "quantifier": "All data, units other than zero, effects, bandwidths, kernels, both robust methods, all thread counts and schedules.", "why_tests_cant": "The relation is between two runs on infinitely many pairs of inputs, and the robust iteration and the search for lambda branch on values computed from the response at every step.", "anchors": ["src/gwmodelpp/GWRRobust.cpp: GWRRobust::robustGWRCaliFirst, robustGWRCaliSecond, filtWeight", "src/gwmodelpp/GTWR.cpp: GTWR::fit, LambdaAutoSelection", "src/gwmodelpp/GWDR.cpp: GWDR::fit"]}
{"id": "C140", "title": "The order of the observations does not matter for whole runs", "statement": "If locations, times, predictors and response are listed in another order, the basic, robust, space-time and density regressions select the same bandwidths (and the same lambda), report the same diagnostic, and report for each observation the coefficients and standard errors it had before; a run that completes still completes.", "quantifier": "All data, permutations of the observations, kernels, bandwidths given or selected, both criteria, both robust methods, all thread counts and schedules.", "why_tests_cant": "There are n! orders for each of infinitely many data sets, and the searches and the robust iteration branch on sums over all observations at every step.", "anchors": ["src/gwmodelpp/GWRBasic.cpp: GWRBasic::fit", "src/gwmodelpp/GWRRobust.cpp: GWRRobust::fit", "src/gwmodelpp/GTWR.cpp: GTWR::fit, LambdaAutoSelection", "src/gwmodelpp/GWDR.cpp: GWDR::fit", "src/gwmodelpp/spatialweight/CRSDistance.cpp: CRSDistance::maxDistance"]}
{"id": "C141", "title": "Weighted covariances and correlations offered to callers", "statement": "The public weighted covariance matrix is, for all weights, the covariance with the reliability-weight correction: it exists exactly when the corrected divisor does, does not depend on the unit of the weights, is symmetric, ignores constant shifts, scales with the data, has no negative variance for non-negative weights, and is the sample covariance for equal weights. The public pair functions give the same covariance and a correlation between -1 and 1.", "quantifier": "All data matrices, all numbers of observations and variables, all weights.", "why_tests_cant": "An identity between real functions of arbitrarily many data and weights; tests only evaluate it for normalised weights.", "anchors": ["src/gwmodelpp/GWDA.cpp: GWDA::covwtmat", "include/gwmodelpp/GWDA.h: GWDA::covwt, GWDA::corwt", "include/gwmodelpp/GWSS.h: GWSS::covwt, GWSS::corwt"]}
{"id": "C142", "title": "A vector without one of its elements", "statement": "The public function that removes one element from a vector returns the other elements in order for every valid index and refuses every other index.", "quantifier": "All vectors and indices.", "why_tests_cant": "All lengths and all indices, including the wrap-around of unsigned indices.", "anchors": ["src/gwmodelpp/GWSS.cpp: GWSS::del"]}
{"id": "C143", "title": "Order of the observations in ridge regression, summary statistics and principal components", "statement": "Listing the same observations in another order changes nothing but the order of the results: the same bandwidth is selected for the ridge regression, its coefficients move with their observations and its diagnostics stay; the local averages, variances, quartiles, covariances and correlations, and the variances of the principal components, move with their observations.", "quantifier": "All data, coordinates, bandwidths, kernels and permutations; serial runs and all schedules of multithreaded runs.", "why_tests_cant": "All permutations of all data sets; a test tries a few orders.", "anchors": ["src/gwmodelpp/GWRLocalCollinearity.cpp: fit, ridgelm, bandwidth selection", "src/gwmodelpp/GWSS.cpp: GWAverageSerial, GWCorrelationSerial, rank, findq", "src/gwmodelpp/GWPCA.cpp: run, solveSerial"]}
{"id": "C144", "title": "Order of the observations in discriminant analysis", "statement": "Listing the same labelled observations in another order changes nothing but the order of the results: the score of an observation for a class, the class it is named, its class probabilities and the correct rate are the same.", "quantifier": "All data, labels, coordinates, bandwidths, kernels, options, linear and quadratic rule, serial and multithreaded runs, first and later runs, and all permutations.", "why_tests_cant": "All permutations of all data sets and label sequences; which class is met first depends on the order.", "anchors": ["src/gwmodelpp/GWDA.cpp: run, levels, findSameString, wlda, wqda, ytable, shannonEntropy"]}
{"id": "C145", "title": "Order of the observations in generalised regression", "statement": "Listing the same observations in another order changes nothing but the order of the results of a Poisson or binomial regression: the same bandwidth is selected, coefficients, standard errors, working responses and working weights move with their observations, and the AIC, AICc, deviance, R², the report of the global model and whether the calibration converged are the same.", "quantifier": "All data, coordinates, bandwidths, kernels, tolerances, iteration limits and permutations; both families; serial runs and all schedules of multithreaded runs.", "why_tests_cant": "All permutations of all data sets and schedules; the calibration is an iteration whose stopping depends on sums over the observations.", "anchors": ["src/gwmodelpp/GWRGeneralized.cpp: fit, CalGLMModel, PoissonWtSerial, BinomialWtSerial, fitPoissonSerial, fitPoissonOmp, fitBinomialSerial, fitBinomialOmp, bandwidthSizeGGWRCriterionCVSerial, bandwidthSizeGGWRCriterionAICSerial", "src/gwmodelpp/GeneralizedLinearModel.cpp: fit"]}
{"id": "C146", "title": "Unit of the response and known effects in ridge regression", "statement": "Giving the response of a ridge regression in another unit changes the unit of the coefficients, at the observations and at other places, and of the residuals, and nothing else: the run completes as before, effective parameters and R² are the same, AIC and AICc move by the constant of the unit. A known linear effect of the covariates added to the response is found again in the coefficients.", "quantifier": "All data, coordinates, bandwidths, kernels, factors other than 0, effects, ridge parameters and thresholds, with or without adjustment; serial runs and all schedules of multithreaded runs.", "why_tests_cant": "All data sets, factors and schedules; the code rescales the response by a standard deviation of its own and adjusts the ridge parameter per location.", "anchors": ["src/gwmodelpp/GWRLocalCollinearity.cpp: fit, predict, ridgelm, fitSerial, fitOmp, predictSerial"]}
{"id": "C147", "title": "How the map is drawn does not matter for whole runs", "statement": "Rotating, enlarging and shifting the coordinates, together with a bandwidth that is a distance, changes nothing in the outcome of a ridge, robust or generalised regression, a discriminant analysis or an analysis of principal components, nor in the coefficients a ridge regression predicts at other places. With a number of neighbours selected automatically, the selected number and the whole outcome are the same too, for basic, ridge, robust and generalised regression. Scalable regression has the same outcome on the enlarged map, and space-time and multiscale regression on the turned and shifted map. Density regression has the same outcome with another unit, origin and direction on every axis. A distance selected automatically on an enlarged map is the enlarged distance, up to 0.0002 units of the smaller map, and its criterion is no worse.", "quantifier": "All data, coordinates and places, geographic or planar, fixed and adaptive bandwidths with positive radius at every place, kernels, rotations, enlargements and shifts; serial runs and all schedules of multithreaded runs. For automatic selection: planar maps, both criteria, every outcome.", "why_tests_cant": "All data sets and all motions of the plane, including runs that fail.", "anchors": ["src/gwmodelpp/GWRLocalCollinearity.cpp: fit, predict", "src/gwmodelpp/GWRRobust.cpp: fit", "src/gwmodelpp/GWRGeneralized.cpp: fit", "src/gwmodelpp/GWDA.cpp: run", "src/gwmodelpp/GWPCA.cpp: run", "src/gwmodelpp/spatialweight/BandwidthWeight.cpp", "src/gwmodelpp/spatialweight/CRSDistance.cpp", "src/gwmodelpp/GWRScalable.cpp: fit, predict", "src/gwmodelpp/GTWR.cpp: fit", "src/gwmodelpp/BandwidthSelector.cpp: optimize", "src/gwmodelpp/GWRMultiscale.cpp: fit", "src/gwmodelpp/GWDR.cpp: fit"]}

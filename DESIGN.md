# DESIGN

Formal model of GWmodel-Lab/libgwmodel (C++ sources in /repo) in Lean 4 with Mathlib.

## Trusted base

* Lean 4.33.0's kernel, and that the statements in `Verif/Props` with the definitions they use say what their comments say.
* Axioms: only `propext`, `Classical.choice` and `Quot.sound` (Lean's own). AXIOMS.md lists them per theorem; tools/axioms.py writes it.
  No `sorry`, no `native_decide`, no `bv_decide`, no axiom of our own.
* The correspondence between the C++ text and `Verif/Model`: checked by reading only. Every definition cites the lines it stands for.
* The behaviour of the libraries the code calls, as described under Conventions. Armadillo's `inv_sympd` and `inv` are the mathematical
  inverse, or a failure if there is none; `eig_sym`, `svd`, `princomp` return any decomposition that satisfies their specification; `sort`,
  `sort_index` (stable where the code uses the stable variant), `accu`, `sum` are the mathematical operations. GSL's minimiser in scalable GWR
  may return anything. MPI collectives are the mathematical reductions, with arrival order arbitrary. cuBLAS calls are the documented products.

## Conventions

* `Verif/Core` — outcomes (`Res`) and loops (serial and OpenMP).
* `Verif/Model` — the model; every definition cites the file and lines it models.
* `Verif/Spec` — small specifications, independent of the model, used in theorem statements.
* `Verif/Lemmas` — helper lemmas.
* `Verif/Props` — property theorems, named `Cnn_…`, with examples beside them that meet the hypotheses.
* `Verif/Cases` — further concrete cases: for each family of theorems, closed data sets on which the hypotheses hold, and the theorems applied to them.
* Outcomes: `Res α = ok a | throw e | ub | nonfinite`. Armadillo's `operator()` is bounds checked (the project does not define ARMA_NO_DEBUG),
  so an out-of-range access is an exception; `operator[]`, raw pointers and iterators are not, so out-of-range is `ub`. An exception that
  leaves an OpenMP region ends the program and is also `ub`. `nonfinite` stands for NaN or infinity reaching a result. A NaN
  in an intermediate vector ends the model run with `nonfinite` also where a later comparison would absorb it (a boxcar weight of a NaN
  distance is 0 in the code); theorems about completed runs say nothing of such inputs.
* `double` is ℝ. Rounding and overflow are not modelled; division by zero, logarithm of a non-positive number and root of a negative number
  give `nonfinite`. DBL_MAX is a real constant.
* Machine integers: naturals or integers, except where wrap-around, truncation or overflow changes the outcome; there the 32 or 64 bit
  arithmetic is modelled (forward selection, quantiles, MPI ranges, MPI counts, AICc of the global model).
* Concurrency: an OpenMP loop is an arbitrary list of start and finish events of (thread, iteration) pairs that runs every iteration once;
  per-thread accumulators are indexed by thread. A stop request is an arbitrary oracle over polls. `Model/Accesses` refines this for two loops:
  every load and store is a step of its own, interleaved arbitrarily (sequential consistency).
* Object histories (setters, copies, repeated fits, device buffers) are arbitrary lists of calls.

## What is modelled

| Source | Model | Not modelled |
|---|---|---|
| spatialweight/BandwidthWeight, Weight | Kernel | — |
| spatialweight/cuda/BandwidthWeightKernel.cu, CRSDistanceKernel.cu | KernelCuda, GWRCuda, GpuRun | warp scheduling, rounding differences |
| spatialweight/CRSDistance, MinkwoskiDistance, OneDimDistance, DMatDistance, CRSSTDistance, Distance | Distance | reading the distance file (DMatDistance has no body for it) |
| spatialweight/SpatialWeight | SpatialWeight (heap with allocation log) | CUDA members |
| BandwidthSelector, IBandwidthSelectable | BandwidthSelector, SelectorHeap (memory) | — |
| VariableForwardSelector | ForwardSelector | — |
| GWRBasic | LocalRegression, GWRBasic, GWRRun, GWRBasicRun, GWRObject, Mpi, GWRCuda, GpuRun, GpuVars, Config | F-tests (there are none in the class), log text |
| GWRRobust | GWRRobust, Config | GPU filter (not in the source) |
| GWDR | GWDR, Config | GSL's simplex steps (any sequence of evaluations) |
| GWPCA | GWPCA | numerical SVD |
| GWSS | GWSS, Config | — |
| GWRMultiscale | GWRMultiscale, GWRMultiscaleRun, MultiscaleModes, MultiscaleRefit, MultiscaleMpi, Mpi, Config | CUDA variant of one update, stop requests in distributed runs, log text |
| GWRScalable | GWRScalable | GSL minimiser (arbitrary) |
| GWRLocalCollinearity | GWRLocalCollinearity, GWRRidgeRun, RidgeRunGeneral, Config, Accesses | memory orders weaker than sequential consistency |
| GTWR, CRSSTDistance | GTWR, Config | dead functions `…CVOmp`, `…AICOmp` |
| GWDA | GWDA | — |
| GeneralizedLinearModel, PoissonModel, BinomialModel, LinearModel | GLM | — |
| GWRGeneralized | GWRGeneralized, Config | — |
| utils/cumat | CuMat (ownership) | numerical cuBLAS kernels |
| utils/armampi | Mpi | transport errors |
| Algorithm.h status, stop and progress macros | GWRBasic (stop oracle), GWRObject (status across calls), Progress | names of function and file in a report |
| GWRBasicGpuTask, IGWRBasicGpuTask | GpuTask (sessions), TaskHeap (copies, memory) | CUDA errors |
| Logger.h, Status.h, gwmodel.h, StdTelegram | — | callbacks and forwarding without own logic |

## Plan per property

* **C01 Kernel weights are proper weights** — Five kernels over ℝ (`Model/Kernel`); calculus-free inequalities.
* **C02 Support of the kernels** — Same model; exact zero set by case analysis.
* **C03 A larger bandwidth never reduces a weight** — Kernel monotone in bw; adaptive: order-statistic interpolation is monotone in bw (induction over the sorted vector).
* **C04 Meaning of an adaptive bandwidth** — `weight` with sort, floor and the bounds-checked element access as an explicit error outcome; spec = order statistic defined by counting.
* **C05 Weights follow the observations** — Permutation of a vector leaves its sorted list unchanged.
* **C06 CPU and GPU weights agree** — CUDA kernels as a second model; agreement theorem on the common domain (`_partial`) and negation witnesses.
* **C07 Planar distance is a metric** — Row-wise Euclidean distance; Minkowski inequality from Mathlib.
* **C08 Reported maximum and minimum distances are sharp** — Fold over focus points; bound and attainment by induction.
* **C09 Distance parameter protocol** — Distance objects as state machines with outcomes ok / exception; induction on the history.
* **C10 A copied distance gives the same distances** — Copy constructors per distance class; equality for CRS, negation for the classes which drop their parameter.
* **C11 Minkowski distance follows its exponent** — Dispatch of distance(); positive theorem for the branches that compute, negation for the documented formula.
* **C12 Spatio-temporal distance and its lambda** — λ state machine and the combination formula.
* **C13 Spatial weight objects own deep copies** — Heap of cells with allocate/free log; invariant over histories; self-assignment through an alias proved to be use-after-free.
* **C14 Bandwidth search returns the best bandwidth it tried among its final pair** — Golden section as the loop of the code with an arbitrary criterion oracle; argmin invariant.
* **C15 Bandwidth search stays within its bounds** — Interval invariant through iterations.
* **C16 Bandwidth search terminates** — Evaluation counter invariant.
* **C17 Bandwidth search keeps kernel and kind; failure protocol** — Decision logic of optimize.
* **C18 Bandwidth criterion list** — std::map as sorted association list.
* **C19 Forward selection explores nested greedy models** — Greedy loop with an arbitrary criterion oracle.
* **C20 Forward selection threshold** — Loop over unsigned 64-bit index with read of models[-1] as UB outcome; positive theorem + UB witness.
* **C21 GWR coefficients solve the local weighted least squares problem** — fitCoreSerial over Mathlib matrices, inv_sympd as partial inverse; normal equations and strict optimality.
* **C22 GWR reproduces an exact linear law** — Corollary of the normal equations.
* **C23 GWR invariances** — Algebra on the model.
* **C24 Leave-one-out really leaves one out** — Congruence of the CV residual under replacement of row i.
* **C25 Hat matrix identities** — Fold accumulators = traces.
* **C26 Diagnostics are consistent** — Algebra.
* **C27 Parallel fitting equals serial fitting** — Event-list semantics of a parallel-for with per-thread accumulators; any permutation of iterations and any thread labelling.
* **C28 Parallel bandwidth criterion equals the serial one** — Same, with the code's missing failure propagation: partial + negation.
* **C29 Cancellation protocol** — Status state machine with a stop oracle.
* **C30 Work distribution over processes covers every observation once** — Range arithmetic on 64-bit words and naturals; coverage theorem, underflow witness, gather order-independence.
* **C31 Multiscale distributed coefficients** — MPI_MAX fold; partial for non-negative, negation.
* **C32 Distributed matrix product** — Block sum = product.
* **C33 GPU batching covers every observation once** — Group partition arithmetic; stale tail witness.
* **C34 Multiscale hat matrix** — Inductive invariant over arbitrary update lists.
* **C35 Back-fitting terminates and frozen bandwidths stay** — Loop with fuel equal to the code's counter.
* **C36 Scalable GWR's packed accumulators mean a weighted regression** — Packed index bijection; table sums equal weighted Gram matrices.
* **C37 Scalable GWR neighbour search** — Neighbour selection by stable sort; column-count error witness.
* **C38 Local ridge adjustment achieves the condition-number threshold** — Field algebra.
* **C39 Refitting gives the same answer** — State machine of repeated fits; negation for LCR.
* **C40 Local summary statistics are proper statistics** — Convexity and Cauchy–Schwarz.
* **C41 Local correlation columns enumerate each pair once** — Nested loop with running index = triangular numbering bijection.
* **C42 Local quantiles** — Scan loop on 64-bit index; UB witness.
* **C43 Robust re-weighting** — Piecewise weights; iteration count.
* **C44 GTWR lambda search** — Golden section on [0,1].
* **C45 Discriminant analysis bookkeeping** — List algorithms for levels / split; entropy via Gibbs inequality.
* **C46 Generalised linear model links** — Real analysis of exp/log; loops with counters.
* **C47 The selected criterion is the one used** — Setter state machine; negation for the initial state, positive after any setter.
* **C48 Setters are reflected by getters** — Setter state machine; negation.
* **C49 Device buffers are freed once** — Ownership machine over buffers.
* **C50 Prediction at the data locations equals the fit** — Same weights, same solve.
* **C51 Results follow the observations** — Relabelling by an equivalence.
* **C52 Input validation** — Decision logic.
* **C53 Geographically weighted PCA percentages** — Sums of squares.
* **C54 Density regression weights** — Product fold.
* **C55 Geographic distances** — Formula over ℝ with the special cases; trigonometric identities; witnesses for pole and longitude convention.
* **C56 Leverages and effective degrees of freedom stay in range** — Projection inequality for weighted hat rows.
* **C57 An automatically selected bandwidth is usable** — Search result + criterion finite ⇒ every local fit succeeds; witness for the parallel case.
* **C58 Spearman ranks** — Rank algorithm against a counting specification.
* **C59 Local summary statistics do not depend on threads and stop cleanly** — Row-wise loop lemma for arbitrary schedules.
* **C60 Prediction returns estimated coefficients** — Model of each predict; zeros as witness.
* **C61 Density regression bandwidth search** — Loop around arbitrary minimiser verdicts.
* **C62 Local principal components are principal components** — Any valid decomposition; Rayleigh quotient.
* **C63 The winning variable is determined by the data** — Sign flip of a valid decomposition as witness.
* **C64 Each back-fitting update is a local regression on the partial residuals** — One-column weighted least squares.
* **C65 Start values for multiscale bandwidths are usable** — Bounds of the search; golden section on [0,0].
* **C66 Predictor centring** — Column means.
* **C67–C69 Scalable GWR: leave-one-out, units, kernel** — Neighbour lists, scaling of the packed tables, kernel algebra.
* **C70–C73 Ridge GWR** — Ridge objective as specification; hat row ignores ridge; OpenMP prediction undefined.
* **C74–C78 GTWR** — Search as loop over arbitrary objectives; space-time distance with sentinel; predict as written.
* **C79–C85 Discriminant analysis** — Linear rule against a density specification; concrete data for the failures.
* **C86, C93 Global model criteria** — Integer arithmetic as in the code.
* **C87–C92, C94 Generalised regression** — Iteration as a loop with arbitrary working weights; schedules for the parallel fit and criterion.
* **C95 An accepted parallel type is the one that runs** — Setter state machine with function pointers; induction over histories.
* **C96 Search bounds set by the user are honoured** — Setter state machine composed with the search.
* **C97 Kernels follow their documented formulas** — The kernel and distance models compared with closed formulas written down in a separate specification.
* **C98 A run computes geographically weighted regression** — The run model (bind locations, weights, loop) composed with C21, C97 and C07; the specification is a page that mentions no function of the model.
* **C99 A multiscale run estimates what it reports** — `Model/GWRMultiscaleRun` composes centring, initial model, distance binding, searches and back-fitting; invariant over the updates; the last update by induction on the loops.
* **C100 A run of scalable regression** — `Model/GWRScalableRun` composes neighbour tables, median base bandwidth, parameter search (the minimiser is a parameter), local systems; refinement to `Spec/Scalable.ScalableWeights` (nearest list, median of order statistics, polynomial kernel) and the least squares solution.
* **C101 Predictions are pointwise** — for basic regression each row depends on its own location only; for scalable regression a concrete run refutes it for every degree, minimiser and tie order.
* **C102 Automatic variable selection** — model of the whole `fit` with variable selection (`Model/GWRSelect.lean`); greedy search and last gap from C19/C20, criterion against `aiccFormula`, columns against a separate `Columns` specification, coefficients against C98. Refuted: bandwidth of the criterion, second fit.
* **C103 Whole runs of local ridge regression** — model of fit, automatic fit and predict from coordinates (`Model/GWRRidgeRun.lean`); estimates against a separate `IsLocalRidge` specification (extreme singular values as extreme stretch factors, existence by compactness), diagnostics against explicit formulas, bandwidth choice from C14/C15/C73. Runs in any mode, with planar or geographic coordinates and any kind of bandwidth (`Model/RidgeRunGeneral.lean`): every schedule of the threads gives the serial result, whose report is characterised by `Spec/RidgeRun.lean`.
* **C104 Whole runs of space-time regression** — model of the run with both automatic selections (`Model/GTWRRun.lean`); coefficients against a separate specification from coordinates and times (`Spec/SpaceTime.lean`), λ by the bracket invariant of golden section on a single-peaked R², bandwidth from C14 and explicit leave-one-out / corrected AIC specifications shared with C24 and C26. In `Props/GTWRRunGeneral.lean` all of it for every kind of bandwidth, geographic coordinates and any mode, from the kernel weights of `Spec/KernelWeight.lean`.
* **C105 Discriminant analysis: the quadratic rule** — exact score formulas of both rules against `Spec/Discriminant.lean`; the rule of the statement is refuted on a data set of nine observations; the rule the code implements is proved as `_partial`.
* **C106 Whole runs of discriminant analysis** — model of `run` from coordinates to published results (`Model/GWDARun.lean`); classes by C79 with kernel weights of distances, published numbers by explicit formulas.
* **C107 Generalised linear model: iterations and diagnostics** — induction over the iterations of `glmLoop`, giving the sequence of linear predictors and coefficients; refinement to `Spec/IRLS.lean` for both families.
* **C108 Generalised regression from coordinates to diagnostics** — model of whole runs (`Model/GGWRRun.lean`); induction over the calibration gives the sequence of iterations of `Spec/LocalScoring.lean`; coefficients, standard errors, traces, deviance, AIC, AICc, pseudo R² and both bandwidth criteria by explicit formulas of it.
* **C109 Generalised regression maximises the local likelihood** — false: proved for neighbours that share the local coefficients, refuted for two locations and any two different counts.
* **C110 Robust regression, whole runs** — the run from coordinates to result (Model/RobustRun), related to a smoother specification (Spec/Smoother) in which the hat matrix is given by responses that are 1 at one observation.
* **C111 Robust prediction at the observations** — false: `predict` is the ordinary one; refuted for one outlying observation among n ≥ 11, proved when no observation is downweighted.
* **C112 Density regression, whole fit** — model of `fit` from the coordinates (`Model/GWDRRun`); explicit product weights, local regressions and diagnostics (`Spec/Density`); the parallel mode hides failures (refuted part).
* **C113 Density regression, automatic bandwidths** — simplex minimiser arbitrary; results belong to the reported bandwidths; refuted for small units (rounding to 0).
* **C114 Density regression, variable selection** — the generic forward search (`selectVars`) with the criterion shown to be the corrected Akaike criterion.
* **C115 Runs of local summary statistics** — `gwssAverageRun`, `gwssCorrelationRun` compose distances, kernel and the loops of C40–C42, C59 under an `Exec`; the weights are characterised once and for all kinds of bandwidth and coordinates by `IsKernelWeight` (Spec/KernelWeight.lean), the tables by Spec/SummaryTables.lean.
* **C116 Units and maps** — from C115, because the tables are explicit and weights depend on distances up to a common factor only.
* **C117 Runs of local principal components** — `gwpcaRun`; C53, C62, C63 composed with the weights; the decomposition is a parameter, assumed exact, shown to exist by the spectral theorem (Lemmas/RightSVD.lean).
* **C118 A fit is textbook regression; C119 bandwidth selection; C120 variable selection; C121 units.** Whole runs of `GWRBasic` in both modes
  (`Model/GWRBasicRun`): weights from coordinates by the specification of `Spec/KernelWeight`, then the core loops. The reports are stated as minimisers,
  hat matrices and textbook formulas (`Spec/Smoother`, `Spec/GWRScore`). Unit changes are proved on those minimisers. Refuted: independence of the selected
  bandwidth from units (absolute tolerances), and variable selection in parallel mode (failing candidates count as parameterless models).
* **C122 Report of scalable regression.** The second pass of `GWRScalable::fitSerial` (traces, `sumMx2`, `bse`) is modelled; `Spec/ScalableReport`
  writes every reported number in terms of the weights. Proved by unfolding the tables of products; the effect of a change of unit is derived from
  the formulas, and a concrete run shows that traces and standard errors depend on the unit.
* **C123 Status and histories of an object.** `Model/GWRObject` keeps the status, weight and distance of a `GWRBasic` object across calls; every poll for a
  stop request is answered by an arbitrary oracle. Proved by induction over loops and histories that Success certifies the result and that uncancelled runs do
  not influence each other; refuted for runs after a cancelled one, since nothing in the library resets the status. The link to C118/C119 is `C123_new_object`.
* **C124 Whole runs on the GPU.** `Model/GpuRun` composes the device distances, device weights (C06) and batched cores (C33). The weights are shown equal to the
  CPU's under `DeviceBandwidth`, then C33 and C118 give the report. Minkowski metrics and small data are refuted.
* **C125 Bandwidth selection on the GPU.** The device criteria are put into the search of C14–C17; agreement where the criterion is defined, as in C119. Where it is
  not, the quiet failure of the device core is refuted, with a two-observation data set on which CPU and GPU select differently.
* **C126 Selection of variables on the GPU.** `Model/GpuVars` puts the device criterion (all weights 1 for DBL_MAX) into the forward search of C18–C20; agreement with
  the corrected Akaike criterion where determined, by C33. Undetermined sets are scored as parameterless models: refuted on a column of zeros.
* **C127 Range of a bandwidth search.** `Spec/SearchRange` states the default range and how a golden-section search starts in it; the first two calls of `optimize` and the greatest entry of
  the distance matrix (`maxLoop_spec`) give it for every class. Refutations: the sentinel 10^13 of space-time distances, and fewer than 18 observations.
* **C128 Sessions with a GPU task.** `Model/GpuTask`: one step per call of the interface; `Spec/GpuTask`: what a call gives and the last value given. Data entry, failing calls and independence of earlier runs by
  induction over the sequence of calls; fits and predictions through C124–C126; Minkowski settings by a simulation between the session with and without them.
* **C129 Copies and memory of GPU tasks.** `Model/TaskHeap` puts distance and weight of each task on a heap; `Spec/TaskHeap` is the same program on values. Simulation by induction over the program, with the
  invariant that every object belongs to exactly one task or to the set of lost ones; the size of that set is counted.
* **C130 Progress reports.** `Model/Progress` computes from the same loop bodies, schedules and stop oracles the reports that a telegram receives; the specification (`Spec/Progress`) only speaks of pairs (current, total). Induction over the loops; the order in multithreaded runs and the percentages of two searches are refuted.
* **C131 Adaptive bandwidth below one neighbour.** Evaluation of the adaptive radius for a bandwidth in (0,1): the element before the first is asked for, which throws; the serial runs hand the exception on, the parallel loops have no handler around the weights, so the outcome is `ub`. No new model.
* **C132 Memory of automatic bandwidth selection.** `optimize` and `setWeight` on a heap of bandwidth objects, with reads, deletes and clones as in the code; refinement to the search on values by induction over the rounds, then over programs of searches on several spatial weights; the objects that exist are counted.
* **C133 Distributed multiscale fit.** `Model/MultiscaleMpi`: every process has its own members and its rows of the hat matrices; different branches or different searches are `ub`. Refinement, step by step and by induction over variables and iterations, to a single-process run whose coefficients pass through a function (`Spec/MultiscaleMpi`): the identity for one process, the positive part for more. From this the sign theorem and the behaviour on exactly linear data.
* **C134 Single memory accesses.** `Model/Accesses`: shared memory as cells, statements split into loads and stores, threads interleaved in any way that keeps their own order. A cell only one thread touches ends as if this thread ran alone (`C134_private_cell`, by induction over the run); from this the results of `fitCoreOmp` and of the ridge `fitOmp` for every assignment of iterations and every interleaving. Data races as in the C++ standard (`Spec/Accesses`); the races of the default settings, of failures and of the ridge traces are theorems.
* **C135 Multiscale runs in any mode.** `Model/MultiscaleModes`: the whole of `GWRMultiscale::fit` with a free choice of serial or multithreaded for every single loop, planar or geographic distances, every kind of bandwidth, with or without hat matrix. `Spec/BackFitting` says what back-fitting is in terms of data, settings and the sequence of coefficients and bandwidths; the run refines it (`C135_run`, by induction over variables and sweeps, through the partial residuals being what the other variables leave) and its diagnostics are those of its coefficients (`C135_diagnostics`, hat matrices as invariant).
* **C136 Fitting a multiscale model again.** `Model/MultiscaleRefit` says what a completed fit leaves in the object (centred predictors, the bandwidths found, the marks of settled predictors) and runs any number of fits in a row. `C136_second_fit`: a further fit is the first fit of a new object with the original data, the bandwidths found as start values and the settled ones as given (centring twice changes nothing). `C136_given_kept`, `C136_settled_kept` (induction over sweeps and fits): given and settled bandwidths stay. `C136_refit_partial`: with all bandwidths given every fit reports the same. `C136_second_fit_differs`: four observations on which two fits in a row give different coefficients, because the second one uses the final bandwidth from its first sweep on.
* **C137 The angle between space and time.** About the same model as C12. `C137_any_angle`: for every angle that is not a right one (up to `1e-15`, the tolerance in the constructor) the factor of the mixed term is `|cos θ|` (`cos (atan (tan θ))`). `C137_obtuse_fails`: for every obtuse angle the distance to each past observation at another place exceeds the formula with `cos θ`. `C137_default_fails`: without an angle the factor is 1, not `cos 90° = 0`.
* **C138 Threads and the other regressions.** About the whole-run models of C104, C108, C110 and C112, each with a free choice of mode and schedule for every loop. Proved by carrying "the same sums up to hat rows not asked for" from `C27_fit_parallel_eq_serial` through selection, robust iterations and report (`C138_spacetime`, `C138_robust`), and by equality of every score (`C138_generalised_partial`, cross-validation only: `C91_threads_violate` refutes AIC). `C138_density` goes from serial to threaded only, since `C112_parallel_fails` refutes the converse. Ridge regression is `C103_modes_agree`.
* **C139 Changes of the response and the other regressions.** About the whole-run models of C104, C110 and C112; the specification `Spec/ResponseChange.lean` says what has to happen to each reported number. One lemma says how the sums of a single fit change; the robust iteration is followed step by step (its weights depend on residuals divided by their own scale only), R² as a function of λ is shown to be the same function including its errors, so that the search takes the same path. In `C139_density` bandwidths found by the external minimiser are assumed to be the same for both responses.
* **C140 Order of the observations.** About the whole-run models of C104, C110, C112 and C113; the specification `Spec/Reordering.lean` says which reported number has to be found where. A reordered fit reports reordered rows; the largest distance, the criteria, R² as a function of λ and the robust iteration take the same values, including their failures, so that the searches take the same path.
* **C141 Public covariances and correlations.** The specification `Spec/WeightedCov.lean` has the textbook formulas (reliability weights, sample covariance); the models are `covwtmat` of the discriminant analysis and `covwt`, `corwt` of the summary statistics (the discriminant analysis has the same two functions, character for character). Algebra and Cauchy–Schwarz.
* **C142 `GWSS::del`.** `Model/GWSSDel.lean` follows the three branches with unsigned wrap-around and Armadillo's range checks; case analysis on the index.
* **C143 order of the observations elsewhere.** Same runs as C103, C115 and C117 with rows, coordinates and responses permuted. Every sum over observations is invariant; the sorting permutation of distinct values is unique, and so are singular values (roots of the characteristic polynomial of the Gram matrix). Refuted where ties or the last observation matter.
* **C144 order of the observations in discriminant analysis.** Whole runs as in C106 with rows, labels and coordinates permuted. The classes of the reordered data are the same list in another order; sums over a class are invariant, so scores belong to labels and not to columns. The probabilities depend on which class appears last: refuted.
* **C145 order of the observations in generalised regression.** The runs of C108 with rows, responses and coordinates permuted. Induction over the iterations of the global model and of the calibration: the state of the permuted run is the permuted state. Likelihoods, deviances, traces and criteria are sums over the observations.
* **C146 unit of the response and known effects in ridge regression.** The runs of C103 with the response multiplied by `a`. The standard deviation the code divides by is multiplied by `|a|`, which cancels. For effects `x γ`: the normal equations of the ridge system of both runs; their difference is `λ s_j² γ_j`, which vanishes only for `λ = 0` or `γ = 0`.
* **C147 how the map is drawn.** `Redrawn` says that all distances are multiplied by one factor; `C147_drawings` proves it for motions of the plane. The kernel weights of both maps are the same (as in C121), and the runs use the coordinates for nothing else. For a selected number of neighbours the criteria agree at every bandwidth, so the search takes the same steps. For a selected distance the search on the larger map takes the same steps, enlarged, and possibly some more inside the last interval, which is shorter than 0.0002.

<!-- generated -->

## Where the code and a property disagree

Each line is a theorem about the model. The property then has a `_partial` theorem or a theorem with the condition under which it holds.

* `C06_boxcar_boundary_differs` — C06 fails at the boxcar boundary: an observation exactly at the bandwidth has weight 0 on the CPU and 1 on the GPU.
* `C06_fractional_differs` — C06 fails for fractional adaptive bandwidths: distances 1, 2, 3, bandwidth 1.5, exponential kernel — the CPU interpolates the radius (1.5), the GPU truncates (1).
* `C06_large_differs` — C06 fails for adaptive bandwidths above `n`: one observation at distance 1, bandwidth 2 — radius 2 on the CPU, 1 on the GPU.
* `C09_dmat_violates` — C09 fails for the distance-matrix class: with parameters set, a valid query returns an empty vector, not one entry per data point; and a wrong argument count is not reported.
* `C09_st_rejected_still_answers` — C09 fails for the spatio-temporal distance: after a set-up rejected for its number of arguments or for numbers of points that differ, queries are still answered, with the data of the set-up before; only the largest and the smallest distance are refused.
* `C101_scalable_depends_on_other_locations` — C101 (scalable regression), refuted. Three observations at 0, 1 and 2 with responses 1, 0, 0, an intercept only, any degree of at least 1 and whatever parameters the minimiser picks (a scale other than 0): predicting at location 0 alone and predicting at locations 0 and 4 together give different coefficients at location 0.
* `C102_second_fit_undefined` — C102 (second fit), refuted. The selection replaces the data of the object. If it chose one variable, a second `fit` of the same object never gets past the selection.
* `C102_selection_ignores_bandwidth` — C102 (bandwidth), refuted. Which variables are selected does not depend on the bandwidth of the model.
* `C105_quadratic_rule_fails` — C105 fails: on this data set the quadratic rule prefers class `true` at the last observation, the centre of both classes, and the run names `false`.
* `C109_local_likelihood_fails` — C109 fails. Two locations that see each other, an intercept and two different counts: whatever the weight between them, coefficients at rest never maximise the locally weighted likelihood at both locations.
* `C10_dmat_clone_differs` — C10 fails for the distance-matrix class.
* `C10_oneDim_clone_differs` — C10 fails for the one-dimensional distance, concrete: an object that answers, whose clone does not.
* `C10_oneDim_clone_throws` — C10 fails for the one-dimensional distance: whatever the original answers, its clone throws.
* `C10_st_clone_throws` — C10 fails for the spatio-temporal distance: every successful clone throws on every query for which its spatial part answers, because the temporal part of the clone has no parameter.
* `C111_predict_at_data_fails` — C111 fails. `n ≥ 11` observations on a line, all of them neighbours of each other, an intercept, the response 1 at one of them and 0 at the others: both methods give that observation weight 0 and report the coefficient 0 everywhere, but the prediction of the fitted model at the same places is `1/n` everywhere.
* `C112_parallel_fails` — C112, refuted for the parallel mode. Points 1 apart on one axis, a box kernel of bandwidth 1/2, a constant and a trend: the serial fit throws; the parallel fit returns, with coefficients 0 everywhere, whatever the responses.
* `C113_small_units_fail` — C113, refuted for small units. If along some axis with a fixed kernel the best bandwidth found is below 1/2 — as it must be if all coordinates are within 1/2 of each other and the search stays within the distances — the fit with automatic selection never returns, whatever the data and the kernels.
* `C115_quantiles_need_four` — C115, refuted for quantiles. If for some variable the observation sorted first has less than four effective neighbours — the kernel weights at its own location add up to less than 4 — the run with quantiles has undefined behaviour. In particular there are no local quantiles of fewer than four observations, whatever the kernel and bandwidth.
* `C117_sdev_wrong` — C117, refuted for the standard deviations. Three points 1 apart with values 0, 1, 2 and a box kernel that reaches the direct neighbours: whatever singular value decomposition is used, the locally weighted variance of the first component's scores is 2/3 at the middle point, but the square of the reported standard deviation is 1.
* `C119_small_map` — C119 (map unit), refuted. The selected bandwidth should not depend on the unit of the map beyond being expressed in it. But the search works with an absolute tolerance: if the golden part of the largest distance is at most 0.0001 (a region of 15 metres with coordinates in kilometres or degrees), then, whatever the data, the criterion, the kernel and the mode, exactly two bandwidths are tried and one of the two is returned.
* `C119_small_response` — C119 (unit of the response), refuted. Nor should it depend on the unit of the response. But with the cross-validation criterion, for any data on which the two first bandwidths have leave-one-out scores, there is a unit so large that the search stops after these two: as soon as their scores, in that unit, differ by no more than 0.0001.
* `C11_general_p_throws` — C11 fails: no exponent other than ±1 works at all, in particular not the default 2.
* `C11_max_too_small` — C11/C08 fail for Minkowski bounds: `maxDistance` is inherited from the Euclidean base class, so with exponent −1 (Manhattan) a returned distance can exceed it.
* `C11_p1_not_manhattan` — C11 fails for exponent 1: from (0,0) to (1,1) the result is 1, the `L_1` distance is 2.
* `C120_parallel_selects_zeros` — C120 (parallel selection), refuted. On data with an intercept, a covariate and a column of zeros, the serial selection chooses the covariate and the fit succeeds. In parallel mode, in every schedule, the regressions that involve the column of zeros fail silently and are scored as if they were models without any parameter: the column of zeros is selected, and the fit throws.
* `C122_trace_depends_on_units` — C122, refuted: the reported traces and standard errors depend on the unit of the regressor. Three observations on a line with responses 1, 0, 0, one constant regressor, degree 0 and whatever parameters the minimiser picks (a scale other than 0): when the regressor is 2 instead of 1 everywhere, the coefficients are halved, so the fitted values and the residual sum of squares are the same, but the reported trace of the hat matrix is a quarter of what it was and the standard errors are not halved.
* `C123_cancelled_object` — C123 (after a stop request), refuted on data. The fit selects a bandwidth of at least 5. On an object whose previous fit was cancelled the same fit, which nobody asks to stop, reports the bandwidth 1 it started from, and the status stays Terminated.
* `C123_cancelled_prediction_shape` — C123 (shape of a cancelled prediction), refuted. A prediction that is asked to stop at its first poll returns zeros with a row per observation, not per location.
* `C123_terminated_never_searches` — C123 (after a stop request), refuted. Once the status is Terminated, automatic selection is switched off for good: a later fit that nobody asks to stop evaluates the criterion twice, ignores the values and fits with the bandwidth it had.
* `C124_gpu_small_data` — C124 (small data), refuted. With fewer observations than the group size (64 unless changed) every GPU fit throws, whatever the data.
* `C124_minkowski_ignored` — C124 (Minkowski distances), refuted. The GPU ignores the exponent and the rotation: between (0, 0) and (3, 4) the CPU gives 4 for exponent 1 and 7 for exponent -1, the GPU 5 whatever they are.
* `C125_gpu_search_prefers_undefined` — C125 (search), refuted. Two observations one apart with responses 1 and -1, an intercept, a boxcar kernel and bandwidths between 0.1 and 2: only bandwidths above 1 have a leave-one-out score, and the CPU selects one of these. On the GPU, in groups of two, the search selects a bandwidth that has none.
* `C125_undefined_is_zero_fit` — C125 (undefined score), refuted. A bandwidth for which leaving out some observation leaves too few observations has no leave-one-out score, and the CPU never prefers it: it counts as `DBL_MAX`. On the GPU, if this happens at one of the first `G` observations (`G` the group size), the bandwidth is scored, without any sign of failure, as if all coefficients were zero: with the sum of squares of the response.
* `C126_gpu_selects_zeros` — C126 (selection), refuted. Six observations on a line, an intercept, a covariate and a column of zeros: the serial CPU selects the covariate and reports its regressions. The GPU, in groups of any size up to six and with the same configuration, selects the column of zeros, and the fit throws.
* `C126_undetermined_is_zero_fit` — C126 (undetermined sets), refuted. A set of variables that does not determine the coefficients (for instance a column of zeros, or a repeated column) has no criterion, and the serial CPU never prefers it: it counts as `DBL_MAX` (`C120_criterion`). On the GPU, with more than two observations, it is scored, without any sign of failure, as a model without any parameter that predicts zero everywhere.
* `C127_few_observations` — C127 (few observations), refuted. With fewer than 18 observations the default range of a number of neighbours is upside down: whatever the data and the criterion, the first number of neighbours that is tried is larger than the number of observations.
* `C127_spacetime_range_is_astronomic` — C127 (space-time distances), refuted. If two observations have different times (and λ is not 1), the future counts as 10^13 away: whatever the data, a fixed bandwidth is searched up to at least 10^13, and the first bandwidths that are tried are about 6·10^12 and 4·10^12.
* `C128_location_not_stored` — C128 (locations), refuted. `setCoords(i, u, v)` does not store the location (u, v): it takes `u` as the number of a column. On a task whose location of observation `i` is still (0, 0), as after its construction, whatever other calls are made, the location given by one call is stored only if it is (0, 0).
* `C128_minkowski_settings_ignored` — C128 (Minkowski distances), refuted. The exponent and the angle of Minkowski distances, which the interface lets callers choose, have no effect: leaving out all calls that choose them gives, in any session, the same results.
* `C128_missing_settings` — C128 (missing settings), refuted. There are no defaults for the kernel: in a session with a new task in which the kernel, the kind of the bandwidth, or (without a search) its size is not set, a fit has undefined behaviour, and a prediction as well.
* `C128_predict_elsewhere` — C128 (prediction elsewhere), refuted. In the plane, prediction at fewer places than there are observations returns false, and at more places its behaviour is undefined, whatever the data.
* `C128_small_data` — C128 (small data), refuted. With fewer than 64 observations `fit` returns false, whatever the data.
* `C129_copies_lose_diagnostics` — C129 (diagnostics of copies), refuted. A copy of a task has all diagnostics 0, whatever those of the original are; after an assignment the target keeps its own diagnostics, next to the coefficients of the source.
* `C129_copy_without_distance` — C129 (other types), refuted. A task made with another number than 0 and 1 for the type of the distance cannot be copied: the null pointer is followed.
* `C12_constructor_unchecked` — C12 fails for the constructor: λ = 5 is accepted (and then makes the copy constructor throw).
* `C130_calibration_over_one` — C130 (calibration) fails: the calibration of a generalised regression reports a percentage only when it converges, and that is always above 100 %, whatever the family, the tolerance, the data and the spatial weights.
* `C130_parallel_failed` — C130 (completeness) fails in multithreaded runs: a fit that throws because the regression at some location has no solution nevertheless reports all of "1 of n", …, "n of n", under every schedule.
* `C130_parallel_jumps` — C130 (order) fails in multithreaded runs: with any number of observations from two on there is a schedule of two threads in which "n of n" is the first report, so the progress moves backwards.
* `C130_percent_back` — C130 (order of the percentages) fails: for every change `c` of the criterion there is a search that reports 100 % first and `exp (-|c|)` next.
* `C130_percent_successive` — C130 (what the percentages measure). Every evaluation that did not fail is reported, and nothing else; report `j` compares evaluation `j` with the one before it that did not fail (the first one with the value left from the run before).
* `C131_parallel_dies` — C131, refuted for multithreaded runs: the program ends. Same inputs, any number of threads and any schedule.
* `C132_memory_is_lost` — C132, refuted. Memory is not given back: if nothing asks for a stop, every automatic selection loses at least one object, so that the number of objects grows without bound in a program that selects again and again.
* `C133_never_negative` — C133 (disagreement: signs). A multiscale fit on two or more processes that runs at least one iteration never reports a negative coefficient, at any location, for any variable, in any process, whatever the data.
* `C134_default_races` — C134: data races with the default settings, refuted. "No two threads touch the same memory" fails in every multithreaded fit: if two threads each have an iteration with a solution, they write the same slice of the coefficient matrices unless these are all stored (they are not by default), and the same hat row unless these are all stored (they are not from 8192 observations on). By the C++ standard the behaviour of such a program is undefined.
* `C134_failure_races` — C134: reporting a failure is a data race, refuted. "A failing regression is reported without a race" fails: a thread whose regression has no solution clears the flag which every other thread that has an iteration reads.
* `C134_ridge_members_lost` — C134: the trace members of the ridge regression, refuted. "After the loop the members hold the traces" fails: with two threads there is an interleaving in which everything the second thread added is lost, and two threads that each have an iteration always race on them. (The fit then overwrites the members, which is why `C134_ridge_results` holds.)
* `C136_second_fit_differs` — C136 (refuted in general). The claim fails when bandwidths are searched: for four observations at two places, two serial fits of the same object in a row both succeed, but the intercept at the third observation is 1/2 after the first fit and 0 after the second one.
* `C137_default_fails` — C137 fails for the right angle, which is the documented default: an object constructed without an angle uses the full mixed term, as if the angle were 0, and not none. Its distance to every past observation at another place exceeds `λ s + (1 − λ) u` and that of every object with an angle close to a right one.
* `C137_obtuse_fails` — C137 fails for obtuse angles: the distance to every past observation at another place is larger than the formula with `cos θ` gives, because the mixed term is added and not subtracted (the constructor keeps `atan (tan θ)`, which is acute).
* `C13_copy_of_empty_ub` — The contract clause on copying is needed: copying a default-constructed (or moved-from) spatial weight dereferences a null pointer.
* `C13_self_reference_ub` — The contract clause on references is needed: `sw.setWeight(*sw.weight())` reads the object it has just deleted.
* `C141_pairs_unit_fails` — C141, refuted for weights that do not add up to one. The covariance of pairs fails to accept weights in another unit: with weight 1 on both of two observations 0 and 1, a variable gets the variance -1 and the correlation -1 with itself, although the covariance matrix gives 1/2.
* `C142_single_fails` — C142, refuted for vectors of one element. Removing the only element fails: `del` throws instead of returning the empty vector.
* `C143_components_fails` — C143 fails for the standard deviations of components. Three points 1 apart with values 0, 1, 2 and a box kernel that reaches the direct neighbours: the squared standard deviation reported for the middle point is 1, and 2/3 if that point is listed last.
* `C143_ties_fails` — C143 fails for rank correlations of variables with equal values. However the sorting function breaks ties: two observations of a constant variable and a varying one get a rank correlation of 1 or -1, and the opposite one when they are listed in the other order.
* `C144_probabilities_fails` — C144 fails for the published probabilities: listing the same observations backwards can change the probability of a class at an observation, because the class that appears last is the one whose score is not exponentiated.
* `C146_effect_fails` — C146 (known effects) fails: with a given ridge parameter that is not 0, a known linear effect `x γ` added to the response (such as a constant) is never found again in the coefficients, at no location: the intercept is shrunk like every other coefficient.
* `C147_exact_scale_fails` — C147 fails for selected distances, if taken exactly. Four observations on a short line, the map drawn twice as large: the distance selected on the larger map is not twice the one selected on the smaller map, because the search stops at an interval of a fixed length.
* `C15_adaptive_leaves_bounds` — C15 fails for adaptive bandwidths: with bounds 20 and 29 and the criterion "smaller is better", the search evaluates and returns bandwidth 19.
* `C20_no_gap_undefined` — C20 is violated: whenever no entry drops by the threshold, the selection reads before the start of the list.
* `C20_selects_stage_loser` — C20 is violated: with threshold 3 the selection can return a model that is *worse* than another visited model of the same size, because it compares neighbours in the sorted list, not stage winners.
* `C20_single_candidate_undefined` — C20 is violated for every run with a single candidate variable.
* `C28_singular_criteria_differ` — C28 (negation). For three isolated points every local fit is singular. Serially both criteria are DBL_MAX (the bandwidth is rejected); in parallel, for every number of threads and every schedule, they are ordinary finite numbers: the failure is swallowed and zero coefficients are scored.
* `C30_fit_fails_without_work` — C30 (disagreement). A worker without work makes the distributed fit fail although the serial fit is fine: every data set of five observations fails on four processes.
* `C30_malformed_range` — C30 (disagreement). "Well formed for every `n` and `P`" is false: with five observations and four processes the last process gets the range from 6 to 5.
* `C31_negative_coefficients_lost` — C31 (disagreement). With two or more processes the combined vector is the coefficient vector only if no coefficient is negative.
* `C32_overflow` — C32 (disagreement). Counts are 32-bit integers: the product overflows for 100 000 observations on two processes.
* `C33_predict_other_count_fails` — C33 (disagreement). On the GPU, a prediction at a number of locations that differs from the number of data points never returns a result: with fewer locations it throws, with more it writes out of bounds.
* `C33_small_data_cv_zero` — C33 (disagreement). In the same situation the GPU cross-validation does not fail but returns zero coefficients for every bandwidth, so that every bandwidth scores the sum of squares of the response.
* `C33_small_data_fails` — C33 (disagreement). A GPU fit of fewer observations than the group length (64 by default) always throws, whatever the data and the bandwidth: the inversion is also checked in the strides that hold no observation.
* `C33_stale_device_points` — C33 (disagreement). A distance object that has been used on the GPU goes on measuring from the points of its first use after it has been given other points: a GPU prediction after a GPU fit measures from the data points.
* `C33_stale_trace` — C33 (disagreement). "The accumulated traces equal the serial ones for every group length" is false for the trace of S'S in the AICc computation: three observations in groups of two.
* `C37_cv_small_bandwidth_fails` — C37 (failure). With the CV criterion every bandwidth of 2 to 50 points that is smaller than the number of observations makes `fit()` fail with an index out of bounds: it reads the distance column of the last neighbour, which the table for CV does not have.
* `C38_small_threshold` — A threshold of 1 or less is accepted by the setter: at 1 the parameter is not finite, below 1 it is negative whenever it is adjusted and the smallest singular value is not the larger one.
* `C39_lcr_enp_grows` — C39 for the serial ridge regression: refuted. Fitting the same object again returns the same coefficients, but the effective number of parameters reported by the `m`-th `fit()` is `m` times that of the first.
* `C39_scalable_second_fit_fails` — C39 for scalable regression: refuted. With CV, 3 to 51 observations and a bandwidth of at least their number, the first `fit()` starts and lowers the stored bandwidth to one less than the number of observations; the second `fit()` on the same object then fails.
* `C42_two_points_undefined` — C42 (refuted as stated). Two observations of different value, equally weighted: local quantiles are undefined behaviour.
* `C43_perfect_fit_fails` — C43 (refuted for perfect data). If the response is an exact linear combination of the covariates — every residual is 0, the most ordinary residuals there are — the second method gives every observation weight 0 and fails.
* `C46_poisson_clamped` — C46 fails for very negative Poisson linear predictors: they are clamped and the link does not return them.
* `C47_default_violates` — C47 fails for an object on which neither setter was called. A new object reports AIC and minimises cross-validation; the two differ. Choosing the parallel type it already reports changes the criterion it minimises.
* `C48_multiscale_violates` — C48 fails for the multiscale regression. Setting the weights replaces the initial weight set before; and the per-variable settings throw when they come before the data.
* `C48_regression_data_violates` — C48 fails for the regression data of the generalised regression. Whatever is called, the flag stays false; and setting the flag replaces the stored data by a 1 by 1 matrix.
* `C48_storeS_violates` — C48 fails for storing the hat matrix. After `setStoreS(false)` the getter returns true as long as the hat matrix is wanted and there are fewer than 8192 observations.
* `C49_batched_move` — C49 (refuted): moving a batch of matrices frees its pointer array twice and another one never.
* `C49_copy_of_smaller_ub` — C49 (refuted): assigning a smaller matrix by copy copies beyond the end of both buffers: the old size of the target is used.
* `C49_copy_to_default_leaks` — C49 (refuted): assigning to a default-constructed matrix by copy allocates a buffer that is never freed.
* `C49_move_assignment_leaks` — C49 (refuted): assigning by move to a matrix that has a buffer loses that buffer.
* `C49_moved_from_twice` — C49 (refuted): moving twice from one matrix makes two owners, and the buffer is freed twice.
* `C49_moved_view` — C49 (refuted): moving a view makes it an owner, and the buffer is freed twice.
* `C49_self_move_leaks` — C49 (refuted): a matrix assigned to itself by move is never freed.
* `C49_transpose_to_moved_from` — C49 (refuted): assigning a transpose to a matrix that has been moved from frees the buffer of the matrix it was moved to.
* `C52_gwss_rows_unchecked` — C52 (negation). Summary statistics (and discriminant analysis) accept a data matrix whose number of rows differs from the number of locations.
* `C52_missing_distance_accepted` — C52 (negation). A model without distance is accepted.
* `C52_no_weight_ub` — C52 (negation). Asking a model with data but no spatial weight whether it is valid dereferences a null pointer.
* `C52_unusable_bandwidth_accepted` — C52 (negation). An adaptive bandwidth below one neighbour is accepted although no fit with it can succeed, whatever the data.
* `C54_parallel_hides_failures` — C54, parallel fit (refuted: failures are hidden). Whatever the schedule, the parallel fit never reports a failure. Locations whose coefficients are determined get them; the others get coefficients 0 — where the serial fit throws.
* `C55_pole_nonfinite` — C55 fails at the poles: two records of the north pole with longitudes 0 and 90 give no finite distance.
* `C55_shortcut_wrong` — C55 fails in the 0..360 longitude convention: points on the equator at longitudes 170 and 190, twenty degrees apart, are reported at distance 0, while the great-circle distance is positive.
* `C57_parallel_selects_unusable` — C57 (negation in parallel mode). Three isolated points, boxcar kernel, bounds 0 and 1. For every number of threads and all schedules the parallel search returns a bandwidth with which every fit throws; the serial search reports the failure.
* `C60_predicts_zero` — C60 (refuted). Density regression (and multiscale regression) "predict" zero coefficients everywhere, which is not the weighted least squares solution as soon as some response is visible to the weights.
* `C61_fixed_start_wrong` — C61 (refuted for fixed bandwidths). For a fixed kernel the first bandwidth tried is not the one set but `n` times it; for `n ≥ 2` and any positive bandwidth these differ.
* `C61_small_bandwidth_lost` — C61 (refuted for small bandwidths). Whenever the best bandwidth found is below 1/2 — for instance with coordinates in kilometres or degrees — the bandwidth stored is 0.
* `C62_sdev_wrong` — C62 (refuted for the standard deviations). Two observations 1 and -1, with weights 4 at the first location and 1 at the second: the locally weighted standard deviation is 1 at both, but 2 is reported at the first.
* `C63_winner_depends_on_sign` — C63 (refuted). The winner is not a function of the data: two equally valid singular value decompositions of the same data — they differ in the sign of a singular vector, which is arbitrary — give different winners, and with the first of them the winner is the variable with the smaller loading in absolute value.
* `C65_fit_fails` — The whole fit then throws: one variable of type `Initial` suffices, here the first.
* `C65_initial_fixed_kernel_fails` — C65 (start values with fixed kernels do not work). A user who gives a start value for a bandwidth (type `Initial`) of a fixed kernel and no explicit search bounds gets an error instead of a fit, for every data set, kernel, start value and criterion: the search runs between 0 and 0, both its candidates are unusable, and back-fitting throws.
* `C67_own_point_twice` — C67 (AIC), refuted. With AIC the own observation is listed twice.
* `C67_own_point_used` — C67 (CV), refuted. When the distance of a point to itself is smaller than to every other point, its own observation is in the list that the CV criterion uses to predict it, and its weight there is positive whatever the parameters.
* `C68_trace_depends_on_units` — C68, refuted. Expressing the explanatory variables in other units (multiplying them by `c`) leaves the leverage of an observation, the diagonal element of the hat matrix, unchanged, but divides what the program adds to the reported trace by `c²`.
* `C69_exponential_is_gaussian` — C69, refuted. The weight that the exponential kernel gives is a Gaussian of the distance, `exp(-(3d/m)²)` for the median `m`; it is the exponential `exp(-d/(m/3))` only at distance 0 and at distance `m/3`.
* `C71_collinear_fit_fails` — C71 (collinear data), refuted. If at some location the weighted observations do not determine the coefficients, the fit fails whatever the ridge parameter is, although the ridge estimate exists (`C70_exists`): the hat row is computed without the ridge term.
* `C71_leverage_too_large` — C71 (leverage), refuted. With a positive ridge parameter the diagonal entry of the hat matrix that the program uses is larger than the effect of observation `i` on its own fitted value: raising response `i` by one raises fitted value `i` by strictly less.
* `C71_traces_ignore_ridge` — C71 (traces), refuted. The traces from which the effective number of parameters is computed do not depend on the ridge parameter: two fits of the same data with different ridge settings report the same.
* `C72_parallel_predict_dies` — C72, refuted. Prediction with OpenMP never returns for any locations: the result matrix has the wrong number of columns, the assignment of a row throws and the exception leaves the parallel region. Serial prediction of the same locations may well succeed.
* `C74_equal_ends_stop` — C74 (negation). Data on which the selected lambda is worse than one that was tried. Two pairs of points on a line, all observed at the same time, boxcar of bandwidth 75, intercept only. R² is 0 for λ = 0 and for λ = 1; because the two agree the search stops before its first round and returns 1/2, where R² is 0, although at the λ ≈ 0.618 it had tried R² is 5/18.
* `C76_adaptive_uses_future` — C76 (negation). With an adaptive bandwidth and a kernel of unbounded support the future does influence the past: two observations at one place, at times 0 and 1, λ = 1/2, Gaussian, bandwidth 2 observations, intercept only. Changing the response at time 1 changes the coefficient at time 0.
* `C77_prediction_ignores_location` — C77 (negation). Prediction does not use the location. Three points on a line, 10 apart, all at the same time, λ = 1/2, boxcar of bandwidth 7, intercept only, response 0, 0, 1. The location asked for is the third point; the returned coefficient is 0, the one of the first point, and it is not the weighted least squares fit with the weights of that location.
* `C78_search_range_is_sentinel` — C78 (negation). The range of the automatic search for a fixed bandwidth does not end at the largest space-time distance between two observations: as soon as one observation is later than another and λ < 1, it ends at the sentinel 10^13, however close together the observations are (here: all documented distances are at most 10^13).
* `C80_entropy_exceeds_one` — C80 fails: equal probabilities get an entropy above 1, the documented maximum.
* `C80_two_classes_no_entropy` — C80 fails: with two classes the published entropy is never a number, whatever the data (division by the entropy of one class).
* `C81_quadratic_needs_all_options` — C81 fails: the quadratic rule cannot be used unless mean, covariance and prior are all local: it throws for all other options.
* `C82_parallel_differs` — C82 fails: OpenMP and serial runs of the same object on the same data give different scores.
* `C83_second_run_differs` — C83 fails: running the same object twice on unchanged data gives different scores: only the first run leaves out the location.
* `C84_negative_probability` — C84 fails: a published probability can be negative.
* `C85_named_class_less_probable` — C85 fails: the named class can be published as the less probable one, here for two classes that are far apart.
* `C86_correction_truncated` — C86 fails: whenever the division leaves a remainder the reported correction is strictly too small.
* `C86_correction_vanishes` — C86 fails: 100 observations and 3 variables give no correction at all instead of 24/96.
* `C86_division_by_zero` — C86 fails: with one observation more than variables the program divides an integer by zero, whatever the data.
* `C87_fit_without_hat_matrix_fails` — C87 fails: with two or more observations, fitting without the hat matrix never delivers coefficients, whatever the family, the data, the weights and the schedule.
* `C87_predict_fails` — C87 fails: with two or more observations `predict` never delivers coefficients, for any locations, before or after a fit.
* `C88_limit_violates` — C88 fails: an iteration limit of one. The deviance is computed from the means of the calibration, but the coefficients are fitted once more with newer working weights, and their means are different.
* `C89_proportion_violates` — C89 fails for proportions: a perfectly fitted proportion of one half has an infinite reported deviance instead of zero.
* `C91_parallel_value` — C91: what the parallel information criterion computes: the effective number of parameters counts only the locations that thread 0 ran.
* `C91_threads_violate` — C91 fails: three observations, all spatial weights 1, an intercept. Whatever the counts, the iteration limit and the tolerance: if thread 1 of two happens to run all locations, the parallel criterion is smaller than the serial one by 6.
* `C93_penalty` — C93 fails: for Poisson counts `aic()` charges two units for every observation, not for every coefficient.
* `C93_penalty_too_large` — C93 fails: with fewer coefficients than observations the reported value is strictly too large.
* `C94_aic_throws` — C94 fails in the same way for the information criterion.
* `C94_cv_throws` — C94 fails: a candidate bandwidth that leaves some location without enough neighbours does not get the worst score. The cross-validation criterion throws, serial and parallel alike, and so ends the whole fit.
* `C95_generalized_order` — C95 fails: order of calls. Choosing the parallel type before the family reads an uninitialised member.
* `C95_generalized_violates` — C95 fails for the generalised regression. The combined types `MPI_Serial` and `MPI_MP` are accepted, because they share a bit with the ability, and reported; but the tables have no entry for them and `fit` calls a null pointer.
* `C95_lcr_reports_omp` — C95 fails for ridge regression compiled without OpenMP: it accepts and reports the multithreaded type and runs serially.
* `C95_multiscale_violates` — C95 fails for the multiscale regression. The distributed type with threads is accepted and reported, but its cores are the serial ones; likewise the distributed type with GPU. Basic GWR runs the threads or the GPU version for the same types.
* `C95_robust_violates` — C95 fails for the robust regression. Its `setParallelType` leaves the inherited pointers alone: the bandwidth search of an object that reports the multithreaded type runs serially, and with MPI compiled in the criterion stays the MPI one after going back to serial.
* `C96_robust_violates` — C96 fails for the robust regression. The bounds have no effect on its search: with a lower bound above the largest distance every bandwidth evaluated lies below the bound.

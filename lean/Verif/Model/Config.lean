import Verif.Model.GWRRun
import Verif.Model.GWRGeneralized

/-!
# Model of the configuration members and their setters

The algorithm classes keep member-function pointers beside the configuration values. The setters keep the two in step. A pointer is modelled
by the name of the function it points to; a null pointer is `none`. Options chosen when the library is compiled are a parameter.
-/

namespace Verif.Model
open Verif Matrix

/-- include/gwmodelpp/IParallelizable.h:15-24 `enum ParallelType`. -/
inductive ParType
  | SerialOnly | OpenMP | CUDA | MPI | MPI_Serial | MPI_MP | MPI_CUDA
  deriving DecidableEq

/-- IParallelizable.h:17-23: the values. -/
def ParType.bits : ParType → ℕ
  | .SerialOnly => 1
  | .OpenMP => 2
  | .CUDA => 4
  | .MPI => 8
  | .MPI_Serial => 9
  | .MPI_MP => 10
  | .MPI_CUDA => 12

/-- `type & ParallelType::MPI`. -/
def ParType.hasMpi (t : ParType) : Bool := t.bits &&& 8 != 0

/-- `ENABLE_OPENMP`, `ENABLE_CUDA`, `ENABLE_MPI` (CMakeLists.txt, preprocessor conditions throughout). -/
structure Build where
  openmp : Bool
  cuda : Bool
  mpi : Bool

/-- GWRBasic.h:684-702 and GWRMultiscale.h:601-611 `parallelAbility`. The MPI part repeats the same bits. -/
def cudaAbility (B : Build) : ℕ := 1 ||| (if B.openmp then 2 else 0) ||| (if B.cuda then 4 else 0)

/-- GTWR.h:506-513, GWDA.h:353-360, GWDR.h:340-347, GWRGeneralized.h:549-556, GWSS.h:302-309 `parallelAbility`. -/
def ompAbility (B : Build) : ℕ := 1 ||| (if B.openmp then 2 else 0)

/-- GWRLocalCollinearity.h:341-344 `parallelAbility`: no preprocessor condition. -/
def lcrAbility : ℕ := 1 ||| 2

/-- `type & parallelAbility()`. -/
def accepted (ability : ℕ) (t : ParType) : Bool := t.bits &&& ability != 0

/-- Which implementation a pointer names. -/
inductive Impl
  | serial | omp | cuda
  deriving DecidableEq

/-! ## GWRBasic -/

/-- GWRBasic.h:735-776, GWRBase.h and SpatialAlgorithm.h: the members a setter writes. -/
structure BasicCfg where
  criterion : Crit
  criterionFn : Crit
  criterionMpi : Bool
  par : ParType
  predictFn : Impl
  fitCoreFn : Impl
  fitCoreCVFn : Impl
  fitCoreSHatFn : Impl
  fitMpi : Bool
  varCriterionMpi : Bool
  autoBandwidth : Bool
  goldenUpper : Option ℝ
  goldenLower : Option ℝ
  autoVars : Bool
  varThreshold : ℝ
  hasHat : Bool
  storeS : Bool
  storeC : Bool
  intercept : Bool
  x : DynMat
  y : List ℝ
  coords : DynMat
  threads : ℤ
  gpu : ℤ
  group : ℕ
  worker : ℤ
  workers : ℤ

/-- An empty `arma::mat`. -/
def DynMat.empty : DynMat := ⟨0, 0, fun _ _ => 0⟩

/-- GWRBasic.h:735-776: the initialisers of a new object. -/
noncomputable def BasicCfg.new : BasicCfg :=
  { criterion := .AIC, criterionFn := .CV, criterionMpi := false, par := .SerialOnly, predictFn := .serial, fitCoreFn := .serial,
    fitCoreCVFn := .serial, fitCoreSHatFn := .serial, fitMpi := false, varCriterionMpi := false, autoBandwidth := false,
    goldenUpper := none, goldenLower := none, autoVars := false, varThreshold := 3, hasHat := true, storeS := false, storeC := false,
    intercept := true, x := .empty, y := [], coords := .empty, threads := 8, gpu := 0, group := 64, worker := 0, workers := 1 }

/-- GWRBasic.cpp:1045-1076 `setBandwidthSelectionCriterion`. -/
def BasicCfg.setCriterion (B : Build) (c : Crit) (s : BasicCfg) : BasicCfg :=
  { s with criterionFn := (match c with | .CV => .CV | .AIC => .AIC), criterionMpi := B.mpi && s.par.hasMpi, criterion := c }

/-- GWRBasic.cpp:1083-1113: the implementation chosen for a parallel type. -/
def basicImpl (B : Build) : ParType → Impl
  | .OpenMP | .MPI_MP => if B.openmp then .omp else .serial
  | .CUDA | .MPI_CUDA => if B.cuda then .cuda else .serial
  | _ => .serial

/-- GWRBasic.cpp:1078-1130 `setParallelType`. -/
def BasicCfg.setPar (B : Build) (t : ParType) (s : BasicCfg) : BasicCfg :=
  if accepted (cudaAbility B) t then
    let i := basicImpl B t
    BasicCfg.setCriterion B s.criterion
      { s with par := t, predictFn := i, fitCoreFn := i, fitCoreCVFn := i, fitCoreSHatFn := i,
               fitMpi := (if B.mpi then t.hasMpi else s.fitMpi), varCriterionMpi := (if B.mpi then t.hasMpi else s.varCriterionMpi) }
  else s

/-- A call of a public setter of `GWRBasic`. -/
inductive BasicOp
  | criterion (c : Crit) | par (t : ParType) | autoBandwidth (b : Bool) | goldenUpper (v : ℝ) | goldenLower (v : ℝ) | autoVars (b : Bool)
  | varThreshold (v : ℝ) | hasHat (b : Bool) | storeS (b : Bool) | storeC (b : Bool) | intercept (b : Bool) | x (m : DynMat) | y (v : List ℝ)
  | coords (m : DynMat) | threads (z : ℤ) | gpu (z : ℤ) | group (n : ℕ) | worker (z : ℤ) | workers (z : ℤ)

/-- GWRBasic.h:161, 194, 201, 229, 259, 313, 387, 389, 709-714, GWRBase.h:160-166, SpatialAlgorithm.h:91-94: each assigns one member. -/
def BasicCfg.step (B : Build) (s : BasicCfg) : BasicOp → BasicCfg
  | .criterion c => s.setCriterion B c
  | .par t => s.setPar B t
  | .autoBandwidth b => { s with autoBandwidth := b }
  | .goldenUpper v => { s with goldenUpper := some v }
  | .goldenLower v => { s with goldenLower := some v }
  | .autoVars b => { s with autoVars := b }
  | .varThreshold v => { s with varThreshold := v }
  | .hasHat b => { s with hasHat := b }
  | .storeS b => { s with storeS := b }
  | .storeC b => { s with storeC := b }
  | .intercept b => { s with intercept := b }
  | .x m => { s with x := m }
  | .y v => { s with y := v }
  | .coords m => { s with coords := m }
  | .threads z => { s with threads := z }
  | .gpu z => { s with gpu := z }
  | .group n => { s with group := n }
  | .worker z => { s with worker := z }
  | .workers z => { s with workers := z }

/-- The object after a sequence of setter calls. -/
noncomputable def BasicCfg.after (B : Build) (h : List BasicOp) : BasicCfg := h.foldl (BasicCfg.step B) .new

/-- GWRBasic.h:383 `isStoreS`. -/
def BasicCfg.isStoreS (s : BasicCfg) : Bool := if s.storeS then true else s.hasHat && decide (s.coords.nRows < 8192)

variable {n k T : ℕ}

/-- GWRBasic.h `getCriterion` calls `mBandwidthSelectionCriterionFunction`, which calls `mFitCoreCVFunction` (GWRBasic.cpp:349-370) or
`mFitCoreSHatFunction` (GWRBasic.cpp:372-394). `none`: the MPI and GPU criteria, modelled elsewhere. Without stop requests; `evs` are the
events of the parallel loop, if there is one. -/
noncomputable def BasicCfg.evaluate (s : BasicCfg) (d' : CRSDistance) (x : Matrix (Fin n) (Fin k) ℝ) (y : Fin n → ℝ)
    (evs : List (OmpEv (Fin n) (Fin T))) (b : BandwidthWeight) : Option ℝ :=
  if s.criterionMpi then none
  else match (match s.criterionFn with | .CV => s.fitCoreCVFn | .AIC => s.fitCoreSHatFn) with
    | .serial => some (gwrCriterion s.criterionFn d' x y b)
    | .omp => some (gwrCriterionOmp s.criterionFn d' x y evs b)
    | .cuda => none

/-- GWRBasic.cpp:135-157: the bandwidth search of `fit` on an object in serial mode. -/
noncomputable def BasicCfg.search (s : BasicCfg) (d' : CRSDistance) (b0 : BandwidthWeight) (x : Matrix (Fin n) (Fin k) ℝ)
    (y : Fin n → ℝ) : Res SearchResult :=
  gwrSelectBandwidth s.criterionFn d' b0 s.goldenLower s.goldenUpper x y

/-! ## GWRRobust -/

/-- GWRRobust.cpp:315-335 `setParallelType` replaces the one of `GWRBasic`: it sets only the fitting function of the robust model, here
called `robustFn`, and none of the inherited pointers. -/
structure RobustCfg where
  base : BasicCfg
  robustFn : Impl

/-- GWRRobust.cpp:315-335. -/
def RobustCfg.setPar (B : Build) (t : ParType) (s : RobustCfg) : RobustCfg :=
  if accepted (cudaAbility B) t then
    ⟨{ s.base with par := t }, match t with | .OpenMP => if B.openmp then .omp else .serial | _ => .serial⟩
  else s

/-- The setters of `GWRRobust`: those of `GWRBasic` except `setParallelType`. -/
def RobustCfg.step (B : Build) (s : RobustCfg) : BasicOp → RobustCfg
  | .par t => s.setPar B t
  | o => { s with base := s.base.step B o }

/-- A new `GWRRobust` after a sequence of setter calls. -/
noncomputable def RobustCfg.after (B : Build) (h : List BasicOp) : RobustCfg := h.foldl (RobustCfg.step B) ⟨.new, .serial⟩

/-- GWRRobust.cpp:60-78: the bandwidth search of the robust `fit`. It does not read the bounds. -/
noncomputable def RobustCfg.search (s : RobustCfg) (d' : CRSDistance) (b0 : BandwidthWeight) (x : Matrix (Fin n) (Fin k) ℝ)
    (y : Fin n → ℝ) : Res SearchResult :=
  gwrSelectBandwidth s.base.criterionFn d' b0 none none x y

/-! ## Classes with a serial and a multithreaded version -/

/-- The members shared by `GTWR`, `GWDR` and `GWRLocalCollinearity`: criterion, criterion function (null: `none`), parallel type, and
fit and predict functions. -/
structure OmpCfg where
  criterion : Crit
  criterionFn : Option (Crit × Impl)
  par : ParType
  predictFn : Impl
  fitFn : Impl

/-- A call of one of the two setters. -/
inductive OmpOp
  | criterion (c : Crit) | par (t : ParType)

/-- `case SerialOnly`, `case OpenMP` under `#ifdef ENABLE_OPENMP`, `default`. -/
def ompImpl (B : Build) : ParType → Impl
  | .OpenMP => if B.openmp then .omp else .serial
  | _ => .serial

/-- GTWR.h:623-633 initialisers. -/
def gtwrNew : OmpCfg := ⟨.AIC, some (.CV, .serial), .SerialOnly, .serial, .serial⟩

/-- GTWR.cpp:256-265 `setBandwidthSelectionCriterion`. -/
def gtwrSetCriterion (c : Crit) (s : OmpCfg) : OmpCfg := { s with criterion := c, criterionFn := some (c, .serial) }

/-- GTWR.cpp:256-265 and 471-494. -/
def gtwrStep (B : Build) (s : OmpCfg) : OmpOp → OmpCfg
  | .criterion c => gtwrSetCriterion c s
  | .par t =>
    if accepted (ompAbility B) t then gtwrSetCriterion s.criterion { s with par := t, predictFn := ompImpl B t, fitFn := ompImpl B t } else s

/-- GWDR.h:495-514 initialisers. -/
def gwdrNew : OmpCfg := ⟨.CV, some (.CV, .serial), .SerialOnly, .serial, .serial⟩

/-- GWDR.cpp:690-720 `setBandwidthCriterionType`. -/
def gwdrSetCriterion (B : Build) (c : Crit) (s : OmpCfg) : OmpCfg := { s with criterion := c, criterionFn := some (c, ompImpl B s.par) }

/-- GWDR.cpp:690-749. The criterion is set again even when the parallel type is not accepted. -/
def gwdrStep (B : Build) (s : OmpCfg) : OmpOp → OmpCfg
  | .criterion c => gwdrSetCriterion B c s
  | .par t =>
    let s' := if accepted (ompAbility B) t then { s with par := t, predictFn := ompImpl B t, fitFn := ompImpl B t } else s
    gwdrSetCriterion B s'.criterion s'

/-- GWRLocalCollinearity.h:274-275, 330-332 initialisers. -/
def lcrNew : OmpCfg := ⟨.CV, some (.CV, .serial), .SerialOnly, .serial, .serial⟩

/-- GWRLocalCollinearity.cpp:112-138 `setBandwidthSelectionCriterion`: the table has an entry for CV only; looking up another key in a
`std::unordered_map` with `[]` inserts a null pointer. -/
def lcrSetCriterion (B : Build) (c : Crit) (s : OmpCfg) : OmpCfg :=
  { s with criterion := c, criterionFn := match c with | .CV => some (.CV, ompImpl B s.par) | .AIC => none }

/-- GWRLocalCollinearity.cpp:112-138 and 173-196. -/
def lcrStep (B : Build) (s : OmpCfg) : OmpOp → OmpCfg
  | .criterion c => lcrSetCriterion B c s
  | .par t =>
    let s' := if accepted lcrAbility t then { s with par := t, predictFn := ompImpl B t, fitFn := ompImpl B t } else s
    lcrSetCriterion B s'.criterion s'

/-- Calling the criterion function during the bandwidth search: a call through a null pointer is undefined. -/
def OmpCfg.minimised (s : OmpCfg) : Res Crit :=
  match s.criterionFn with
  | some (c, _) => .ok c
  | none => .ub

/-! ## GWSS -/

/-- GWSS.h `enum class GWSSMode`. -/
inductive SummaryMode
  | Average | Correlation
  deriving DecidableEq

/-- GWSS.h:374-382: mode, parallel type and the function pointer. -/
structure SummaryCfg where
  mode : SummaryMode
  par : ParType
  fn : SummaryMode × Impl

/-- GWSS.cpp:270-318 `updateCalculator`. -/
def SummaryCfg.update (B : Build) (s : SummaryCfg) : SummaryCfg := { s with fn := (s.mode, ompImpl B s.par) }

/-- A call of a setter of `GWSS`. -/
inductive SummaryOp
  | mode (m : SummaryMode) | par (t : ParType)

/-- GWSS.cpp:255-268. -/
def SummaryCfg.step (B : Build) (s : SummaryCfg) : SummaryOp → SummaryCfg
  | .mode m => SummaryCfg.update B { s with mode := m }
  | .par t => if accepted (ompAbility B) t then SummaryCfg.update B { s with par := t } else s

/-! ## GWRGeneralized -/

/-- GWRGeneralized.h:417-452: the members that setters write. `family` has no initialiser: `none` is an indeterminate value. -/
structure GenCfg where
  family : Option Family
  tol : ℝ
  maxiter : ℕ
  hasHat : Bool
  hasRegressionData : Bool
  regressionData : DynMat
  autoBandwidth : Bool
  criterion : Crit
  criterionFn : Option (Crit × Impl)
  par : ParType
  fitFn : Option (Family × Impl)
  wtFn : Option (Family × Impl)
  threads : ℤ

/-- GWRGeneralized.h:417-452 initialisers. -/
noncomputable def GenCfg.new : GenCfg :=
  { family := none, tol := 1 / 100000, maxiter := 20, hasHat := true, hasRegressionData := false, regressionData := .empty,
    autoBandwidth := false, criterion := .AIC, criterionFn := some (.CV, .serial), par := .SerialOnly,
    fitFn := some (.Poisson, .serial), wtFn := some (.Poisson, .serial), threads := 8 }

/-- The tables of GWRGeneralized.cpp:936-945, 1059-1070, 1072-1081: entries for `SerialOnly` and, if compiled in, `OpenMP`. Looking up
another key with `[]` inserts a null pointer. -/
def genImpl (B : Build) : ParType → Option Impl
  | .SerialOnly => some .serial
  | .OpenMP => if B.openmp then some .omp else none
  | _ => none

/-- GWRGeneralized.cpp:933-947. -/
def GenCfg.setCriterion (B : Build) (c : Crit) (s : GenCfg) : GenCfg :=
  { s with criterion := c, criterionFn := (genImpl B s.par).map fun i => (c, i) }

/-- GWRGeneralized.cpp:1056-1084. -/
def GenCfg.setFamily (B : Build) (f : Family) (s : GenCfg) : GenCfg :=
  { s with family := some f, fitFn := (genImpl B s.par).map fun i => (f, i), wtFn := (genImpl B s.par).map fun i => (f, i) }

/-- GWRGeneralized.cpp:949-957: passes `mFamily` on; reading it before it was set is undefined. -/
def GenCfg.setPar (B : Build) (t : ParType) (s : GenCfg) : Res GenCfg :=
  if accepted (ompAbility B) t then
    let s' := GenCfg.setCriterion B s.criterion { s with par := t }
    match s'.family with
    | some f => .ok (s'.setFamily B f)
    | none => .ub
  else .ok s

/-- A call of a public setter of `GWRGeneralized`. -/
inductive GenOp
  | family (f : Family) | tol (v : ℝ) | maxiter (m : ℕ) | hasHat (b : Bool) | hasRegressionData (b : Bool) | regressionData (m : DynMat)
  | autoBandwidth (b : Bool) | criterion (c : Crit) | par (t : ParType) | threads (z : ℤ)

/-- GWRGeneralized.h:490-573: the setters. `setHasRegressionData` assigns to the matrix: a 1 by 1 matrix holding the value. -/
def GenCfg.step (B : Build) (s : GenCfg) : GenOp → Res GenCfg
  | .family f => .ok (s.setFamily B f)
  | .tol v => .ok { s with tol := v }
  | .maxiter m => .ok { s with maxiter := m }
  | .hasHat b => .ok { s with hasHat := b }
  | .hasRegressionData b => .ok { s with regressionData := ⟨1, 1, fun _ _ => if b then 1 else 0⟩ }
  | .regressionData m => .ok { s with regressionData := m }
  | .autoBandwidth b => .ok { s with autoBandwidth := b }
  | .criterion c => .ok (s.setCriterion B c)
  | .par t => s.setPar B t
  | .threads z => .ok { s with threads := z }

/-- The object after a sequence of setter calls. -/
def GenCfg.run (B : Build) : GenCfg → List GenOp → Res GenCfg
  | s, [] => .ok s
  | s, o :: h => (s.step B o).bind fun s' => GenCfg.run B s' h

/-- GWRGeneralized.cpp:90 and 583 ff.: the calls through the function pointers. -/
def GenCfg.fitCall (s : GenCfg) : Res (Family × Impl) :=
  match s.fitFn with
  | some f => .ok f
  | none => .ub

/-- The call through the criterion pointer. -/
def GenCfg.minimised (s : GenCfg) : Res Crit :=
  match s.criterionFn with
  | some (c, _) => .ok c
  | none => .ub

/-! ## GWRMultiscale -/

/-- GWRMultiscale.h: the members behind `setIndependentVariables`, `setBandwidthSelectionApproach`, `setBandwidthInitilize`,
`setSpatialWeights` and `setInitSpatialWeight`. Spatial weights are represented by any type `S`. -/
structure MultiCfg (S : Type) where
  x : DynMat
  approach : List Crit
  init : List ℕ
  weights : List S
  initWeight : Option S

/-- A call of one of these setters. Bandwidth initialisation types are numbered. -/
inductive MultiOp (S : Type)
  | x (m : DynMat) | approach (l : List Crit) | init (l : List ℕ) | weights (l : List S) | initWeight (w : S)

/-- GWRMultiscale.cpp:1108-1142, GWRMultiscale.h:211-214, 589. -/
def MultiCfg.step {S : Type} (s : MultiCfg S) : MultiOp S → Res (MultiCfg S)
  | .x m => .ok { s with x := m }
  | .approach l => if l.length = s.x.nCols then .ok { s with approach := l } else .throw .length
  | .init l => if l.length = s.x.nCols then .ok { s with init := l } else .throw .length
  | .weights l => .ok { s with weights := l, initWeight := match l with | [] => s.initWeight | w :: _ => some w }
  | .initWeight w => .ok { s with initWeight := some w }

/-- GWRMultiscale.h: the parallel type and the function pointers it chooses, with their initialisers. `fitVarMpi`: whether `mFitVar` is the
distributed version. -/
structure MultiParCfg where
  par : ParType := .SerialOnly
  fitVarCore : Impl := .serial
  fitVarCoreCV : Impl := .serial
  fitVarCoreSHat : Impl := .serial
  fitVarMpi : Bool := false

/-- GWRMultiscale.cpp:1074-1093: the cores chosen for a parallel type; the combined distributed types fall to the default case. -/
def multiImpl (B : Build) : ParType → Impl
  | .OpenMP => if B.openmp then .omp else .serial
  | .CUDA => if B.cuda then .cuda else .serial
  | _ => .serial

/-- GWRMultiscale.cpp:1069-1105 `setParallelType`. -/
def MultiParCfg.setPar (B : Build) (s : MultiParCfg) (t : ParType) : MultiParCfg :=
  if accepted (cudaAbility B) t then
    let i := multiImpl B t
    { par := t, fitVarCore := i, fitVarCoreCV := i, fitVarCoreSHat := i, fitVarMpi := if B.mpi then t.hasMpi else s.fitVarMpi }
  else s

/-- GWRMultiscale.cpp:1045-1067 `bandwidthSizeCriterionVar`, called at the start of each search (202, 321): criterion, whether it is the
distributed version, and the core it runs (400-446, 964-1043). -/
def MultiParCfg.criterion (B : Build) (s : MultiParCfg) (c : Crit) : Crit × Bool × Impl :=
  (c, B.mpi && s.par.hasMpi, match c with | .AIC => s.fitVarCoreSHat | .CV => s.fitVarCoreCV)

/-! ## GWDA -/

/-- GWDA.h:414-416: parallel type and function pointer. -/
structure DiscCfg where
  par : ParType := .SerialOnly
  fn : Impl := .serial

/-- GWDA.cpp:446-466 `setParallelType`. -/
def DiscCfg.setPar (B : Build) (s : DiscCfg) (t : ParType) : DiscCfg :=
  if accepted (ompAbility B) t then ⟨t, ompImpl B t⟩ else s

end Verif.Model

import Verif.Model.GpuVars

/-!
# Model of `GWRBasicGpuTask`, the interface through which other programs run basic regression on the GPU

`n` is the number of observations, `k` the number of columns and `m` the number of places of prediction (0 for a task made by
`GWRBasicGpuTaskFit_Create`), all fixed by the constructor. What is owned through pointers is a value here. CUDA errors are not modelled. The telegram of a task never asks to stop (StdTelegram.h, `stop`).
-/

namespace Verif.Model
open Verif Matrix Classical

variable {n k m : ℕ}

/-- What `mDistance` points to: only these two kinds are ever made (GWRBasicGpuTask.h:45-54, 64-73, 148-160). -/
inductive TaskDistance
  | crs (geographic : Bool)
  | minkwoski (geographic : Bool) (poly theta : ℝ)

/-- The `CRSDistance` that `clone` makes, or the base of the `MinkwoskiDistance` (MinkwoskiDistance.cpp:14-18); the other members of the latter are not
read on the GPU (`MinkwoskiDistance.distanceCuda`) and not by `maxDistance` (CRSDistance.cpp:134-144 calls `mCalculator`). -/
def TaskDistance.base : TaskDistance → CRSDistance
  | .crs g => ⟨g, none⟩
  | .minkwoski g _ _ => ⟨g, none⟩

/-- GWRBasicGpuTask.h:45-54, 148-160: `new CRSDistance()`, `new MinkwoskiDistance()`; the constructors leave the pointer null for other types. -/
def newDistance (type : ℕ) : Option TaskDistance :=
  if type = 0 then some (.crs false) else if type = 1 then some (.minkwoski false 2 0) else none

/-- GWRBasicGpuTask.h:14-31: data and settings. `mWeight` is made by `BandwidthWeight()` (55), which initialises nothing: `none` is a member never set. -/
structure TaskSettings (n k m : ℕ) where
  x : Matrix (Fin n) (Fin k) ℝ
  y : Fin n → ℝ
  coords : Matrix (Fin n) (Fin 2) ℝ
  locations : Matrix (Fin m) (Fin 2) ℝ
  distance : Option TaskDistance
  bandwidth : Option ℝ
  adaptive : Option Bool
  kernel : Option KernelType
  optBandwidth : Bool
  criterion : Crit
  optVars : Bool
  threshold : ℝ

/-- GWRBasicGpuTask.h:18-22, 33-37: the results. `report` stands for `mBetasSE`, `mSHat`, `mQDiag` and `mS`, which are written together. -/
structure TaskResults (n : ℕ) where
  betas : DynMat
  report : Option (Σ k', GWRReport n k')
  diagnostic : Diagnostic
  bandwidth : ℝ
  vars : List ℕ
  criteria : List FModel

/-- The object. -/
structure Task (n k m : ℕ) where
  set : TaskSettings n k m
  res : TaskResults n

/-- `RegressionDiagnostic mDiagnostic = {}` (GWRBasicGpuTask.h:33). -/
def zeroDiagnostic : Diagnostic := ⟨0, .ok 0, .ok 0, 0, 0, .ok 0, .ok 0⟩

/-- A matrix as Armadillo holds it. -/
def dynOf {r c : ℕ} (B : Matrix (Fin r) (Fin c) ℝ) : DynMat :=
  ⟨r, c, fun i j => if h : i < r ∧ j < c then B ⟨i, h.1⟩ ⟨j, h.2⟩ else 0⟩

/-- GWRBasicGpuTask.h:40-75: the constructors. `x`, `y`, `coords`, `locations` are what Armadillo's constructors leave in the matrices (zeros since version
10.5). -/
def Task.create (x : Matrix (Fin n) (Fin k) ℝ) (y : Fin n → ℝ) (coords : Matrix (Fin n) (Fin 2) ℝ) (locations : Matrix (Fin m) (Fin 2) ℝ)
    (type : ℕ) : Task n k m :=
  { set := ⟨x, y, coords, locations, newDistance type, none, none, none, false, .CV, false, 3⟩
    res := ⟨⟨0, 0, fun _ _ => 0⟩, none, zeroDiagnostic, 0, [], []⟩ }

/-- What a run depends on besides the settings: the order `std::sort` gives to equal elements, the content of memory that is not initialised
(GWRBasic.cpp:779) in every evaluation of a criterion, and the value of a bandwidth never set. -/
structure TaskEnv where
  srt : List FModel → List FModel
  vars : List ℕ → ℕ → ℝ
  search : ℕ → ℕ → ℝ
  junk : ℝ

/-- What a fit leaves behind in the algorithm object. -/
structure TaskRun (n : ℕ) where
  k : ℕ
  rep : GWRReport n k
  vars : List ℕ
  criteria : List FModel

/-- GWRBasicGpuTask.cpp:12-22: a new `GWRBasic`, with a clone of weight and distance, hat matrix, GPU and groups of 64 (GWRBasic.h:761), is configured and
fitted. A null distance is dereferenced (SpatialWeight.h:72-76). Members of the weight that were never set are read, except the bandwidth if it is searched.
`S` is stored for fewer than 8192 observations (GWRBasic.h:383). -/
noncomputable def taskRun (s : TaskSettings n k m) (e : TaskEnv) (hasIntercept : Bool) : Res (TaskRun n) :=
  match s.distance, s.adaptive, s.kernel with
  | some d, some a, some kn =>
    if s.bandwidth = none ∧ s.optBandwidth = false then .ub
    else
      let b : BandwidthWeight := ⟨s.bandwidth.getD e.junk, a, kn⟩
      let sS := decide (n < 8192)
      match s.optVars, s.optBandwidth with
      | false, false => (gpuRun 64 d.base b (dynOf s.coords) s.x s.y sS false).bind fun r => .ok ⟨k, r, [], []⟩
      | false, true => (gpuAutoRun s.criterion 64 e.search d.base b none none (dynOf s.coords) s.x s.y sS false).bind fun p => .ok ⟨k, p.2, [], []⟩
      | true, false => (gpuVarRun e.srt s.threshold 64 e.vars d.base b (dynOf s.coords) s.x s.y hasIntercept sS false).bind fun p =>
        .ok ⟨_, p.2, p.1.vars, p.1.criteria⟩
      | true, true => (gpuVarAutoRun e.srt s.threshold 64 e.vars s.criterion e.search d.base b none none (dynOf s.coords) s.x s.y hasIntercept sS
          false).bind fun p => .ok ⟨_, p.2.2, p.1.vars, p.1.criteria⟩
  | _, _, _ => .ub

/-- GWRBasicGpuTask.cpp:51-58: the same for a prediction, which never selects anything. -/
noncomputable def taskPredict (s : TaskSettings n k m) : Res (Matrix (Fin n) (Fin k) ℝ) :=
  match s.distance, s.bandwidth, s.adaptive, s.kernel with
  | some d, some b, some a, some kn => gpuPredict 64 d.base ⟨b, a, kn⟩ (dynOf s.locations) (dynOf s.coords) s.x s.y
  | _, _, _, _ => .ub

/-- The calls of the interface that may change a task. Numbers of kernels and criteria are cast from `int`. -/
inductive TaskOp
  | setX (i j : ℤ) (v : ℝ)
  | setY (i : ℤ) (v : ℝ)
  | setCoords (i : ℤ) (u v : ℝ)
  | setPredictLocations (i : ℤ) (u v : ℝ)
  | setDistanceType (type : ℕ)
  | setGeographic (b : Bool)
  | setPoly (p : ℤ)
  | setTheta (t : ℝ)
  | setBandwidthSize (b : ℝ)
  | setBandwidthAdaptive (a : Bool)
  | setBandwidthKernel (kernel : ℤ)
  | enableBandwidthOptimization (criterion : ℤ)
  | enableVariablesOptimization (threshold : ℝ)
  | fit (e : TaskEnv) (hasIntercept : Bool)
  | predict (hasIntercept : Bool)

/-- How a call ends: it returns (setters return nothing, here `true`), or an exception reaches the caller. -/
inductive Outcome
  | ret (b : Bool)
  | threw (e : Err)

/-- An `int` as row or column number of `r` (checked access: a negative number converts to a huge one). -/
def indexOf (r : ℕ) (i : ℤ) : Option (Fin r) := if h : 0 ≤ i ∧ i.toNat < r then some ⟨i.toNat, h.2⟩ else none

/-- The conversion of a `double` to `uword`: truncation towards zero; undefined outside the range of the type. -/
noncomputable def toUword (u : ℝ) : Res ℕ := if -1 < u ∧ u < 2 ^ 64 then .ok ⌊u⌋₊ else .ub

/-- `M(i, j) = v`. -/
noncomputable def setEntry {r c : ℕ} (M : Matrix (Fin r) (Fin c) ℝ) (i : Fin r) (j : Fin c) (v : ℝ) : Matrix (Fin r) (Fin c) ℝ :=
  Matrix.of fun i' j' => if i' = i ∧ j' = j then v else M i' j'

/-- GWRBasicGpuTask.h:138-146: `mCoords(i, u) = v`; the coordinate `u` is taken as the number of the column. -/
noncomputable def writePoint {r : ℕ} (c : Matrix (Fin r) (Fin 2) ℝ) (i : ℤ) (u v : ℝ) : Res (Option (Matrix (Fin r) (Fin 2) ℝ)) :=
  (toUword u).bind fun q => match indexOf r i, indexOf 2 q with
    | some i', some q' => .ok (some (setEntry c i' q' v))
    | _, _ => .ok none

/-- BandwidthWeight.h:46-53. -/
def kernelOf (i : ℤ) : Option KernelType :=
  if i = 0 then some .Gaussian else if i = 1 then some .Exponential else if i = 2 then some .Bisquare else if i = 3 then some .Tricube
  else if i = 4 then some .Boxcar else none

/-- GWRBasic.h:41-45. -/
def critOf (i : ℤ) : Option Crit := if i = 0 then some .AIC else if i = 1 then some .CV else none

/-- GWRBasicGpuTask.h:128-203 and GWRBasicGpuTask.cpp:10-66: one call. A `static_cast` of a `CRSDistance` to `MinkwoskiDistance`, and a null distance, are
undefined. Simplification: kernels and criteria that do not exist are undefined at once. An exception of the algorithm is caught (all are `std::exception`),
the results are then as before. -/
noncomputable def taskStep (t : Task n k m) : TaskOp → Res (Task n k m × Outcome)
  | .setX i j v => match indexOf n i, indexOf k j with
    | some i', some j' => .ok ({ t with set := { t.set with x := setEntry t.set.x i' j' v } }, .ret true)
    | _, _ => .ok (t, .threw .bounds)
  | .setY i v => match indexOf n i with
    | some i' => .ok ({ t with set := { t.set with y := Function.update t.set.y i' v } }, .ret true)
    | none => .ok (t, .threw .bounds)
  | .setCoords i u v => (writePoint t.set.coords i u v).bind fun
    | some c => .ok ({ t with set := { t.set with coords := c } }, .ret true)
    | none => .ok (t, .threw .bounds)
  | .setPredictLocations i u v => (writePoint t.set.locations i u v).bind fun
    | some c => .ok ({ t with set := { t.set with locations := c } }, .ret true)
    | none => .ok (t, .threw .bounds)
  | .setDistanceType type => match newDistance type with
    | some d => .ok ({ t with set := { t.set with distance := some d } }, .ret true)
    | none => .ok (t, .ret true)
  | .setGeographic g => match t.set.distance with
    | some (.crs _) => .ok ({ t with set := { t.set with distance := some (.crs g) } }, .ret true)
    | some (.minkwoski _ p θ) => .ok ({ t with set := { t.set with distance := some (.minkwoski g p θ) } }, .ret true)
    | none => .ub
  | .setPoly p => match t.set.distance with
    | some (.minkwoski g _ θ) => .ok ({ t with set := { t.set with distance := some (.minkwoski g p θ) } }, .ret true)
    | _ => .ub
  | .setTheta θ => match t.set.distance with
    | some (.minkwoski g p _) => .ok ({ t with set := { t.set with distance := some (.minkwoski g p θ) } }, .ret true)
    | _ => .ub
  | .setBandwidthSize b => .ok ({ t with set := { t.set with bandwidth := some b } }, .ret true)
  | .setBandwidthAdaptive a => .ok ({ t with set := { t.set with adaptive := some a } }, .ret true)
  | .setBandwidthKernel i => match kernelOf i with
    | some kn => .ok ({ t with set := { t.set with kernel := some kn } }, .ret true)
    | none => .ub
  | .enableBandwidthOptimization i => match critOf i with
    | some c => .ok ({ t with set := { t.set with optBandwidth := true, criterion := c } }, .ret true)
    | none => .ub
  | .enableVariablesOptimization thr => .ok ({ t with set := { t.set with optVars := true, threshold := thr } }, .ret true)
  | .fit e hi => match taskRun t.set e hi with
    | .ok r => .ok ({ t with res :=
        { betas := dynOf r.rep.betas
          report := some ⟨r.k, r.rep⟩
          diagnostic := r.rep.diagnostic
          bandwidth := if t.set.optBandwidth then r.rep.weight.mBandwidth else t.res.bandwidth
          vars := if t.set.optVars then r.vars else t.res.vars
          criteria := if t.set.optVars then r.criteria else t.res.criteria } }, .ret true)
    | .throw _ => .ok (t, .ret false)
    | .ub => .ub
    | .nonfinite => .nonfinite
  | .predict _ => match taskPredict t.set with
    | .ok B => .ok ({ t with res := { t.res with betas := dynOf B } }, .ret true)
    | .throw _ => .ok (t, .ret false)
    | .ub => .ub
    | .nonfinite => .nonfinite

/-- A sequence of calls. -/
noncomputable def taskCalls (t : Task n k m) : List TaskOp → Res (Task n k m)
  | [] => .ok t
  | op :: ops => (taskStep t op).bind fun p => taskCalls p.1 ops

/-! ## Reading the results -/

/-- Checked access to a matrix. -/
def DynMat.atInt (M : DynMat) (i j : ℤ) : Res ℝ := match indexOf M.nRows i, indexOf M.nCols j with
  | some i', some j' => .ok (M.val i' j')
  | _, _ => .throw .bounds

/-- GWRBasicGpuTask.h:205 `betas`. -/
def Task.betas (t : Task n k m) (i j : ℤ) : Res ℝ := t.res.betas.atInt i j

/-- GWRBasicGpuTask.h:207 `betasSE`; empty before the first fit. A negative variance gives a value that is not finite. -/
def Task.betasSE (t : Task n k m) (i j : ℤ) : Res ℝ := match t.res.report with
  | some ⟨k', r⟩ => match indexOf n i, indexOf k' j with
    | some i', some j' => r.se i' j'
    | _, _ => .throw .bounds
  | none => .throw .bounds

/-- GWRBasicGpuTask.h:209-211 `shat1` and `shat2`. -/
def Task.shat (t : Task n k m) (i : Fin 2) : Res ℝ := match t.res.report with
  | some ⟨_, r⟩ => .ok (r.shat i)
  | none => .throw .bounds

/-- GWRBasicGpuTask.h:213 `qDiag`. -/
def Task.qDiag (t : Task n k m) (i : ℤ) : Res ℝ := match t.res.report with
  | some ⟨_, r⟩ => match indexOf n i with
    | some i' => .ok (r.qdiag i')
    | none => .throw .bounds
  | none => .throw .bounds

/-- GWRBasicGpuTask.h:215 `sRows`. -/
def Task.sRows (t : Task n k m) : ℕ := match t.res.report with
  | some _ => if n < 8192 then n else 1
  | none => 0

/-- GWRBasicGpuTask.h:217 `s`. -/
def Task.s (t : Task n k m) (i j : ℤ) : Res ℝ := match t.res.report with
  | some ⟨_, r⟩ => match indexOf t.sRows i, indexOf n j with
    | some i', some j' => .ok (r.s i' j')
    | _, _ => .throw .bounds
  | none => .throw .bounds

/-- GWRBasicGpuTask.h:237 `selectedVar`: `[]` of a vector is not checked. -/
def Task.selectedVar (t : Task n k m) (i : ℕ) : Res ℕ := match t.res.vars[i]? with
  | some v => .ok v
  | none => .ub

end Verif.Model

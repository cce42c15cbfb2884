import Verif.Model.GWRSelect
import Verif.Model.SummaryRun

/-!
# Model of whole runs of `GWRBasic`, serial and multithreaded

`CRSDistance` (planar or geographic), every kind of `BandwidthWeight`, no GPU, no MPI, no stop requests.
-/

namespace Verif.Model
open Verif Matrix Classical

variable {n k m : ℕ}

/-- GWRBasic.cpp:246-289 or 456-514, as `setParallelType` chose. -/
noncomputable def gwrCoreEx (x : Matrix (Fin n) (Fin k) ℝ) (y : Fin n → ℝ) (W : Fin n → Fin n → ℝ) (sS sC : Bool) : Exec n → Res (FitAcc n k)
  | .serial => (fitCoreSerial x y W 0 n sS sC fun _ => false).bind fun p => .ok p.1
  | .omp evs => (fitCoreOmp x y W 0 sS sC (fun _ => false) evs).bind fun p => .ok p.1

/-- What `fit` leaves behind: the weight, `mBetas`, `mDiagnostic`, `mBetasSE`, `mSHat`, `mQDiag`, `mS`, `mC`. -/
structure GWRReport (n k : ℕ) where
  weight : BandwidthWeight
  betas : Matrix (Fin n) (Fin k) ℝ
  diagnostic : Diagnostic
  se : Fin n → Fin k → Res ℝ
  shat : Fin 2 → ℝ
  qdiag : Fin n → ℝ
  s : ℕ → Fin n → ℝ
  c : ℕ → Matrix (Fin k) (Fin n) ℝ

/-- GWRBasic.cpp:235-244 `fitBase`, with the weights `b` and a distance `d'` that has its parameter. The weights are computed in the loop over the
locations, in parallel mode outside the handler. -/
noncomputable def gwrFinish (ex : Exec n) (d' : CRSDistance) (b : BandwidthWeight) (x : Matrix (Fin n) (Fin k) ℝ) (y : Fin n → ℝ) (sS sC : Bool) :
    Res (GWRReport n k) :=
  (summaryEscape ex (weightRows d' b n n)).bind fun W => (gwrCoreEx x y W sS sC ex).bind fun a =>
    .ok { weight := b, betas := a.betas, diagnostic := calcDiagnostic x y a.betas a.shat, se := betasSE x y a, shat := a.shat, qdiag := a.qdiag,
          s := a.s, c := a.c }

/-- GWRBasic.cpp:62-170 `fit` without automatic selections. -/
noncomputable def gwrRun (ex : Exec n) (d : CRSDistance) (b : BandwidthWeight) (coords : DynMat) (x : Matrix (Fin n) (Fin k) ℝ) (y : Fin n → ℝ)
    (sS sC : Bool) : Res (GWRReport n k) :=
  (bindLocations d coords coords).bind fun d' => gwrFinish ex d' b x y sS sC

/-- GWRBasic.cpp:172-233, 422-454 `predict` at `m` locations. -/
noncomputable def gwrPredictRun (ex : Exec m) (d : CRSDistance) (b : BandwidthWeight) (locations coords : DynMat)
    (x : Matrix (Fin n) (Fin k) ℝ) (y : Fin n → ℝ) : Res (Matrix (Fin m) (Fin k) ℝ) :=
  (bindLocations d locations coords).bind fun d' => (summaryEscape ex (weightRows d' b n m)).bind fun W =>
    (match ex with
      | .serial => predictSerial x y W fun _ => false
      | .omp evs => predictOmp x y W (fun _ => false) evs).bind fun p => .ok p.1

/-- GWRBasic.cpp:349-394: one evaluation of the bandwidth criterion. -/
noncomputable def gwrCriterionEx (c : Crit) (d' : CRSDistance) (x : Matrix (Fin n) (Fin k) ℝ) (y : Fin n → ℝ) (b : BandwidthWeight) : Exec n → ℝ
  | .serial => gwrCriterion c d' x y b
  | .omp evs => gwrCriterionOmp c d' x y evs b

/-- GWRBasic.cpp:140: the upper bound of the search. -/
noncomputable def gwrUpper (d' : CRSDistance) (b0 : BandwidthWeight) (n : ℕ) : Option ℝ → Res ℝ
  | some u => .ok u
  | none => if b0.mAdaptive then .ok (n : ℝ) else d'.maxDistance

/-- GWRBasic.cpp:135-157: the bandwidth search of `fit`; `sched j` is how the loop of the `j`-th evaluation runs. -/
noncomputable def gwrSearchEx (c : Crit) (sched : ℕ → Exec n) (d' : CRSDistance) (b0 : BandwidthWeight) (lower upper : Option ℝ)
    (x : Matrix (Fin n) (Fin k) ℝ) (y : Fin n → ℝ) : Res SearchResult :=
  (gwrUpper d' b0 n upper).bind fun u =>
    .ok (optimize b0 (lower.getD (if b0.mAdaptive then 20 else 0)) u (fun j b => (true, gwrCriterionEx c d' x y b (sched j))) [])

/-- GWRBasic.cpp:62-170 `fit` with automatic bandwidth selection: what the search did (142-153) and the report. -/
noncomputable def gwrAutoRun (c : Crit) (sched : ℕ → Exec n) (ex : Exec n) (d : CRSDistance) (b0 : BandwidthWeight) (lower upper : Option ℝ)
    (coords : DynMat) (x : Matrix (Fin n) (Fin k) ℝ) (y : Fin n → ℝ) (sS sC : Bool) : Res (SearchResult × GWRReport n k) :=
  (bindLocations d coords coords).bind fun d' => (gwrSearchEx c sched d' b0 lower upper x y).bind fun r => r.out.bind fun b =>
    (gwrFinish ex d' b x y sS sC).bind fun g => .ok (r, g)

/-- GWRBasic.cpp:396-418 `indepVarsSelectionCriterion` in the chosen mode; in parallel mode a failing location is skipped (548-584). -/
noncomputable def gwrVarsCriterionEx (ex : Exec n) (d' : CRSDistance) (b : BandwidthWeight) (x : Matrix (Fin n) (Fin k) ℝ) (y : Fin n → ℝ)
    (hasIntercept : Bool) (vars : List ℕ) : Res ℝ :=
  match ex with
  | .serial => gwrVarsCriterion d' b x y hasIntercept vars
  | .omp evs => (pickCols x (index2uvec vars hasIntercept)).bind fun x' =>
      match weightRows d' { b with mBandwidth := dblMax } n n with
      | .ok W => (fitCoreSHatOmp x' y W (fun _ => false) evs).bind fun r => aicc x' y r.1.1 (r.1.2 0)
      | _ => .ub

/-- GWRBasic.cpp:112-133: the selection step of `fit` in the chosen mode. -/
noncomputable def gwrSelectVarsEx (srt : List FModel → List FModel) (thr : ℝ) (sched : List ℕ → Exec n) (d' : CRSDistance) (b : BandwidthWeight)
    (x : Matrix (Fin n) (Fin k) ℝ) (y : Fin n → ℝ) (hasIntercept : Bool) : Res (Selected n) :=
  selectVars (fun vars => gwrVarsCriterionEx (sched vars) d' b x y hasIntercept vars) srt thr x hasIntercept

/-- GWRBasic.cpp:62-170 `fit` with automatic selection of variables and a given bandwidth. -/
noncomputable def gwrVarRun (srt : List FModel → List FModel) (thr : ℝ) (sched : List ℕ → Exec n) (ex : Exec n) (d : CRSDistance)
    (b : BandwidthWeight) (coords : DynMat) (x : Matrix (Fin n) (Fin k) ℝ) (y : Fin n → ℝ) (hasIntercept sS sC : Bool) :
    Res (Σ s : Selected n, GWRReport n s.cols.length) :=
  (bindLocations d coords coords).bind fun d' => (gwrSelectVarsEx srt thr sched d' b x y hasIntercept).bind fun s =>
    (gwrFinish ex d' b s.x y sS sC).bind fun g => .ok ⟨s, g⟩

/-- GWRBasic.cpp:62-170 `fit` with both selections: variables first, then the bandwidth for the selected variables. -/
noncomputable def gwrVarAutoRun (srt : List FModel → List FModel) (thr : ℝ) (sched : List ℕ → Exec n) (c : Crit) (schedB : ℕ → Exec n)
    (ex : Exec n) (d : CRSDistance) (b0 : BandwidthWeight) (lower upper : Option ℝ) (coords : DynMat) (x : Matrix (Fin n) (Fin k) ℝ)
    (y : Fin n → ℝ) (hasIntercept sS sC : Bool) : Res (Σ s : Selected n, SearchResult × GWRReport n s.cols.length) :=
  (bindLocations d coords coords).bind fun d' => (gwrSelectVarsEx srt thr sched d' b0 x y hasIntercept).bind fun s =>
    (gwrSearchEx c schedB d' b0 lower upper s.x y).bind fun r => r.out.bind fun b =>
      (gwrFinish ex d' b s.x y sS sC).bind fun g => .ok ⟨s, (r, g)⟩

end Verif.Model

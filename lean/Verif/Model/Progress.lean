import Verif.Model.GWRObject
import Verif.Model.GWRCuda
import Verif.Model.ForwardSelector
import Verif.Model.GWRGeneralized

/-!
# Model of the progress reports

What a telegram (Logger.h:30-84, set by `Algorithm::setTelegram`) is told by `GWM_LOG_PROGRESS` and `GWM_LOG_PROGRESS_PERCENT` (Algorithm.h:93, 100)
while an algorithm runs: pairs (current, total), and percentages as fractions of 1.
-/

namespace Verif.Model
open Verif Matrix Classical

variable {n k m : ℕ} {ι ρ : Type*}

/-- A serial loop `for (…) { GWM_LOG_STOP_BREAK; …; GWM_LOG_PROGRESS(…) }` whose body may throw: the reports sent before it ends. -/
def serialReports (g : ι → Res ρ) (rep : ι → ℕ × ℕ) (stop : ℕ → Bool) : List ι → ℕ → List (ℕ × ℕ)
  | [], _ => []
  | i :: is, p =>
    if stop p = true then []
    else match g i with
      | .ok _ => rep i :: serialReports g rep stop is (p + 1)
      | _ => []

/-- GWRBasic.cpp:258-286: the reports of the fit in serial mode (the loop is `fitLoop`). -/
noncomputable def fitReports (d' : CRSDistance) (b : BandwidthWeight) (x : Matrix (Fin n) (Fin k) ℝ) (y : Fin n → ℝ) (stop : ℕ → Bool) :
    List (ℕ × ℕ) :=
  serialReports (fun i : Fin n => (weightVector d' b n i).bind fun w => localFit x y w (x i)) (fun i => (i.val + 1, n)) stop (workRange n 0 n) 0

/-- GWRBasic.cpp:213-231: the reports of a prediction in serial mode (the loop is `predictLoop`). -/
noncomputable def predictReports (m : ℕ) (d' : CRSDistance) (b : BandwidthWeight) (x : Matrix (Fin n) (Fin k) ℝ) (y : Fin n → ℝ)
    (stop : ℕ → Bool) : List (ℕ × ℕ) :=
  serialReports (fun i : Fin m => (weightVector d' b n i).bind fun w => localBeta x y w) (fun i => (i.val + 1, m)) stop (List.finRange m) 0

/-- One event of a parallel loop (GWRBasic.cpp:427-450, 470-505): an iteration that meets a stop request at its start skips everything; any other sends
its report when it is over, also if it did nothing because of an earlier failure, or failed itself. The state: number of polls, which iterations
go on, reports so far. -/
def ompReportStep [DecidableEq ι] {T : Type*} (rep : ι → ℕ × ℕ) (stop : ℕ → Bool) (s : (ℕ × (ι → Bool)) × List (ℕ × ℕ)) :
    OmpEv ι T → (ℕ × (ι → Bool)) × List (ℕ × ℕ)
  | .start i => ((s.1.1 + 1, Function.update s.1.2 i !(stop s.1.1)), s.2)
  | .finish _ i => (s.1, if s.1.2 i = true then s.2 ++ [rep i] else s.2)

/-- The reports of a parallel loop. -/
def ompReports [DecidableEq ι] {T : Type*} (rep : ι → ℕ × ℕ) (stop : ℕ → Bool) (evs : List (OmpEv ι T)) : List (ℕ × ℕ) :=
  (evs.foldl (ompReportStep rep stop) ((0, fun _ => false), [])).2

/-- GWRBasic.cpp:616-668, 690-714: the reports on the GPU, one for each group of `G` observations. `ok i`: the inversions of group `i` succeed. -/
def gpuReports (n G : ℕ) (ok : ℕ → Bool) (stop : ℕ → Bool) : List (ℕ × ℕ) :=
  serialReports (fun i => if ok i = true then Res.ok () else .throw .runtime)
    (fun i => (groupBegin 0 G i + groupLength n G (groupBegin 0 G i), n)) stop (List.range (cudaGroups 0 n G)) 0

/-- GWRScalable.cpp:556-587 and 607-659: the reports of the two loops of `fitSerial`; nothing in the first can throw. `stop1`, `stop2` answer the polls in
either loop; `g` is what may fail in the second. The quotients are of integers. -/
def scaReports (g : Fin n → Res ρ) (stop1 stop2 : ℕ → Bool) : List (ℕ × ℕ) :=
  serialReports (fun _ => Res.ok ()) (fun i : Fin n => ((i.val + 1) / 2, n)) stop1 (List.finRange n) 0 ++
    serialReports g (fun i => ((n + i.val + 1) / 2, n)) stop2 (List.finRange n) 0

/-- GWRBasic.cpp:121-122, 405 (GWRRobust.cpp:46-47, GWDR.cpp:54-55, 593, 679): the reports of a selection of variables. `ran` are the evaluations of the
criterion in which the regression did not throw (in GWDR: all). -/
def selectionReports (vars : List ℕ) (evals : List FModel) (ran : FModel → Bool) : List (ℕ × ℕ) :=
  (List.range (evals.filter ran).length).map fun j => (j + 1, (vars.length + 1) * vars.length / 2)

/-- GWRBasic.cpp:357-363, 381-387 (GTWR.cpp:211, 249, GWRLocalCollinearity.cpp:256, 322, GWRGeneralized.cpp:607, 663, 704, 755, GWRMultiscale.cpp:411, 434,
997, 1038): the percentages reported in a bandwidth search that evaluates to these values, DBL_MAX for an evaluation that failed. `last` is
`mBandwidthLastCriterion`, which stays from run to run. -/
noncomputable def searchPercents (last : ℝ) : List ℝ → List ℝ
  | [] => []
  | v :: vs => if v = dblMax then searchPercents last vs else Real.exp (-|last - v|) :: searchPercents v vs

/-- GWDR.cpp:361, 412, 461, 515: the same with the tolerance of the search. -/
noncomputable def gwdrPercents (eps last : ℝ) : List ℝ → List ℝ
  | [] => []
  | v :: vs => if v = dblMax then gwdrPercents eps last vs else Real.exp (-|last - v - eps|) :: gwdrPercents eps v vs

/-- GWRGeneralized.cpp:777-800 (836, 880, 923): the percentages reported by the calibration (the loop is `wtLoop`). -/
noncomputable def wtPercents (F : Family) (tol : ℝ) (x : Matrix (Fin n) (Fin k) ℝ) (y : Fin n → ℝ) (W : Fin n → Fin n → ℝ) :
    ℕ → WtState n k → List ℝ
  | 0, _ => []
  | fuel + 1, s =>
    match wtStep F x y W s with
    | .ok s' =>
      if wtConverged tol s.llik s'.llik then [Real.exp (-(|(s.llik - s'.llik) / s'.llik| - tol))]
      else wtPercents F tol x y W fuel { s' with wt2 := fun l => locWork F (s'.mu l) }
    | _ => []

/-- GWRGeneralized.cpp:763-930: the percentages of a whole calibration (`wtCalc`). -/
noncomputable def calibrationPercents (F : Family) (tol : ℝ) (maxIter : ℕ) (x : Matrix (Fin n) (Fin k) ℝ) (y : Fin n → ℝ) (W : Fin n → Fin n → ℝ) :
    List ℝ :=
  match locNu0 F y with
  | .ok nu => wtPercents F tol x y W maxIter ⟨nu, locMu0 F y, fun _ => 1, 0, 0, 0⟩
  | _ => []

/-- GWRScalable.cpp:231-245: the percentages reported by the search of the two parameters, when the steps of the minimiser leave simplexes of these sizes
(the list ends where a step fails or a stop is requested). `gsl_multimin_test_size(size, 1e-6)` ends the search if the size is below 1e-6; the first argument
is the number of steps still allowed after this one. -/
noncomputable def simplexPercents : ℕ → List ℝ → List ℝ
  | _, [] => []
  | 0, size :: _ => [Real.exp (-(size - 1e-6))]
  | fuel + 1, size :: sizes => Real.exp (-(size - 1e-6)) :: if size < 1e-6 then [] else simplexPercents fuel sizes

end Verif.Model

import Verif.Model.GWRRidgeRun
import Verif.Model.GWRGeneralized

/-!
# Whole runs of `GWRLocalCollinearity` in serial or multithreaded mode (no stop requests)
-/

namespace Verif.Model
open Verif Matrix Classical

variable {n k : ℕ}

/-- GWRLocalCollinearity.cpp:172-196 `setParallelType`: the fit function of the mode. -/
noncomputable def lcrFitIn (sv : Matrix (Fin n) (Fin k) ℝ → ℝ × ℝ) (cfg : LcrCfg) (x : Matrix (Fin n) (Fin k) ℝ) (y : Fin n → ℝ)
    (W : Fin n → Fin n → ℝ) (tr : Fin 2 → ℝ) : Exec n → Res ((Matrix (Fin n) (Fin k) ℝ × (Fin 2 → ℝ)) × Bool)
  | .serial => lcrFitSerial sv cfg x y W (fun _ => false) tr
  | .omp evs => lcrFitOmp sv cfg x y W (fun _ => false) evs tr

/-- GWRLocalCollinearity.cpp:265-328 `bandwidthSizeCriterionCVOmp`: the score of given weights. An exception that leaves the parallel region ends
the program. The unsynchronised counter `current` is never read and left out. -/
noncomputable def lcrCriterionCVOmp {T : ℕ} (sv : Matrix (Fin n) (Fin k) ℝ → ℝ × ℝ) (cfg : LcrCfg) (x : Matrix (Fin n) (Fin k) ℝ) (y : Fin n → ℝ)
    (W : Fin n → Fin n → ℝ) (stop : ℕ → Bool) (evs : List (OmpEv (Fin n) (Fin T))) : Res ℝ :=
  let s := ompRun (fun i => lcrBeta sv cfg x y (cvWeight W i)) (fun _ => setRow) stop evs (0 : Matrix (Fin n) (Fin k) ℝ)
  if s.success = true then (if s.terminated = true then .ok dblMax else .ok (finiteOrMax (rss x y s.st))) else .ub

/-- GWRLocalCollinearity.cpp:112-138 `setBandwidthSelectionCriterion`: the criterion of a candidate bandwidth in the mode. -/
noncomputable def lcrCriterionIn (sv : Matrix (Fin n) (Fin k) ℝ → ℝ × ℝ) (cfg : LcrCfg) (d' : CRSDistance) (x : Matrix (Fin n) (Fin k) ℝ)
    (y : Fin n → ℝ) (b : BandwidthWeight) : Exec n → Res ℝ
  | .serial => lcrCriterion sv cfg d' x y b
  | .omp evs => match weightRows d' b n n with
    | .ok W => lcrCriterionCVOmp sv cfg x y W (fun _ => false) evs
    | _ => .ub

/-- The value of a criterion, 0 if there is none (never used then, `lcrSelectBandwidthIn`). -/
noncomputable def lcrScoreIn (sv : Matrix (Fin n) (Fin k) ℝ → ℝ × ℝ) (cfg : LcrCfg) (d' : CRSDistance) (x : Matrix (Fin n) (Fin k) ℝ)
    (y : Fin n → ℝ) (b : BandwidthWeight) (ex : Exec n) : ℝ :=
  match lcrCriterionIn sv cfg d' x y b ex with
  | .ok v => v
  | _ => 0

/-- GWRLocalCollinearity.cpp:49-66: the bandwidth search; `sched j` is how the loop of the `j`-th evaluation runs. Simplification as in
`lcrSelectBandwidth`: an evaluation without value ends the run, without saying how. -/
noncomputable def lcrSelectBandwidthIn (sv : Matrix (Fin n) (Fin k) ℝ → ℝ × ℝ) (cfg : LcrCfg) (sched : ℕ → Exec n) (d' : CRSDistance)
    (b0 : BandwidthWeight) (x : Matrix (Fin n) (Fin k) ℝ) (y : Fin n → ℝ) : Res SearchResult :=
  (if b0.mAdaptive then Res.ok (n : ℝ) else d'.maxDistance).bind fun u =>
    let r := optimize b0 (if b0.mAdaptive then 20 else 0) u (fun j b => (true, lcrScoreIn sv cfg d' x y b (sched j))) []
    if ∀ e ∈ r.evals, ∀ j, ∃ v, lcrCriterionIn sv cfg d' x y { b0 with mBandwidth := e.x } (sched j) = .ok v then .ok r else .throw .logic

/-- GWRLocalCollinearity.cpp:67-89: the fit after the bandwidth is known, on a fresh object. In multithreaded mode the weights are computed inside
the loop, where an exception ends the program. -/
noncomputable def lcrFinishIn (sv : Matrix (Fin n) (Fin k) ℝ → ℝ × ℝ) (cfg : LcrCfg) (ex : Exec n) (d' : CRSDistance) (b : BandwidthWeight)
    (x : Matrix (Fin n) (Fin k) ℝ) (y : Fin n → ℝ) : Res (LcrResult n k) :=
  match ex, weightRows d' b n n with
  | ex, .ok W => lcrFit (fun tr => lcrFitIn sv cfg x y W tr ex) x y 0
  | .serial, r => r.bind fun _ => .ub
  | .omp _, _ => .ub

/-- GWRLocalCollinearity.cpp:38-89 `fit` with a given bandwidth. -/
noncomputable def lcrRunIn (sv : Matrix (Fin n) (Fin k) ℝ → ℝ × ℝ) (cfg : LcrCfg) (ex : Exec n) (d : CRSDistance) (b : BandwidthWeight)
    (coords : DynMat) (x : Matrix (Fin n) (Fin k) ℝ) (y : Fin n → ℝ) : Res (LcrResult n k) :=
  (bindLocations d coords coords).bind fun d' => lcrFinishIn sv cfg ex d' b x y

/-- GWRLocalCollinearity.cpp:38-89 `fit` with automatic bandwidth selection. -/
noncomputable def lcrAutoRunIn (sv : Matrix (Fin n) (Fin k) ℝ → ℝ × ℝ) (cfg : LcrCfg) (sched : ℕ → Exec n) (ex : Exec n) (d : CRSDistance)
    (b0 : BandwidthWeight) (coords : DynMat) (x : Matrix (Fin n) (Fin k) ℝ) (y : Fin n → ℝ) : Res (BandwidthWeight × LcrResult n k) :=
  (bindLocations d coords coords).bind fun d' => (lcrSelectBandwidthIn sv cfg sched d' b0 x y).bind fun r => r.out.bind fun b =>
    (lcrFinishIn sv cfg ex d' b x y).bind fun f => .ok (b, f)

end Verif.Model

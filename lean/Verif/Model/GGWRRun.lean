import Verif.Model.GWRGeneralized
import Verif.Model.GWRRidgeRun

/-!
# Model of whole runs of `GWRGeneralized` (with the hat matrix, `CRSDistance`, no stop requests)
-/

namespace Verif.Model
open Verif Matrix Classical

variable {n k : ℕ}

/-- GWRGeneralized.cpp:20-155 `fit` with a given bandwidth. -/
noncomputable def ggwrRun (F : Family) (tol : ℝ) (maxIter : ℕ) (d : CRSDistance) (b : BandwidthWeight) (coords : DynMat)
    (x : Matrix (Fin n) (Fin k) ℝ) (y : Fin n → ℝ) (ex : Exec n) : Res (GgwrResult n k) :=
  (bindLocations d coords coords).bind fun d' => (weightRows d' b n n).bind fun W => ggwrFit F tol maxIter x y W ex

/-- GWRGeneralized.h `BandwidthSelectionCriterionType`. -/
inductive GgwrCriterionType
  | AIC
  | CV

/-- GWRGeneralized.cpp:568-612, 671-709 for a candidate bandwidth in serial mode: exceptions leave the function. `d'` has its parameter already. -/
noncomputable def ggwrCriterion (F : Family) (tol : ℝ) (maxIter : ℕ) (crit : GgwrCriterionType) (d' : CRSDistance) (x : Matrix (Fin n) (Fin k) ℝ)
    (y : Fin n → ℝ) (b : BandwidthWeight) : Res ℝ :=
  (weightRows d' b n n).bind fun W => match crit with
    | .AIC => ggwrAICSerial F tol maxIter x y W
    | .CV => ggwrCVSerial F tol maxIter x y W

/-- The value of a criterion that does not throw; the value 0 for one that does is never used (`ggwrSelectBandwidth`). Models
GWRGeneralized.cpp:568-612, 671-709. -/
noncomputable def ggwrScore (F : Family) (tol : ℝ) (maxIter : ℕ) (crit : GgwrCriterionType) (d' : CRSDistance) (x : Matrix (Fin n) (Fin k) ℝ)
    (y : Fin n → ℝ) (b : BandwidthWeight) : ℝ :=
  match ggwrCriterion F tol maxIter crit d' x y b with
  | .ok v => v
  | _ => 0

/-- GWRGeneralized.cpp:32-50: the bandwidth search between 20 and the number of observations (adaptive), or 0 and the largest distance (fixed).
Simplification: an exception or a value that is not finite in one of the evaluations ends the run here, without saying which. -/
noncomputable def ggwrSelectBandwidth (F : Family) (tol : ℝ) (maxIter : ℕ) (crit : GgwrCriterionType) (d' : CRSDistance) (b0 : BandwidthWeight)
    (x : Matrix (Fin n) (Fin k) ℝ) (y : Fin n → ℝ) : Res SearchResult :=
  (if b0.mAdaptive then Res.ok (n : ℝ) else d'.maxDistance).bind fun u =>
    let r := optimize b0 (if b0.mAdaptive then 20 else 0) u
      (fun _ b => (true, ggwrScore F tol maxIter crit d' x y b)) []
    if ∀ e ∈ r.evals, ∃ v, ggwrCriterion F tol maxIter crit d' x y { b0 with mBandwidth := e.x } = .ok v then .ok r else .throw .logic

/-- GWRGeneralized.cpp:20-155 `fit` with automatic bandwidth selection, serial mode. -/
noncomputable def ggwrAutoRun (F : Family) (tol : ℝ) (maxIter : ℕ) (crit : GgwrCriterionType) (d : CRSDistance) (b0 : BandwidthWeight) (coords : DynMat)
    (x : Matrix (Fin n) (Fin k) ℝ) (y : Fin n → ℝ) : Res (BandwidthWeight × GgwrResult n k) :=
  (bindLocations d coords coords).bind fun d' => (ggwrSelectBandwidth F tol maxIter crit d' b0 x y).bind fun r => r.out.bind fun b =>
    (weightRows d' b n n).bind fun W => (ggwrFit F tol maxIter x y W .serial).bind fun f => .ok (b, f)

/-- GWRGeneralized.cpp:568-760: the criterion for a candidate bandwidth, in serial mode (`.serial`) or parallelised (`.omp`, the events of the loop over the
locations). The parallel loop that computes the weights (624-635, 721-732) writes one column per iteration and is modelled as `weightRows`.
`num_threads(0)` is undefined. -/
noncomputable def ggwrCriterionEx (F : Family) (tol : ℝ) (maxIter : ℕ) (crit : GgwrCriterionType) (d' : CRSDistance) (x : Matrix (Fin n) (Fin k) ℝ)
    (y : Fin n → ℝ) (b : BandwidthWeight) : Exec n → Res ℝ
  | .serial => ggwrCriterion F tol maxIter crit d' x y b
  | .omp (T := 0) _ => .ub
  | .omp (T := _ + 1) evs => (weightRows d' b n n).bind fun W => match crit with
    | .AIC => ggwrAICOmp F tol maxIter x y W evs
    | .CV => ggwrCVOmp F tol maxIter x y W evs

/-- `ggwrScore` in any mode. Models GWRGeneralized.cpp:568-760. -/
noncomputable def ggwrScoreEx (F : Family) (tol : ℝ) (maxIter : ℕ) (crit : GgwrCriterionType) (d' : CRSDistance) (x : Matrix (Fin n) (Fin k) ℝ)
    (y : Fin n → ℝ) (b : BandwidthWeight) (ex : Exec n) : ℝ :=
  match ggwrCriterionEx F tol maxIter crit d' x y b ex with
  | .ok v => v
  | _ => 0

/-- GWRGeneralized.cpp:32-50 in any mode: evaluation `j` runs its loop as `sched j` says. Simplification as for `ggwrSelectBandwidth`. -/
noncomputable def ggwrSelectBandwidthEx (F : Family) (tol : ℝ) (maxIter : ℕ) (crit : GgwrCriterionType) (d' : CRSDistance) (b0 : BandwidthWeight)
    (x : Matrix (Fin n) (Fin k) ℝ) (y : Fin n → ℝ) (sched : ℕ → Exec n) : Res SearchResult :=
  (if b0.mAdaptive then Res.ok (n : ℝ) else d'.maxDistance).bind fun u =>
    let r := optimize b0 (if b0.mAdaptive then 20 else 0) u
      (fun j b => (true, ggwrScoreEx F tol maxIter crit d' x y b (sched j))) []
    if ∀ j e, r.evals[j]? = some e → ∃ v, ggwrCriterionEx F tol maxIter crit d' x y { b0 with mBandwidth := e.x } (sched j) = .ok v then .ok r
    else .throw .logic

/-- GWRGeneralized.cpp:20-155 `fit` with automatic bandwidth selection in any mode; `ex` is the loop of the fit itself. -/
noncomputable def ggwrAutoRunEx (F : Family) (tol : ℝ) (maxIter : ℕ) (crit : GgwrCriterionType) (d : CRSDistance) (b0 : BandwidthWeight)
    (coords : DynMat) (x : Matrix (Fin n) (Fin k) ℝ) (y : Fin n → ℝ) (sched : ℕ → Exec n) (ex : Exec n) : Res (BandwidthWeight × GgwrResult n k) :=
  (bindLocations d coords coords).bind fun d' => (ggwrSelectBandwidthEx F tol maxIter crit d' b0 x y sched).bind fun r => r.out.bind fun b =>
    (weightRows d' b n n).bind fun W => (ggwrFit F tol maxIter x y W ex).bind fun f => .ok (b, f)

end Verif.Model

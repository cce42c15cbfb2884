import Verif.Model.GWSS
import Verif.Model.GWPCA
import Verif.Model.GWRRun
import Verif.Model.GWRGeneralized

/-!
# Model of whole runs of `GWSS` and `GWPCA`, from coordinates to results

`CRSDistance` and `BandwidthWeight`; no stop requests.
-/

namespace Verif.Model
open Verif Matrix Classical

variable {n k p : ℕ}

/-- GWSS.cpp:190, 224: the weights are computed inside the parallel loop, which has no handler: an exception there ends the program. -/
def summaryEscape {α : Type*} : Exec n → Res α → Res α
  | .omp _, .throw _ => .ub
  | _, r => r

/-- GWSS.cpp:102-132, 176-208: the loop of the average mode chosen by `setParallelType` and `setGWSSMode` (GWSS.cpp:255-319). -/
noncomputable def gwAverageEx (ord : (Fin n → ℝ) → Equiv.Perm (Fin n)) (X : Fin n → Fin k → ℝ) (quantile : Bool) (W : Fin n → Fin n → ℝ) :
    Exec n → Res (Fin n → AvgRow k)
  | .serial => (gwAverageSerial ord X quantile W fun _ => false).bind fun r => .ok r.1
  | .omp evs => (gwAverageOmp ord X quantile W (fun _ => false) evs).bind fun r => .ok r.1

/-- GWSS.cpp:134-173, 213-252: the loop of the correlation mode. -/
noncomputable def gwCorrelationEx (ord : (Fin n → ℝ) → Equiv.Perm (Fin n)) (X : Fin n → Fin k → ℝ) (firstOnly : Bool) (W : Fin n → Fin n → ℝ) :
    Exec n → Res (Fin n → CorrRow k (corrCols k firstOnly))
  | .serial => (gwCorrelationSerial ord X firstOnly W fun _ => false).bind fun r => .ok r.1
  | .omp evs => (gwCorrelationOmp ord X firstOnly W (fun _ => false) evs).bind fun r => .ok r.1

/-- The tables of the average mode after the run: the rows filled in the loop, and the local coefficients of variation computed after it. -/
structure AvgTable (n k : ℕ) where
  rows : Fin n → AvgRow k
  lcv : Fin n → Fin k → Option ℝ

/-- GWSS.cpp:63-100 `run` in average mode. -/
noncomputable def gwssAverageRun (ord : (Fin n → ℝ) → Equiv.Perm (Fin n)) (d : CRSDistance) (b : BandwidthWeight) (coords : DynMat)
    (X : Fin n → Fin k → ℝ) (quantile : Bool) (ex : Exec n) : Res (AvgTable n k) :=
  (bindLocations d coords coords).bind fun d' => (summaryEscape ex (weightRows d' b n n)).bind fun W =>
    (gwAverageEx ord X quantile W ex).bind fun rows => .ok ⟨rows, fun i => lcv (rows i)⟩

/-- GWSS.cpp:63-100 `run` in correlation mode. With fewer than two variables the loop functions throw before any weight is computed (141, 172, 220, 251). -/
noncomputable def gwssCorrelationRun (ord : (Fin n → ℝ) → Equiv.Perm (Fin n)) (d : CRSDistance) (b : BandwidthWeight) (coords : DynMat)
    (X : Fin n → Fin k → ℝ) (firstOnly : Bool) (ex : Exec n) : Res (Fin n → CorrRow k (corrCols k firstOnly)) :=
  (bindLocations d coords coords).bind fun d' =>
    if k < 2 then .throw .runtime
    else (summaryEscape ex (weightRows d' b n n)).bind fun W => gwCorrelationEx ord X firstOnly W ex

/-- GWPCA.cpp:6-45 `run`. -/
noncomputable def gwpcaRun (svd : Matrix (Fin (n + 1)) (Fin p) ℝ → SvdOut p) (d : CRSDistance) (b : BandwidthWeight) (coords : DynMat)
    (x : Matrix (Fin (n + 1)) (Fin p) ℝ) (K : ℕ) : Res (PcaOut n p K) :=
  (bindLocations d coords coords).bind fun d' => (weightRows d' b (n + 1) (n + 1)).bind fun W => gwpca svd x W K

end Verif.Model

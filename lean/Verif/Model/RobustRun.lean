import Verif.Model.GWRRobust
import Verif.Model.GWRRun
import Verif.Model.GWRGeneralized

/-!
# Model of whole runs of `GWRRobust` (`CRSDistance`, no variable selection, no stop requests)
-/

namespace Verif.Model
open Verif Matrix Classical

variable {n k : ℕ}

/-- GWRRobust.cpp:129-222: `fitSerial` or, under a sequence of loop events, `fitOmp`. -/
noncomputable def robustFitEx (x : Matrix (Fin n) (Fin k) ℝ) (y : Fin n → ℝ) (W : Fin n → Fin n → ℝ) (sS : Bool) (mask : Fin n → ℝ) :
    Exec n → Res (FitAcc n k)
  | .serial => robustFit x y W sS mask
  | .omp evs => (fitCoreOmp x y (maskedW W mask) 0 sS false (fun _ => false) evs).bind fun a => .ok a.1

/-- GWRRobust.cpp:226-236 `regressionHatmatrix`; `filtered` is `mFiltered`. Simplification: fits with the same robust weights run under the same
schedule `sched`. -/
noncomputable def robustCali (filtered : Bool) (sched : (Fin n → ℝ) → Exec n) (x : Matrix (Fin n) (Fin k) ℝ) (y : Fin n → ℝ) (W : Fin n → Fin n → ℝ)
    (sS : Bool) : Res (FitAcc n k × List (Fin n → ℝ)) :=
  if filtered = true then caliFirst (fun mask => robustFitEx x y W sS mask (sched mask)) x y
  else caliSecond (fun mask => robustFitEx x y W sS mask (sched mask)) x y

/-- What a fit leaves behind. -/
structure RobustResult (n k : ℕ) where
  weight : BandwidthWeight
  betas : Matrix (Fin n) (Fin k) ℝ
  diagnostic : Diagnostic
  se : Fin n → Fin k → Res ℝ

/-- GWRRobust.cpp:79-89: calibration, diagnostics and standard errors for a weight that has been chosen. `d'` has its parameter already. -/
noncomputable def robustFinish (filtered : Bool) (sched : (Fin n → ℝ) → Exec n) (d' : CRSDistance) (b : BandwidthWeight) (x : Matrix (Fin n) (Fin k) ℝ)
    (y : Fin n → ℝ) (sS : Bool) : Res (RobustResult n k) :=
  (weightRows d' b n n).bind fun W => (robustCali filtered sched x y W sS).bind fun a =>
    .ok { weight := b, betas := a.1.betas, diagnostic := calcDiagnostic x y a.1.betas a.1.shat, se := betasSE x y a.1 }

/-- GWRRobust.cpp:31-105 `fit` with a given bandwidth. -/
noncomputable def robustRun (filtered : Bool) (sched : (Fin n → ℝ) → Exec n) (d : CRSDistance) (b : BandwidthWeight) (coords : DynMat)
    (x : Matrix (Fin n) (Fin k) ℝ) (y : Fin n → ℝ) (sS : Bool) : Res (RobustResult n k) :=
  (bindLocations d coords coords).bind fun d' => robustFinish filtered sched d' b x y sS

/-- GWRRobust.cpp:31-105 `fit` with automatic bandwidth selection, the criterion being computed in serial mode (`GWRBasic`, without robust weights;
the bounds are always the default ones, 65-66). -/
noncomputable def robustAutoRun (c : Crit) (filtered : Bool) (sched : (Fin n → ℝ) → Exec n) (d : CRSDistance) (b0 : BandwidthWeight) (coords : DynMat)
    (x : Matrix (Fin n) (Fin k) ℝ) (y : Fin n → ℝ) (sS : Bool) : Res (RobustResult n k) :=
  (bindLocations d coords coords).bind fun d' => (gwrSelectBandwidth c d' b0 none none x y).bind fun r => r.out.bind fun b =>
    robustFinish filtered sched d' b x y sS

/-- GWRRobust.cpp:107-127 `predict`: the same as `GWRBasic::predict`; `mPredictFunction` is `GWRBasic::predictSerial`. -/
noncomputable def robustPredict (d : CRSDistance) (b : BandwidthWeight) (locations coords : DynMat) (m : ℕ) (x : Matrix (Fin n) (Fin k) ℝ)
    (y : Fin n → ℝ) : Res (Matrix (Fin m) (Fin k) ℝ × Bool) :=
  gwrPredict d b locations coords m x y fun _ => false

end Verif.Model

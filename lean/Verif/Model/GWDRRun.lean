import Verif.Model.GWDR
import Verif.Model.GWRSelect
import Verif.Model.GWRGeneralized

/-!
# Model of `GWDR::fit` from coordinates to results

Every dimension has a `OneDimDistance` and a `BandwidthWeight`; no stop requests. GSL's simplex minimiser is a black box: for a starting point it
yields an arbitrary sequence of simplex sizes and errors and an arbitrary best point.
-/

namespace Verif.Model
open Verif Matrix Classical

variable {n k d : ℕ}

/-- GWDR.cpp:38-42: `makeParameter({ coords.col(m), coords.col(m) })`. -/
def gwdrDistance (c : Fin n → ℝ) : OneDimDistance := (OneDimDistance.makeParameter ⟨none⟩ [.vec (List.ofFn c), .vec (List.ofFn c)]).1

/-- SpatialWeight.h:380-383 `weightVector(i)` in one dimension. -/
noncomputable def gwdrWeightVector (b : BandwidthWeight) (c : Fin n → ℝ) (i : Fin n) : Res (Fin n → ℝ) :=
  ((gwdrDistance c).distance i).bind fun l => (rowToVec l n).bind fun dist => b.weight dist

/-- GWDR.cpp:219-224: the weight vectors of all dimensions at all locations. Simplification: computed before the loop over locations. -/
noncomputable def gwdrWeights (bws : Fin d → BandwidthWeight) (coords : Matrix (Fin n) (Fin d) ℝ) : Res (Fin n → List (Fin n → ℝ)) :=
  Res.tabulate n fun i => (Res.tabulate d fun m => gwdrWeightVector (bws m) (fun l => coords l m) i).bind fun w => .ok (List.ofFn w)

/-- An exception that leaves a parallel region ends the program. -/
def gwdrEscape : Exec n → Res α → Res α
  | .omp _, .throw _ => .ub
  | _, r => r

/-- GWDR.cpp:207-319: the fit in the chosen mode. -/
noncomputable def gwdrFitEx (x : Matrix (Fin n) (Fin k) ℝ) (y : Fin n → ℝ) (D : Fin n → List (Fin n → ℝ)) (sS : Bool) : Exec n → Res (FitAcc n k)
  | .serial => (gwdrFitSerial x y D sS fun _ => false).bind fun p => .ok p.1
  | .omp evs => (gwdrFitOmp x y D sS (fun _ => false) evs).bind fun p => .ok p.1

/-- What `fit` leaves behind: the weights, `mBetas`, `mDiagnostic` and `mBetasSE`. -/
structure GWDRResult (n k d : ℕ) where
  weights : Fin d → BandwidthWeight
  betas : Matrix (Fin n) (Fin k) ℝ
  diagnostic : Diagnostic
  se : Fin n → Fin k → Res ℝ

/-- GWDR.cpp:99-127: fit and diagnostics. The local R² computed at the end is dropped by the code. -/
noncomputable def gwdrFinish (ex : Exec n) (bws : Fin d → BandwidthWeight) (coords : Matrix (Fin n) (Fin d) ℝ) (x : Matrix (Fin n) (Fin k) ℝ)
    (y : Fin n → ℝ) (sS : Bool) : Res (GWDRResult n k d) :=
  (gwdrEscape ex (gwdrWeights bws coords)).bind fun D => (gwdrFitEx x y D sS ex).bind fun a =>
    .ok { weights := bws, betas := a.betas, diagnostic := calcDiagnostic x y a.betas a.shat, se := betasSE x y a }

/-- GWDR.cpp:70-80: the bandwidth from which the search starts. -/
noncomputable def gwdrStart (k : ℕ) (b : BandwidthWeight) (c : Fin n → ℝ) : Res BandwidthWeight :=
  (if b.mAdaptive = true then Res.ok ((k : ℝ) + 1) else (gwdrDistance c).minDistance).bind fun lower =>
  (if b.mAdaptive = true then Res.ok (n : ℝ) else (gwdrDistance c).maxDistance).bind fun upper =>
    .ok (if b.mBandwidth ≤ lower ∨ upper ≤ b.mBandwidth then { b with mBandwidth := upper * (618 / 1000) } else b)

/-- What GSL does from a starting point: whether the minimiser accepts it, the simplex sizes, the errors, the best point. -/
structure SimplexTrace (d : ℕ) where
  setOk : Bool
  size : ℕ → ℝ
  bad : ℕ → Bool
  best : Fin d → ℝ

/-- GWDR.cpp:67-97: the bandwidth step of `fit`, with `gsl` the behaviour of the minimiser. -/
noncomputable def gwdrBandwidths (gsl : (Fin d → ℝ) → SimplexTrace d) (eps : ℝ) (maxIter : ℕ) (bws : Fin d → BandwidthWeight)
    (coords : Matrix (Fin n) (Fin d) ℝ) (k : ℕ) : Res (Fin d → BandwidthWeight) :=
  (Res.tabulate d fun m => gwdrStart k (bws m) fun l => coords l m).bind fun b0 =>
    let t := gsl (startPoint n (fun m => (b0 m).mAdaptive) fun m => (b0 m).mBandwidth)
    if t.setOk = true ∧ (simplexRun t.size t.bad eps maxIter).2 = true then
      .ok fun m => { b0 m with mBandwidth := finalBandwidths n t.best m }
    else .throw .runtime

/-- GWDR.cpp:32-128 `fit` with given bandwidths. -/
noncomputable def gwdrRun (ex : Exec n) (bws : Fin d → BandwidthWeight) (coords : Matrix (Fin n) (Fin d) ℝ) (x : Matrix (Fin n) (Fin k) ℝ)
    (y : Fin n → ℝ) (sS : Bool) : Res (GWDRResult n k d) := gwdrFinish ex bws coords x y sS

/-- GWDR.cpp:32-128 `fit` with automatic selection of the bandwidths. -/
noncomputable def gwdrAutoRun (gsl : (Fin d → ℝ) → SimplexTrace d) (eps : ℝ) (maxIter : ℕ) (ex : Exec n) (bws : Fin d → BandwidthWeight)
    (coords : Matrix (Fin n) (Fin d) ℝ) (x : Matrix (Fin n) (Fin k) ℝ) (y : Fin n → ℝ) (sS : Bool) : Res (GWDRResult n k d) :=
  (gwdrBandwidths gsl eps maxIter bws coords k).bind fun b => gwdrFinish ex b coords x y sS

/-- GWDR.cpp:539-560, 594-600 (620-642, 679-686 in parallel mode): the variable criterion without weights. -/
noncomputable def gwdrGlobalCriterion (x : Matrix (Fin n) (Fin k) ℝ) (y : Fin n → ℝ) : ℝ :=
  match invSympd (xᵀ * x) with
  | .ok inv => criterionAIC x y false (.ok ((Matrix.of fun _ => inv *ᵥ (xᵀ *ᵥ y), ![∑ i, (x i ᵥ* (inv * xᵀ)) i, 0]), false))
  | _ => dblMax

/-- GWDR.cpp:561-600 (643-686 in parallel mode): the variable criterion with weights; a failure at any location gives `DBL_MAX`. -/
noncomputable def gwdrLocalCriterion (x : Matrix (Fin n) (Fin k) ℝ) (y : Fin n → ℝ) (D : Fin n → List (Fin n → ℝ)) : Exec n → ℝ
  | .serial =>
    criterionAIC x y false (serialFor (fun i => localFit x y (dimWeight (D i)) (x i)) shatUpd (fun _ => false) (List.finRange n) 0 (0, 0))
  | .omp (T := T) evs =>
    let s := ompRun (fun i => localFit x y (dimWeight (D i)) (x i)) shatUpdOmp (fun _ => false) evs ((0, 0) : Matrix (Fin n) (Fin k) ℝ × (Fin T → Fin 2 → ℝ))
    if s.success = true then criterionAIC x y false (.ok ((s.st.1, ∑ t, s.st.2 t), s.terminated)) else dblMax

/-- GWDR.cpp:523-688 `indepVarCriterionSerial`, `indepVarCriterionOmp`: `glob` if bandwidths are to be selected or one of them is 0. `sched` gives
the schedule of each call in parallel mode. -/
noncomputable def gwdrVarsCriterion (glob : Bool) (D : Fin n → List (Fin n → ℝ)) (sched : List ℕ → Exec n) (x : Matrix (Fin n) (Fin k) ℝ)
    (y : Fin n → ℝ) (hasIntercept : Bool) (vars : List ℕ) : Res ℝ :=
  (pickCols x (index2uvec vars hasIntercept)).bind fun x' =>
    .ok (if glob = true then gwdrGlobalCriterion x' y else gwdrLocalCriterion x' y D (sched vars))

/-- GWDR.cpp:44-65: the selection step, if bandwidths are given. -/
noncomputable def gwdrSelectVars (srt : List FModel → List FModel) (thr : ℝ) (sched : List ℕ → Exec n) (bws : Fin d → BandwidthWeight)
    (coords : Matrix (Fin n) (Fin d) ℝ) (x : Matrix (Fin n) (Fin k) ℝ) (y : Fin n → ℝ) (hasIntercept : Bool) : Res (Selected n) :=
  if ∃ m, (bws m).mBandwidth = 0 then selectVars (gwdrVarsCriterion true (fun _ => []) sched x y hasIntercept) srt thr x hasIntercept
  else (gwdrEscape (sched []) (gwdrWeights bws coords)).bind fun D =>
    selectVars (gwdrVarsCriterion false D sched x y hasIntercept) srt thr x hasIntercept

/-- GWDR.cpp:32-128 `fit` with automatic selection of variables and given bandwidths. -/
noncomputable def gwdrVarRun (srt : List FModel → List FModel) (thr : ℝ) (sched : List ℕ → Exec n) (ex : Exec n) (bws : Fin d → BandwidthWeight)
    (coords : Matrix (Fin n) (Fin d) ℝ) (x : Matrix (Fin n) (Fin k) ℝ) (y : Fin n → ℝ) (hasIntercept sS : Bool) :
    Res (Σ s : Selected n, GWDRResult n s.cols.length d) :=
  (gwdrSelectVars srt thr sched bws coords x y hasIntercept).bind fun s => (gwdrFinish ex bws coords s.x y sS).bind fun r => .ok ⟨s, r⟩

/-- GWDR.cpp:32-128 `fit` with both selections. -/
noncomputable def gwdrVarAutoRun (srt : List FModel → List FModel) (thr : ℝ) (sched : List ℕ → Exec n) (gsl : (Fin d → ℝ) → SimplexTrace d)
    (eps : ℝ) (maxIter : ℕ) (ex : Exec n) (bws : Fin d → BandwidthWeight) (coords : Matrix (Fin n) (Fin d) ℝ) (x : Matrix (Fin n) (Fin k) ℝ)
    (y : Fin n → ℝ) (hasIntercept sS : Bool) : Res (Σ s : Selected n, GWDRResult n s.cols.length d) :=
  (selectVars (gwdrVarsCriterion true (fun _ => []) sched x y hasIntercept) srt thr x hasIntercept).bind fun s =>
    (gwdrAutoRun gsl eps maxIter ex bws coords s.x y sS).bind fun r => .ok ⟨s, r⟩

end Verif.Model

import Verif.Model.GTWR
import Verif.Model.GWRBasicRun

/-!
# Model of whole runs of `GTWR` (`CRSSTDistance`, `BandwidthWeight`, no stop requests)
-/

namespace Verif.Model
open Verif Matrix Classical

variable {n k m : ℕ}

/-- GTWR.cpp:181-254: one evaluation of the criterion for a candidate bandwidth. A failing inverse gives DBL_MAX, and so do weights that are not finite,
which make the inverse fail or the value not finite; exceptions of the distance and of the kernel are not caught. The loops are those of
GWRBasic.cpp:291-394. `d'` has its parameter already. -/
noncomputable def gtwrCriterion (c : Crit) (d' : CRSSTDistance) (x : Matrix (Fin n) (Fin k) ℝ) (y : Fin n → ℝ) (b : BandwidthWeight) : Res ℝ :=
  match stWeightRows d' b n n with
  | .ok W =>
    match c with
    | .CV => .ok (criterionCV x y false (fitCoreCVSerial x y W 0 n (fun _ => false)))
    | .AIC => .ok (criterionAIC x y false (fitCoreSHatSerial x y W 0 n (fun _ => false)))
  | .nonfinite => .ok dblMax
  | .throw e => .throw e
  | .ub => .ub

/-- The value of a criterion that does not throw (GTWR.cpp:181-254). The value 0 for one that does is never used (`gtwrSelectBandwidth`). -/
noncomputable def gtwrScore (c : Crit) (d' : CRSSTDistance) (x : Matrix (Fin n) (Fin k) ℝ) (y : Fin n → ℝ) (b : BandwidthWeight) : ℝ :=
  match gtwrCriterion c d' x y b with
  | .ok v => v
  | _ => 0

/-- GTWR.cpp:37-56: the bandwidth search. Simplification: an exception in one of the evaluations ends the run here, without saying which. -/
noncomputable def gtwrSelectBandwidth (c : Crit) (d' : CRSSTDistance) (b0 : BandwidthWeight) (x : Matrix (Fin n) (Fin k) ℝ) (y : Fin n → ℝ) :
    Res SearchResult :=
  (gtwrBounds d' b0 n).bind fun lu =>
    let r := optimize b0 lu.1 lu.2 (fun _ b => (true, gtwrScore c d' x y b)) []
    if ∀ e ∈ r.evals, ∃ v, gtwrCriterion c d' x y { b0 with mBandwidth := e.x } = .ok v then .ok r else .throw .logic

/-- What a run reports: bandwidth, lambda, fit, diagnostics. -/
structure GtwrResult (n k : ℕ) where
  weight : BandwidthWeight
  lambda : ℝ
  acc : FitAcc n k
  diagnostic : Diagnostic

/-- GTWR.cpp:30-90 `fit`: bandwidth search if a criterion is given, then search for lambda if asked for, then fit and diagnostics (13-27, 75). -/
noncomputable def gtwrRun (crit : Option Crit) (autoLambda : Bool) (d : CRSSTDistance) (b0 : BandwidthWeight) (coords : DynMat) (times : List ℝ)
    (x : Matrix (Fin n) (Fin k) ℝ) (y : Fin n → ℝ) (sS : Bool) : Res (GtwrResult n k) :=
  (gtwrBind d coords times).bind fun d' =>
  (match crit with
    | none => Res.ok b0
    | some c => (gtwrSelectBandwidth c d' b0 x y).bind fun r => r.out).bind fun b =>
  (if autoLambda = true then gtwrLambdaFit d b coords times x y sS
    else (gtwrFit d b coords times x y sS (fun _ => false)).bind fun a => .ok (d.mLambda, a)).bind fun p =>
  .ok ⟨b, p.1, p.2.1, calcDiagnostic x y p.2.1.betas p.2.1.shat⟩

/-! ## Runs in any mode, with everything `fit` stores -/

/-- GTWR.cpp:70-78: the fit in the mode chosen by `setParallelType` (477-489; 141-179 or 320-374), diagnostics and standard errors, with a distance `d'`
that has its parameter. In parallel mode the weights are computed outside the handler. The local R² (82-90) is computed and dropped. `c` is not stored. -/
noncomputable def gtwrFinish (ex : Exec n) (d' : CRSSTDistance) (b : BandwidthWeight) (x : Matrix (Fin n) (Fin k) ℝ) (y : Fin n → ℝ) (sS : Bool) :
    Res (GWRReport n k) :=
  (summaryEscape ex (stWeightRows d' b n n)).bind fun W => (gwrCoreEx x y W sS false ex).bind fun a =>
    .ok { weight := b, betas := a.betas, diagnostic := calcDiagnostic x y a.betas a.shat, se := betasSE x y a, shat := a.shat, qdiag := a.qdiag,
          s := a.s, c := a.c }

/-- GTWR.cpp:58-69: the λ of the final fit, selected with the bandwidth `b` if asked for (serially in every mode: 496-538). -/
noncomputable def gtwrLambda (autoLambda : Bool) (d : CRSSTDistance) (b : BandwidthWeight) (coords : DynMat) (times : List ℝ)
    (x : Matrix (Fin n) (Fin k) ℝ) (y : Fin n → ℝ) : Res ℝ :=
  if autoLambda = true then (lambdaAutoSelection fun _ l => rsquareByLambda d b coords times x y (fun _ => false) l).bind fun r => .ok r.1
  else .ok d.mLambda

/-- GTWR.cpp:58-78: the λ, then the fit with it. A selected λ is stored by `setLambda` (67). -/
noncomputable def gtwrFinishLambda (autoLambda : Bool) (ex : Exec n) (d : CRSSTDistance) (b : BandwidthWeight) (coords : DynMat) (times : List ℝ)
    (x : Matrix (Fin n) (Fin k) ℝ) (y : Fin n → ℝ) (sS : Bool) : Res (ℝ × GWRReport n k) :=
  (gtwrLambda autoLambda d b coords times x y).bind fun l =>
    match if autoLambda = true then d.setLambda l else (d, .ok ()) with
    | (d1, .ok _) => (gtwrBind d1 coords times).bind fun d2 => (gtwrFinish ex d2 b x y sS).bind fun g => .ok (l, g)
    | (_, .throw e) => .throw e
    | (_, .ub) => .ub
    | (_, .nonfinite) => .nonfinite

/-- GTWR.cpp:30-90 `fit` in any mode. The bandwidth criteria are the serial ones in every mode (261-262). -/
noncomputable def gtwrRunEx (crit : Option Crit) (autoLambda : Bool) (ex : Exec n) (d : CRSSTDistance) (b0 : BandwidthWeight) (coords : DynMat)
    (times : List ℝ) (x : Matrix (Fin n) (Fin k) ℝ) (y : Fin n → ℝ) (sS : Bool) : Res (ℝ × GWRReport n k) :=
  (gtwrBind d coords times).bind fun d' =>
  (match crit with
    | none => Res.ok b0
    | some c => (gtwrSelectBandwidth c d' b0 x y).bind fun r => r.out).bind fun b =>
  gtwrFinishLambda autoLambda ex d b coords times x y sS

end Verif.Model

import Verif.Model.GWRRun

/-!
# Model of `GTWR`: geographically and temporally weighted regression

The space-time distance is the one of `Model/Distance` (`CRSSTDistance`), the kernel the one of `Model/Kernel`, and the loops over
the observations are those of `Model/GWRBasic`: GTWR.cpp:141-179 `fitSerial` and 320-374 `fitOmp` repeat GWRBasic.cpp:246-289 and
456-514 without the `C` matrices and over all observations; 116-139 `predictSerial` and 285-318 `predictOmp` repeat
GWRBasic.cpp:209-233 and 422-454.
-/

namespace Verif.Model
open Verif Matrix Classical

variable {n k m T : ℕ}

/-- GTWR.cpp:107-113 `createDistanceParameter`: `makeParameter({ mCoords, mCoords, vTimes, vTimes })`. -/
def gtwrBind (d : CRSSTDistance) (coords : DynMat) (times : List ℝ) : Res CRSSTDistance :=
  match d.makeParameter [.mat coords, .mat coords, .vec times, .vec times] with
  | (d', .ok _) => .ok d'
  | (_, .throw e) => .throw e
  | (_, .ub) => .ub
  | (_, .nonfinite) => .nonfinite

/-- SpatialWeight.h:380-383 `weightVector(i)` with a space-time distance. -/
noncomputable def stWeightVector (d : CRSSTDistance) (b : BandwidthWeight) (n : ℕ) (i : ℕ) : Res (Fin n → ℝ) :=
  (d.distance i).bind fun l => (rowToVec l n).bind fun dist => b.weight dist

/-- All weight vectors of `m` locations; same simplification as `weightRows`. -/
noncomputable def stWeightRows (d : CRSSTDistance) (b : BandwidthWeight) (n m : ℕ) : Res (Fin m → Fin n → ℝ) :=
  Res.tabulate m fun i => stWeightVector d b n i

/-- GTWR.cpp:30-90 `fit` without automatic selections. -/
noncomputable def gtwrFit (d : CRSSTDistance) (b : BandwidthWeight) (coords : DynMat) (times : List ℝ)
    (x : Matrix (Fin n) (Fin k) ℝ) (y : Fin n → ℝ) (sS : Bool) (stop : ℕ → Bool) : Res (FitAcc n k × Bool) :=
  (gtwrBind d coords times).bind fun d' => (stWeightRows d' b n n).bind fun W => fitCoreSerial x y W 0 n sS false stop

/-- GTWR.cpp:92-105 `predict` and `createPredictionDistanceParameter`: the parameter is made from `mCoords` and `vTimes` on both
sides; of `locations` only the number of rows `m` is used. -/
noncomputable def gtwrPredict (d : CRSSTDistance) (b : BandwidthWeight) (locations : DynMat) (coords : DynMat) (times : List ℝ)
    (x : Matrix (Fin n) (Fin k) ℝ) (y : Fin n → ℝ) (stop : ℕ → Bool) :
    Res (Matrix (Fin locations.nRows) (Fin k) ℝ × Bool) :=
  (gtwrBind d coords times).bind fun d' => (stWeightRows d' b n locations.nRows).bind fun W => predictSerial x y W stop

/-- GTWR.cpp:40-41: bounds of the automatic bandwidth search, 20 and `n` if adaptive, 0 and the largest distance if fixed. -/
noncomputable def gtwrBounds (d' : CRSSTDistance) (b0 : BandwidthWeight) (n : ℕ) : Res (ℝ × ℝ) :=
  if b0.mAdaptive then .ok (20, n) else d'.maxDistance.bind fun u => .ok (0, u)

/-- GTWR.cpp:496-538 `RsquareByLambda`: set lambda, remake the parameter, fit every observation, return R². The result also says
whether a stop request ended the loop, in which case the value is 0. `none` is a value that is not finite: with a constant
response `yss = 0`. A failing inverse is rethrown. -/
noncomputable def rsquareByLambda (d : CRSSTDistance) (b : BandwidthWeight) (coords : DynMat) (times : List ℝ)
    (x : Matrix (Fin n) (Fin k) ℝ) (y : Fin n → ℝ) (stop : ℕ → Bool) (lambda : ℝ) : Res (Bool × Option ℝ) :=
  match d.setLambda lambda with
  | (d1, .ok _) =>
    (gtwrBind d1 coords times).bind fun d' => (stWeightRows d' b n n).bind fun W => (predictSerial x y W stop).bind fun p =>
      .ok (p.2, if p.2 then some 0
        else ((fdiv (rss x y p.1) (∑ i, (y i - meanVec y) * (y i - meanVec y))).bind fun q => .ok (1 - q)).toOption)
  | (_, .throw e) => .throw e
  | (_, .ub) => .ub
  | (_, .nonfinite) => .nonfinite

/-! ## The search for lambda -/

/-- The local variables of GTWR.cpp:565-578. `sm` is whether all four statuses are `Success`. `none` is a value of R² that is not
finite. `evals` records the values of lambda at which R² was evaluated, in order (not in the code). -/
structure LambdaState where
  a : ℝ
  b : ℝ
  p : ℝ
  q : ℝ
  fa : Option ℝ
  fb : Option ℝ
  fp : Option ℝ
  fq : Option ℝ
  sm : Bool
  evals : List ℝ

/-- GTWR.cpp:567 `ratio = (sqrt(5) - 1) / 2`. -/
noncomputable def lambdaRatio : ℝ := (√5 - 1) / 2

/-- GTWR.cpp:580 `abs(f_a - f_b) >= eps`. R² is not finite only if the response is constant; then it is not finite at any lambda,
the difference is NaN and the comparison false. -/
def lambdaApart (fa fb : Option ℝ) : Prop :=
  match fa, fb with
  | some u, some v => |u - v| ≥ 1e-12
  | _, _ => False

/-- GTWR.cpp:582 `f_p > f_q`. -/
def lambdaGt (fp fq : Option ℝ) : Prop :=
  match fp, fq with
  | some u, some v => u > v
  | _, _ => False

/-- GTWR.cpp:582-599 the body of the loop. `R j l` is the outcome of the `j`-th evaluation of R², at lambda `l`: whether the run is
terminated, and the value. The status of the point that was moved without being evaluated stays in its place; since a status
that is not `Success` ends the loop, and never becomes `Success` again, only whether all four are `Success` matters. -/
noncomputable def lambdaStep (R : ℕ → ℝ → Res (Bool × Option ℝ)) (s : LambdaState) : Res LambdaState :=
  if lambdaGt s.fp s.fq then
    let b := s.q
    let p := s.a + (1 - lambdaRatio) * (b - s.a)
    (R s.evals.length p).bind fun r =>
      .ok { a := s.a, b := b, p := p, q := s.p, fa := s.fa, fb := s.fq, fp := r.2, fq := s.fp, sm := s.sm && !r.1,
            evals := s.evals ++ [p] }
  else
    let a := s.p
    let q := a + lambdaRatio * (s.b - a)
    (R s.evals.length q).bind fun r =>
      .ok { a := a, b := s.b, p := s.q, q := q, fa := s.fp, fb := s.fb, fp := s.fq, fq := r.2, sm := s.sm && !r.1,
            evals := s.evals ++ [q] }

/-- GTWR.cpp:580 the loop; the first argument is `max_iter - iter`. -/
noncomputable def lambdaLoop (R : ℕ → ℝ → Res (Bool × Option ℝ)) : ℕ → LambdaState → Res LambdaState
  | 0, s => .ok s
  | fuel + 1, s => if s.sm = true ∧ lambdaApart s.fa s.fb then (lambdaStep R s).bind (lambdaLoop R fuel) else .ok s

/-- GTWR.cpp:565-578: the four evaluations before the loop, in the order a, b, p, q. -/
noncomputable def lambdaInit (R : ℕ → ℝ → Res (Bool × Option ℝ)) : Res LambdaState :=
  let p := (1 - lambdaRatio) * 1
  let q := lambdaRatio * 1
  (R 0 0).bind fun ra => (R 1 1).bind fun rb => (R 2 p).bind fun rp => (R 3 q).bind fun rq =>
    .ok { a := 0, b := 1, p := p, q := q, fa := ra.2, fb := rb.2, fp := rp.2, fq := rq.2,
          sm := !ra.1 && !rb.1 && !rp.1 && !rq.1, evals := [0, 1, p, q] }

/-- GTWR.cpp:540-607 `LambdaAutoSelection`: the selected lambda and the final state. -/
noncomputable def lambdaAutoSelection (R : ℕ → ℝ → Res (Bool × Option ℝ)) : Res (ℝ × LambdaState) :=
  (lambdaInit R).bind fun s0 => (lambdaLoop R 100 s0).bind fun s => .ok (if s.sm = true then (s.b + s.a) / 2 else 0, s)

/-- GTWR.cpp:30-90 `fit` with automatic selection of lambda and a given bandwidth, without stop requests: search, store lambda
(GTWR.cpp:58-69), fit. Also returns lambda. The last evaluation left the parameter made from the same coordinates and times. -/
noncomputable def gtwrLambdaFit (d : CRSSTDistance) (b : BandwidthWeight) (coords : DynMat) (times : List ℝ)
    (x : Matrix (Fin n) (Fin k) ℝ) (y : Fin n → ℝ) (sS : Bool) : Res (ℝ × FitAcc n k × Bool) :=
  (lambdaAutoSelection fun _ l => rsquareByLambda d b coords times x y (fun _ => false) l).bind fun r =>
    match d.setLambda r.1 with
    | (d1, .ok _) => (gtwrFit d1 b coords times x y sS (fun _ => false)).bind fun a => .ok (r.1, a)
    | (_, .throw e) => .throw e
    | (_, .ub) => .ub
    | (_, .nonfinite) => .nonfinite

end Verif.Model

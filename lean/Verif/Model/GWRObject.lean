import Verif.Model.GWRBasicRun

/-!
# Model of a `GWRBasic` object over its whole life: status, stop requests, repeated runs

Serial or multithreaded mode, `CRSDistance`, `BandwidthWeight`, no automatic selection of variables (its effect on later runs is in
`Model/GWRSelect`), no GPU, no MPI. Members that no later run reads (`mBetas`, `mSHat`, ...) are part of what a run returns.
-/

namespace Verif.Model
open Verif Matrix Classical

variable {n k m : ℕ} {α β : Type*}

/-- The members that one run leaves to the next: `mStatus` (Algorithm.h:216; is it `Terminated`), and the two parts of `mSpatialWeight`. -/
structure GWRObj where
  terminated : Bool
  weight : BandwidthWeight
  distance : CRSDistance

/-- Part of a run: it changes the object and returns or throws. -/
abbrev ObjRun (α : Type*) := GWRObj → GWRObj × Res α

/-- Return without a change. -/
def ObjRun.ret (a : α) : ObjRun α := fun o => (o, .ok a)

/-- One part after another; an exception ends the run and the changes made so far stay. -/
def ObjRun.bind (p : ObjRun α) (f : α → ObjRun β) : ObjRun β := fun o =>
  match p o with
  | (o', .ok a) => f a o'
  | (o', .throw e) => (o', .throw e)
  | (o', .ub) => (o', .ub)
  | (o', .nonfinite) => (o', .nonfinite)

/-- Algorithm.h:85 `GWM_LOG_STOP_RETURN`: the answer of `mTelegram->stop()`; if yes, the status becomes `Terminated`. No code sets it back
to `Success`. -/
def objPoll (answer : Bool) : ObjRun Bool := fun o => ({ o with terminated := o.terminated || answer }, .ok answer)

/-- SpatialMonoscaleAlgorithm.cpp:5-12 `createDistanceParameter`, GWRBasic.cpp:200-207: the parameter stays in the distance. -/
def objBind (locations coords : DynMat) : ObjRun Unit := fun o =>
  match o.distance.makeParameter [.mat locations, .mat coords] with
  | (d', .ok _) => ({ o with distance := d' }, .ok ())
  | (d', .throw e) => ({ o with distance := d' }, .throw e)
  | (d', .ub) => ({ o with distance := d' }, .ub)
  | (d', .nonfinite) => ({ o with distance := d' }, .nonfinite)

/-- Whether a loop of the serial mode saw a stop request; a loop ended by an exception did not. -/
def sawStop : Res (α × Bool) → Bool
  | .ok p => p.2
  | _ => false

/-- GWRBasic.cpp:291-316: the loop of the cross-validation in serial mode, with the weights computed in it. -/
noncomputable def cvLoop (d' : CRSDistance) (b : BandwidthWeight) (x : Matrix (Fin n) (Fin k) ℝ) (y : Fin n → ℝ) (stop : ℕ → Bool) :
    Res (Matrix (Fin n) (Fin k) ℝ × Bool) :=
  serialFor (fun i : Fin n => (weightVector d' b n i).bind fun w => localBeta x y (Function.update w i 0)) setRow stop (workRange n 0 n) 0 0

/-- GWRBasic.cpp:318-347: the loop of the Akaike criterion in serial mode. -/
noncomputable def aicLoop (d' : CRSDistance) (b : BandwidthWeight) (x : Matrix (Fin n) (Fin k) ℝ) (y : Fin n → ℝ) (stop : ℕ → Bool) :
    Res ((Matrix (Fin n) (Fin k) ℝ × (Fin 2 → ℝ)) × Bool) :=
  serialFor (fun i : Fin n => (weightVector d' b n i).bind fun w => localFit x y w (x i)) shatUpd stop (workRange n 0 n) 0 (0, 0)

/-- GWRBasic.cpp:349-394 (with 291-347 or 516-584): one evaluation of the criterion when the status is Terminated or not (`term0`) and the polls in
its loop are answered by `stop`. Returns whether the status is Terminated afterwards, and the value. Simplification as in
`gwrCriterionOmp`: in parallel mode an exception from the weights only clears the flag. -/
noncomputable def objCriterion (c : Crit) (d' : CRSDistance) (x : Matrix (Fin n) (Fin k) ℝ) (y : Fin n → ℝ) (b : BandwidthWeight)
    (term0 : Bool) (stop : ℕ → Bool) : Exec n → Bool × ℝ
  | .serial =>
    match c with
    | .CV => (term0 || sawStop (cvLoop d' b x y stop), criterionCV x y term0 (cvLoop d' b x y stop))
    | .AIC => (term0 || sawStop (aicLoop d' b x y stop), criterionAIC x y term0 (aicLoop d' b x y stop))
  | .omp evs =>
    match c with
    | .CV =>
      let s := ompRun (fun i : Fin n => (weightVector d' b n i).bind fun w => localBeta x y (Function.update w i 0)) (fun _ => setRow) stop evs 0
      (term0 || s.terminated, criterionCV x y term0 (.ok (s.st, s.terminated)))
    | .AIC =>
      let s := ompRun (fun i : Fin n => (weightVector d' b n i).bind fun w => localFit x y w (x i)) shatUpdOmp stop evs (0, 0)
      (term0 || s.terminated, criterionAIC x y term0 (.ok ((s.st.1, ∑ t, s.st.2 t), s.terminated)))

/-- GWRBasic.cpp:246-289: the loop of the fit in serial mode, with the weights computed in it. -/
noncomputable def fitLoop (d' : CRSDistance) (b : BandwidthWeight) (x : Matrix (Fin n) (Fin k) ℝ) (y : Fin n → ℝ) (sS sC : Bool) (stop : ℕ → Bool) :
    Res (FitAcc n k × Bool) :=
  serialFor (fun i : Fin n => (weightVector d' b n i).bind fun w => localFit x y w (x i)) (fitUpd 0 sS sC) stop (workRange n 0 n) 0 .zero

/-- Whether the loop of GWRBasic.cpp:456-514 saw a stop request, and what it computed. -/
noncomputable def fitLoopOmp {T : ℕ} (x : Matrix (Fin n) (Fin k) ℝ) (y : Fin n → ℝ) (W : Fin n → Fin n → ℝ) (sS sC : Bool) (stop : ℕ → Bool)
    (evs : List (OmpEv (Fin n) (Fin T))) : Bool × Res (FitAcc n k) :=
  ((ompRun (fun i => localFit x y (W i) (x i)) (fitUpdOmp 0 sS sC) stop evs FitAccOmp.zero).terminated,
    (fitCoreOmp x y W 0 sS sC stop evs).bind fun p => .ok p.1)

/-- GWRBasic.cpp:246-289 or 456-514: whether the loop saw a stop request, and what it computed. Simplification in parallel mode: all weights are
computed before the loop, an exception there ends the program (the code does not reach the locations after a stop request). -/
noncomputable def objCore (d' : CRSDistance) (b : BandwidthWeight) (x : Matrix (Fin n) (Fin k) ℝ) (y : Fin n → ℝ) (sS sC : Bool) (stop : ℕ → Bool) :
    Exec n → Bool × Res (FitAcc n k)
  | .serial => (sawStop (fitLoop d' b x y sS sC stop), (fitLoop d' b x y sS sC stop).bind fun p => .ok p.1)
  | .omp evs =>
    match weightRows d' b n n with
    | .ok W => fitLoopOmp x y W sS sC stop evs
    | .nonfinite => (false, .nonfinite)
    | _ => (false, .ub)

/-- One call of `fit`: the data and settings in force, how the loops run, and the answers to the polls for stop requests (at GWRBasic.cpp:110;
in the loop of the `j`-th evaluation of the criterion; at 156; in the loop of the fit). -/
structure FitCall (n k : ℕ) where
  coords : DynMat
  x : Matrix (Fin n) (Fin k) ℝ
  y : Fin n → ℝ
  sS : Bool
  sC : Bool
  auto : Option Crit
  lower : Option ℝ
  upper : Option ℝ
  sched : ℕ → Exec n
  ex : Exec n
  pollInit : Bool
  pollCrit : ℕ → ℕ → Bool
  pollMid : Bool
  pollCore : ℕ → Bool

/-- What `fit` returns: the matrix of zeros of GWRBasic.cpp:110, 156 with all members as they were, or what it reports. -/
inductive FitOut (n k : ℕ)
  | zeros
  | full (search : Option SearchResult) (report : GWRReport n k)

/-- GWRBasic.cpp:135-156, GWRBasic.h:428-432: the search of `fit`. The status after an evaluation is what `getCriterion` returns. Simplification: after
a stop request in the first evaluation the second one is recorded with the status of its own loop only; the search ends in either case. -/
noncomputable def objSearch (c : FitCall n k) (cr : Crit) (o : GWRObj) (u : ℝ) : SearchResult :=
  optimize o.weight (c.lower.getD (if o.weight.mAdaptive then 20 else 0)) u
    (fun j b => (!(objCriterion cr o.distance c.x c.y b o.terminated (c.pollCrit j) (c.sched j)).1,
      (objCriterion cr o.distance c.x c.y b o.terminated (c.pollCrit j) (c.sched j)).2)) []

/-- The weight after the search: GWRBasic.cpp:145-148; `setWeight` with the own weight does nothing (SpatialWeight.h:172). -/
def afterSearch (w : BandwidthWeight) : Res BandwidthWeight → BandwidthWeight
  | .ok b => b
  | _ => w

/-- GWRBasic.cpp:135-156: the selection of the bandwidth, if there is one. -/
noncomputable def objSelect (c : FitCall n k) : ObjRun (Option SearchResult) :=
  match c.auto with
  | none => ObjRun.ret none
  | some cr => fun o =>
    match gwrUpper o.distance o.weight n c.upper with
    | .ok u =>
      ({ o with terminated := o.terminated || (objSearch c cr o u).evals.any fun e => !e.success
                weight := afterSearch o.weight (objSearch c cr o u).out },
        (objSearch c cr o u).out.bind fun _ => .ok (some (objSearch c cr o u)))
    | .throw e => (o, .throw e)
    | .ub => (o, .ub)
    | .nonfinite => (o, .nonfinite)

/-- GWRBasic.cpp:235-244 `fitBase`. -/
noncomputable def objFinish (c : FitCall n k) : ObjRun (GWRReport n k) := fun o =>
  ({ o with terminated := o.terminated || (objCore o.distance o.weight c.x c.y c.sS c.sC c.pollCore c.ex).1 },
    (objCore o.distance o.weight c.x c.y c.sS c.sC c.pollCore c.ex).2.bind fun a =>
      .ok { weight := o.weight, betas := a.betas, diagnostic := calcDiagnostic c.x c.y a.betas a.shat, se := betasSE c.x c.y a, shat := a.shat,
            qdiag := a.qdiag, s := a.s, c := a.c })

/-- GWRBasic.cpp:62-170 `fit`. -/
noncomputable def objFit (c : FitCall n k) : ObjRun (FitOut n k) :=
  (objBind c.coords c.coords).bind fun _ => (objPoll c.pollInit).bind fun s1 =>
    if s1 = true then ObjRun.ret .zeros
    else (objSelect c).bind fun r => (objPoll (c.auto.isSome && c.pollMid)).bind fun s2 =>
      if s2 = true then ObjRun.ret .zeros
      else (objFinish c).bind fun g => ObjRun.ret (.full r g)

/-- One call of `predict` at `m` locations, with the answers to the polls (at GWRBasic.cpp:184, in the loop, at 188). -/
structure PredictCall (n k m : ℕ) where
  locations : DynMat
  coords : DynMat
  x : Matrix (Fin n) (Fin k) ℝ
  y : Fin n → ℝ
  ex : Exec m
  pollInit : Bool
  pollCore : ℕ → Bool
  pollEnd : Bool

/-- GWRBasic.cpp:209-233: the loop of the prediction in serial mode. -/
noncomputable def predictLoop (d' : CRSDistance) (b : BandwidthWeight) (x : Matrix (Fin n) (Fin k) ℝ) (y : Fin n → ℝ) (stop : ℕ → Bool) :
    Res (Matrix (Fin m) (Fin k) ℝ × Bool) :=
  serialFor (fun i : Fin m => (weightVector d' b n i).bind fun w => localBeta x y w) setRow stop (List.finRange m) 0 0

/-- GWRBasic.cpp:209-233 or 422-454: whether the loop saw a stop request, and what it computed. Simplification as in `objCore`. -/
noncomputable def objPredictCore (d' : CRSDistance) (b : BandwidthWeight) (x : Matrix (Fin n) (Fin k) ℝ) (y : Fin n → ℝ) (stop : ℕ → Bool) :
    Exec m → Bool × Res (Matrix (Fin m) (Fin k) ℝ)
  | .serial => (sawStop (predictLoop (m := m) d' b x y stop), (predictLoop d' b x y stop).bind fun p => .ok p.1)
  | .omp evs =>
    match weightRows d' b n m with
    | .ok W => ((ompRun (fun i => localBeta x y (W i)) (fun _ => setRow) stop evs 0).terminated,
        (predictOmp x y W stop evs).bind fun p => .ok p.1)
    | .nonfinite => (false, .nonfinite)
    | _ => (false, .ub)

/-- GWRBasic.cpp:172-198 `predict`: the coefficients returned, with their number of rows. The zeros of a cancelled prediction have a row per observation
(175, 184, 188). -/
noncomputable def objPredict (c : PredictCall n k m) : ObjRun (Σ r : ℕ, Matrix (Fin r) (Fin k) ℝ) :=
  (objBind c.locations c.coords).bind fun _ => (objPoll c.pollInit).bind fun s1 =>
    if s1 = true then ObjRun.ret ⟨n, 0⟩
    else ObjRun.bind (fun o => ({ o with terminated := o.terminated || (objPredictCore (m := m) o.distance o.weight c.x c.y c.pollCore c.ex).1 },
        (objPredictCore o.distance o.weight c.x c.y c.pollCore c.ex).2)) fun B =>
      (objPoll c.pollEnd).bind fun s2 => if s2 = true then ObjRun.ret ⟨n, 0⟩ else ObjRun.ret ⟨m, B⟩

/-- A call on the object. Data may change from run to run (`setX` etc.), so their sizes belong to the call. `setSpatialWeight` replaces both parts. -/
inductive ObjCall
  | fit (n k : ℕ) (c : FitCall n k)
  | predict (n k m : ℕ) (c : PredictCall n k m)
  | setSpatialWeight (b : BandwidthWeight) (d : CRSDistance)

/-- The object after a call, which may have thrown. -/
noncomputable def objStep (o : GWRObj) : ObjCall → GWRObj
  | .fit _ _ c => (objFit c o).1
  | .predict _ _ _ c => (objPredict c o).1
  | .setSpatialWeight b d => { o with weight := b, distance := d }

/-- The object after a sequence of calls. -/
noncomputable def objAfter (o : GWRObj) (calls : List ObjCall) : GWRObj := calls.foldl objStep o

/-- A new object: Algorithm.h:216 initialises the status. -/
def GWRObj.new (b : BandwidthWeight) (d : CRSDistance) : GWRObj := ⟨false, b, d⟩

end Verif.Model

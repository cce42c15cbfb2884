import Verif.Model.GWRBasic
import Verif.Model.GWRRun

/-!
# Model of `GWRMultiscale`: back-fitting with one bandwidth per variable

Serial and OpenMP variants, one process, no GPU. The weights of variable `i` at location `j` for a bandwidth are an arbitrary
function `wt`, computed by the spatial weight of that variable (`Model/Kernel`, `Model/Distance`).
-/

namespace Verif.Model
open Verif Matrix Classical

variable {n k T : ℕ}

/-- GWRMultiscale.h:52-57 `BandwidthInitilizeType`. -/
inductive InitType
  | Null | Initial | Specified
  deriving DecidableEq

/-- GWRMultiscale.h:83-87 `BackFittingCriterionType`. -/
inductive BackFitCrit
  | CVR | dCVR
  deriving DecidableEq

/-- `mX.col(i)` as a design with one column. -/
def colOf (x : Matrix (Fin n) (Fin k) ℝ) (i : Fin k) : Matrix (Fin n) (Fin 1) ℝ := Matrix.of fun j _ => x j i

/-- GWRMultiscale.cpp:88-94: predictors are centred, except column 0 if there is an intercept. -/
noncomputable def centrePredictors (hasIntercept : Bool) (centred : Fin k → Bool) (x : Matrix (Fin n) (Fin k) ℝ) :
    Matrix (Fin n) (Fin k) ℝ :=
  Matrix.of fun j i =>
    if (hasIntercept = true → 1 ≤ i.val) ∧ centred i = true then x j i - (∑ l, x l i) / n else x j i

/-! ## Fitting one variable -/

/-- What the loop over locations of `fitVarCore…` holds: coefficients, hat rows and the `success` flag. -/
structure VarAcc (n : ℕ) where
  beta : Fin n → ℝ
  S : Matrix (Fin n) (Fin n) ℝ
  success : Bool

/-- GWRMultiscale.cpp:492-501: zero-filled results. -/
def VarAcc.zero : VarAcc n := ⟨0, 0, true⟩

/-- GWRMultiscale.cpp:509-522: the writes of one location, or the failure noted. -/
def varUpd (i : Fin n) (r : Res (LocalFit n 1)) (a : VarAcc n) : VarAcc n :=
  match r with
  | .ok lf => { a with beta := Function.update a.beta i (lf.beta 0), S := Function.update a.S i lf.si }
  | _ => { a with success := false }

/-- GWRMultiscale.cpp:489-553 `fitVarCoreSerial`. A location that fails does not end the loop; the exception is thrown at the
end. Without hat matrix the code computes the same coefficients and leaves `S` alone; the model computes `S` in any case and the
caller ignores it. -/
noncomputable def fitVarCoreSerial (x : Matrix (Fin n) (Fin 1) ℝ) (y : Fin n → ℝ) (W : Fin n → Fin n → ℝ) (stop : ℕ → Bool) :
    Res ((Fin n → ℝ) × Matrix (Fin n) (Fin n) ℝ) :=
  (serialFor (fun i => Res.ok (localFit x y (W i) (x i))) varUpd stop (List.finRange n) 0 VarAcc.zero).bind fun p =>
    if p.1.success = true then .ok (p.1.beta, p.1.S) else .throw .runtime

/-- GWRMultiscale.cpp:615-680 `fitVarCoreOmp` under a sequence of loop events. -/
noncomputable def fitVarCoreOmp (x : Matrix (Fin n) (Fin 1) ℝ) (y : Fin n → ℝ) (W : Fin n → Fin n → ℝ) (stop : ℕ → Bool)
    (evs : List (OmpEv (Fin n) (Fin T))) : Res ((Fin n → ℝ) × Matrix (Fin n) (Fin n) ℝ) :=
  let s := ompRun (fun i => Res.ok (localFit x y (W i) (x i))) (fun _ => varUpd) stop evs VarAcc.zero
  if s.st.success = true then .ok (s.st.beta, s.st.S) else .throw .runtime

/-- GWRMultiscale.cpp:400-421 with 555-583: the cross-validation criterion of one variable, as in `GWRBasic` with a design of one
column. -/
noncomputable def varCriterionCV (x : Matrix (Fin n) (Fin 1) ℝ) (y : Fin n → ℝ) (W : Fin n → Fin n → ℝ) : ℝ :=
  criterionCV x y false (fitCoreCVSerial x y W 0 n (fun _ => false))

/-- GWRMultiscale.cpp:423-444 with 585-611: the AICc criterion of one variable. -/
noncomputable def varCriterionAIC (x : Matrix (Fin n) (Fin 1) ℝ) (y : Fin n → ℝ) (W : Fin n → Fin n → ℝ) : ℝ :=
  criterionAIC x y false (fitCoreSHatSerial x y W 0 n (fun _ => false))

/-! ## Back-fitting -/

/-- The settings back-fitting reads. -/
structure MgwrCfg (n k : ℕ) where
  x : Matrix (Fin n) (Fin k) ℝ
  y : Fin n → ℝ
  wt : Fin k → BandwidthWeight → Fin n → Fin n → ℝ
  hasHat : Bool
  threshold : Fin k → ℝ
  retry : ℕ
  critType : BackFitCrit
  critThreshold : ℝ
  maxIter : ℕ

/-- Everything back-fitting does not control: the answers to the stop polls (GWRMultiscale.cpp:311, 315, 365 and inside the loop
over locations) and the outcome of the bandwidth search in iteration `it` for variable `i`, given the partial residuals and the
current weight. -/
structure BfEnv (n k : ℕ) where
  stopIter : ℕ → Bool
  stopVar : ℕ → Fin k → Bool
  stopFit : ℕ → Fin k → Bool
  stopLoc : ℕ → Fin k → ℕ → Bool
  select : ℕ → Fin k → (Fin n → ℝ) → BandwidthWeight → Res BandwidthWeight

/-- The variables of `backfitting` and the members it writes. `moves i` is a ghost log of the changes of the bandwidth of
variable `i`, latest first. -/
structure BfState (n k : ℕ) where
  betas : Matrix (Fin n) (Fin k) ℝ
  resid : Fin n → ℝ
  s0 : Matrix (Fin n) (Fin n) ℝ
  sArr : Fin k → Matrix (Fin n) (Fin n) ℝ
  init : Fin k → InitType
  changeNo : Fin k → ℕ
  bw : Fin k → BandwidthWeight
  moves : Fin k → List ℝ

/-- GWRMultiscale.cpp:331-359: bookkeeping after the search returned `b` for variable `i`. -/
noncomputable def bfSelect (c : MgwrCfg n k) (i : Fin k) (b : BandwidthWeight) (s : BfState n k) : BfState n k :=
  let d := |b.mBandwidth - (s.bw i).mBandwidth|
  let s := { s with moves := Function.update s.moves i (d :: s.moves i), bw := Function.update s.bw i b }
  if d > c.threshold i then { s with changeNo := Function.update s.changeNo i 0 }
  else
    let s := { s with changeNo := Function.update s.changeNo i (s.changeNo i + 1) }
    if s.changeNo i ≥ c.retry then { s with init := Function.update s.init i .Specified } else s

/-- GWRMultiscale.cpp:387-398 `fitVarBase` after the fit, and 367-371. -/
def bfStore (c : MgwrCfg n k) (i : Fin k) (beta : Fin n → ℝ) (S : Matrix (Fin n) (Fin n) ℝ) (s : BfState n k) : BfState n k :=
  let sArrayi := s.sArr i - s.s0
  let slice := S * sArrayi + S
  let betas : Matrix (Fin n) (Fin k) ℝ := Matrix.of fun j m => if m = i then beta j else s.betas j m
  { s with
    betas := betas
    resid := fun j => c.y j - fitted c.x betas j
    sArr := if c.hasHat then Function.update s.sArr i slice else s.sArr
    s0 := if c.hasHat then slice - sArrayi else s.s0 }

/-- GWRMultiscale.cpp:317-319 `mYi`: the partial residuals of variable `i`. -/
def partialResid (c : MgwrCfg n k) (i : Fin k) (s : BfState n k) : Fin n → ℝ := fun j => s.resid j + s.betas j i * c.x j i

/-- GWRMultiscale.cpp:320-363: search for the bandwidth of variable `i`, unless it is specified. -/
noncomputable def bfSearch (c : MgwrCfg n k) (e : BfEnv n k) (it : ℕ) (i : Fin k) (s : BfState n k) : Res (BfState n k) :=
  if s.init i = .Specified then .ok s
  else (e.select it i (partialResid c i s) (s.bw i)).bind fun b => .ok (bfSelect c i b s)

/-- GWRMultiscale.cpp:315-372: one variable. The flag says whether the loop over variables was left. -/
noncomputable def bfVar (c : MgwrCfg n k) (e : BfEnv n k) (it : ℕ) (i : Fin k) (s : BfState n k) : Res (BfState n k × Bool) :=
  if e.stopVar it i = true then .ok (s, true)
  else (bfSearch c e it i s).bind fun s' =>
    if e.stopFit it i = true then .ok (s', true)
    else (fitVarCoreSerial (colOf c.x i) (partialResid c i s) (c.wt i (s'.bw i)) (e.stopLoc it i)).bind fun r =>
      .ok (bfStore c i r.1 r.2 s', false)

/-- GWRMultiscale.cpp:313-373: the loop over the variables. `log` is a ghost list of the states reached after each variable. -/
noncomputable def bfVars (c : MgwrCfg n k) (e : BfEnv n k) (it : ℕ) :
    List (Fin k) → BfState n k → List (BfState n k) → Res (BfState n k × List (BfState n k))
  | [], s, log => .ok (s, log)
  | i :: is, s, log =>
    (bfVar c e it i s).bind fun p => if p.2 = true then .ok (p.1, log ++ [p.1]) else bfVars c e it is p.1 (log ++ [p.1])

/-- GWRMultiscale.cpp:309, 375-377: whether `criterion > mCriterionThreshold`. With `dCVR` and `RSS1 = 0` the criterion is NaN
(if `RSS0 = 0` too) or infinite. -/
noncomputable def bfContinue (t : BackFitCrit) (thr r0 r1 : ℝ) : Bool :=
  match t with
  | .CVR => |r1 - r0| > thr
  | .dCVR => if r1 = 0 then r0 ≠ 0 else Real.sqrt (|r1 - r0| / r1) > thr

/-- What back-fitting leaves: state, last residual sum of squares, number of iterations begun and the ghost logs: the states
passed through and the residual sums of squares at the start and after each iteration, latest first. -/
structure BfResult (n k : ℕ) where
  state : BfState n k
  rss : ℝ
  iterations : ℕ
  log : List (BfState n k)
  hist : List ℝ

/-- GWRMultiscale.cpp:309-381: the outer loop, with `m` iterations left. -/
noncomputable def bfLoop (c : MgwrCfg n k) (e : BfEnv n k) :
    ℕ → ℕ → Bool → ℝ → BfState n k → List (BfState n k) → List ℝ → Res (BfResult n k)
  | 0, it, _, r0, s, log, hist => .ok ⟨s, r0, it, log, hist⟩
  | m + 1, it, go, r0, s, log, hist =>
    if go = false then .ok ⟨s, r0, it, log, hist⟩
    else if e.stopIter it = true then .ok ⟨s, r0, it, log, hist⟩
    else (bfVars c e it (List.finRange k) s log).bind fun p =>
      bfLoop c e m (it + 1) (bfContinue c.critType c.critThreshold r0 (rss c.x c.y p.1.betas)) (rss c.x c.y p.1.betas) p.1 p.2
        (rss c.x c.y p.1.betas :: hist)

/-- GWRMultiscale.cpp:293-385 `backfitting`. -/
noncomputable def backfitting (c : MgwrCfg n k) (e : BfEnv n k) (s : BfState n k) : Res (BfResult n k) :=
  bfLoop c e c.maxIter 0 (decide (dblMax > c.critThreshold)) (rss c.x c.y s.betas) s [s] [rss c.x c.y s.betas]

/-- GWRMultiscale.cpp:233-246, 304-306: the state back-fitting starts from, given the initial GWR fit. -/
def bfInit (c : MgwrCfg n k) (a : FitAcc n k) (init : Fin k → InitType) (bw : Fin k → BandwidthWeight) : BfState n k :=
  { betas := a.betas
    resid := fun j => c.y j - fitted c.x a.betas j
    s0 := Matrix.of fun j => a.s j.val
    sArr := fun i => Matrix.of fun j l => c.x j i * a.c j.val i l
    init := init
    changeNo := 0
    bw := bw
    moves := fun _ => [] }

/-- GWRMultiscale.cpp:53-78 `CalcDiagnostic`. The field `AIC` is not assigned. -/
noncomputable def mgwrDiagnostic (y : Fin n → ℝ) (shat : Fin 2 → ℝ) (r : ℝ) : Diagnostic :=
  let edf := n - 2 * shat 0 + shat 1
  let yss := ∑ i, (y i - meanVec y) * (y i - meanVec y)
  let r2 := (fdiv r yss).bind fun q => .ok (1 - q)
  { RSS := r
    AIC := .ub
    AICc := (fdiv r n).bind fun q => (flog q).bind fun l => (fdiv (n + shat 0) (n - 2 - shat 0)).bind fun f =>
      .ok (n * l + n * Real.log (2 * Real.pi) + n * f)
    ENP := 2 * shat 0 - shat 1
    EDF := edf
    RSquare := r2
    RSquareAdjust := r2.bind fun r2 => (fdiv ((1 - r2) * (n - 1)) (edf - 1)).bind fun q => .ok (1 - q) }

/-- What `fit()` leaves for its caller: coefficients, standard errors, bandwidths and diagnostics. -/
structure MgwrOut (n k : ℕ) where
  betas : Matrix (Fin n) (Fin k) ℝ
  se : Fin n → Fin k → Res ℝ
  bw : Fin k → BandwidthWeight
  init : Fin k → InitType
  diagnostic : Diagnostic

/-- GWRMultiscale.cpp:80-291 `fit`, after the bandwidth searches before back-fitting: `W0` are the weights of the initial GWR and
`bw` the bandwidths back-fitting starts from. `c.x` are the centred predictors. Hat matrix switched on, no stop request at the
polls outside back-fitting. -/
noncomputable def mgwrFit (c : MgwrCfg n k) (e : BfEnv n k) (W0 : Fin n → Fin n → ℝ) (init : Fin k → InitType)
    (bw : Fin k → BandwidthWeight) : Res (MgwrOut n k) :=
  (fitCoreSerial c.x c.y W0 0 n true true (fun _ => false)).bind fun p =>
    (backfitting c e (bfInit c p.1 init bw)).bind fun r =>
      .ok { betas := r.state.betas
            se := betasSE c.x c.y p.1
            bw := r.state.bw
            init := r.state.init
            diagnostic := mgwrDiagnostic c.y ![trace r.state.s0, trace (r.state.s0 * r.state.s0ᵀ)] r.rss }

/-- GWRMultiscale.cpp:139-140, 207-214, 326-329: the bounds of the bandwidth search of variable `i`. `dist` are the smallest and
largest distances, which are determined for variables of type `Null` only; for the others the resized vectors hold zeros. -/
noncomputable def mgwrBounds (init : InitType) (adaptive : Bool) (adaptiveLower : ℝ) (lower upper : Option ℝ) (n : ℕ) (dist : ℝ × ℝ) : ℝ × ℝ :=
  let dist := if init = .Null then dist else (0, 0)
  (lower.getD (if adaptive then adaptiveLower else dist.1), upper.getD (if adaptive then n else dist.2))

/-- GWRMultiscale.cpp:400-444: the criterion of one variable for weights that may have failed; any failure gives DBL_MAX. -/
noncomputable def varCriterion (c : Crit) (x : Matrix (Fin n) (Fin 1) ℝ) (y : Fin n → ℝ) (rows : Res (Fin n → Fin n → ℝ)) : ℝ :=
  match rows with
  | .ok W => match c with
    | .CV => varCriterionCV x y W
    | .AIC => varCriterionAIC x y W
  | _ => dblMax

/-- GWRMultiscale.cpp:322-330: the bandwidth search for a variable with column `x`, partial residuals `y` and distances `D`,
without stop requests. -/
noncomputable def mgwrSelect (c : Crit) (D : Fin n → Fin n → ℝ) (bounds : ℝ × ℝ) (x : Matrix (Fin n) (Fin 1) ℝ) (y : Fin n → ℝ)
    (b0 : BandwidthWeight) : Res BandwidthWeight :=
  (optimize b0 bounds.1 bounds.2 (fun _ b => (true, varCriterion c x y (Res.tabulate n fun i => b.weight (D i)))) []).out

end Verif.Model

import Verif.Model.GWRMultiscaleRun
import Verif.Model.GWRBasicRun

/-!
# Model of whole runs of `GWRMultiscale`, serial and multithreaded

`CRSDistance` (planar or geographic) and every kind of `BandwidthWeight` for every variable, with or without hat matrix, no GPU, no MPI, no stop
requests. The loop over the locations of every single evaluation and fit may run in its own way.
-/

namespace Verif.Model
open Verif Matrix Classical

variable {n k : ℕ}

/-- How the loops over the locations run: those of the search and the fit of the initial GWR (GWRMultiscale.cpp:103-142), of the first search for
variable `i` (193-227), of the search for variable `i` in iteration `it` (320-330) and of the fit of this variable (367). -/
structure MgwrModes (n k : ℕ) where
  search0 : ℕ → Exec n
  fit0 : Exec n
  start : Fin k → ℕ → Exec n
  search : ℕ → Fin k → ℕ → Exec n
  fitVar : ℕ → Fin k → Exec n

/-- GWRMultiscale.cpp:489-553 or 615-680, as `setParallelType` chose (1069-1095), for weights that have been computed. -/
noncomputable def fitVarCoreIn (x : Matrix (Fin n) (Fin 1) ℝ) (y : Fin n → ℝ) (W : Fin n → Fin n → ℝ) :
    Exec n → Res ((Fin n → ℝ) × Matrix (Fin n) (Fin n) ℝ)
  | .serial => fitVarCoreSerial x y W fun _ => false
  | .omp evs => fitVarCoreOmp x y W (fun _ => false) evs

/-- The same with the weights of bandwidth `b`. They are computed in the loop, outside the handler (505, 628). Simplification: all weights are computed
before the first regression, so that of several failures another one may be reported. -/
noncomputable def fitVarIn (ex : Exec n) (d' : CRSDistance) (b : BandwidthWeight) (x : Matrix (Fin n) (Fin 1) ℝ) (y : Fin n → ℝ) :
    Res ((Fin n → ℝ) × Matrix (Fin n) (Fin n) ℝ) :=
  (summaryEscape ex (weightRows d' b n n)).bind fun W => fitVarCoreIn x y W ex

/-- GWRMultiscale.cpp:400-444 with 555-611 or 682-760: one evaluation of the criterion of a variable. The code is that of `GWRBasic` for a design of one
column: serially an exception gives DBL_MAX, in parallel a failing regression only clears a local flag. -/
noncomputable def varCriterionIn (c : Crit) (d' : CRSDistance) (x : Matrix (Fin n) (Fin 1) ℝ) (y : Fin n → ℝ) (b : BandwidthWeight) (ex : Exec n) : ℝ :=
  gwrCriterionEx c d' x y b ex

/-- GWRMultiscale.cpp:202-217, 320-330: the bandwidth search for variable `i` with response `y` from the weight `b`; `range` are the smallest and
largest distances found for the variables of type `Null`. -/
noncomputable def MgwrSetup.searchIn (u : MgwrSetup n k) (x : Matrix (Fin n) (Fin k) ℝ) (d' : Fin k → CRSDistance) (range : Fin k → ℝ × ℝ) (i : Fin k)
    (y : Fin n → ℝ) (b : BandwidthWeight) (sched : ℕ → Exec n) : SearchResult :=
  let bounds := mgwrBounds (u.init i) b.mAdaptive u.adaptiveLower u.lower u.upper n (range i)
  optimize b bounds.1 bounds.2 (fun j b => (true, varCriterionIn (u.approach i) (d' i) (colOf x i) y b (sched j))) []

/-- The settings back-fitting reads, for centred predictors `x`. The weights are computed by `fitVarIn`; the field `wt` is not used. -/
noncomputable def MgwrSetup.cfgIn (u : MgwrSetup n k) (hat : Bool) (x : Matrix (Fin n) (Fin k) ℝ) : MgwrCfg n k :=
  { x := x, y := u.y, wt := fun _ _ => 0, hasHat := hat, threshold := u.threshold, retry := u.retry, critType := u.critType
    critThreshold := u.critThreshold, maxIter := u.maxIter }

/-- GWRMultiscale.cpp:316-372: one variable. -/
noncomputable def bfVarIn (u : MgwrSetup n k) (hat : Bool) (md : MgwrModes n k) (x : Matrix (Fin n) (Fin k) ℝ) (d' : Fin k → CRSDistance)
    (range : Fin k → ℝ × ℝ) (it : ℕ) (i : Fin k) (s : BfState n k) : Res (BfState n k) :=
  let c := u.cfgIn hat x
  let yi := partialResid c i s
  (if s.init i = .Specified then .ok s
    else (u.searchIn x d' range i yi (s.bw i) (md.search it i)).out.bind fun b => .ok (bfSelect c i b s)).bind fun s' =>
  (fitVarIn (md.fitVar it i) (d' i) (s'.bw i) (colOf x i) yi).bind fun r => .ok (bfStore c i r.1 r.2 s')

/-- GWRMultiscale.cpp:313-373: the loop over the variables. -/
noncomputable def bfVarsIn (u : MgwrSetup n k) (hat : Bool) (md : MgwrModes n k) (x : Matrix (Fin n) (Fin k) ℝ) (d' : Fin k → CRSDistance)
    (range : Fin k → ℝ × ℝ) (it : ℕ) : List (Fin k) → BfState n k → Res (BfState n k)
  | [], s => .ok s
  | i :: is, s => (bfVarIn u hat md x d' range it i s).bind fun s' => bfVarsIn u hat md x d' range it is s'

/-- GWRMultiscale.cpp:309-381: the outer loop, with `m` iterations left; returns the state and the last residual sum of squares. -/
noncomputable def bfLoopIn (u : MgwrSetup n k) (hat : Bool) (md : MgwrModes n k) (x : Matrix (Fin n) (Fin k) ℝ) (d' : Fin k → CRSDistance)
    (range : Fin k → ℝ × ℝ) : ℕ → ℕ → Bool → ℝ → BfState n k → Res (BfState n k × ℝ)
  | 0, _, _, r0, s => .ok (s, r0)
  | m + 1, it, go, r0, s =>
    if go = false then .ok (s, r0)
    else (bfVarsIn u hat md x d' range it (List.finRange k) s).bind fun s' =>
      bfLoopIn u hat md x d' range m (it + 1) (bfContinue u.critType u.critThreshold r0 (rss x u.y s'.betas)) (rss x u.y s'.betas) s'

/-- GWRMultiscale.cpp:293-385 `backfitting`. -/
noncomputable def backfittingIn (u : MgwrSetup n k) (hat : Bool) (md : MgwrModes n k) (x : Matrix (Fin n) (Fin k) ℝ) (d' : Fin k → CRSDistance)
    (range : Fin k → ℝ × ℝ) (s : BfState n k) : Res (BfState n k × ℝ) :=
  bfLoopIn u hat md x d' range u.maxIter 0 (decide (dblMax > u.critThreshold)) (rss x u.y s.betas) s

/-- GWRMultiscale.cpp:233-246, 304-306: the state back-fitting starts from. -/
def bfInitIn (u : MgwrSetup n k) (x : Matrix (Fin n) (Fin k) ℝ) (g : GWRReport n k) (bw : Fin k → BandwidthWeight) : BfState n k :=
  { betas := g.betas
    resid := fun j => u.y j - fitted x g.betas j
    s0 := Matrix.of fun j => g.s j.val
    sArr := fun i => Matrix.of fun j l => x j i * g.c j.val i l
    init := u.init
    changeNo := 0
    bw := bw
    moves := fun _ => [] }

/-- What `fit()` leaves behind, with what its initial GWR did: the bandwidth search and the report. -/
structure MgwrReport (n k : ℕ) where
  search0 : SearchResult
  fit0 : GWRReport n k
  out : MgwrOut n k

/-- GWRMultiscale.cpp:80-291 `fit`. The criterion of the initial GWR is that of the first variable (line 110, undefined if there is none). The hat rows
are stored whenever they are read (GWRBasic.h:383). -/
noncomputable def mgwrRunIn (u : MgwrSetup n k) (hat : Bool) (md : MgwrModes n k) : Res (MgwrReport n k) :=
  let x := centrePredictors u.hasIntercept u.centred u.x
  (if h : 0 < k then Res.ok (u.approach ⟨0, h⟩) else .ub).bind fun c =>
  (gwrAutoRun c md.search0 md.fit0 u.dist0 u.bw0 u.lower u.upper u.coords x u.y (hat || decide (n < 8192)) hat).bind fun rg =>
  (Res.tabulate k fun i => bindLocations (u.dist i) u.coords u.coords).bind fun d' =>
  (Res.tabulate k fun i => mgwrDistRange (u.init i) (d' i)).bind fun range =>
  (Res.tabulate k fun i => if u.init i = .Null then (u.searchIn x d' range i u.y (u.bw i) (md.start i)).out else .ok (u.bw i)).bind fun bw =>
  (backfittingIn u hat md x d' range (bfInitIn u x rg.2 bw)).bind fun r =>
    .ok { search0 := rg.1
          fit0 := rg.2
          out := { betas := r.1.betas
                   se := rg.2.se
                   bw := r.1.bw
                   init := r.1.init
                   diagnostic := mgwrDiagnostic u.y (if hat = true then ![trace r.1.s0, trace (r.1.s0 * r.1.s0ᵀ)] else 0) r.2 } }

end Verif.Model

import Verif.Model.GWRMultiscale
import Verif.Model.Mpi

/-!
# Model of `GWRMultiscale` distributed over processes

`p + 1` processes run the same program, each with its own members; process 0 is the master. Every process is given the same data (the code
broadcasts them, GWRMultiscale.cpp:149-178) and uses the serial cores. Collective calls are synchronisation points: all processes take part in
the same ones in the same order, or the program hangs. A program that would hang, because the processes take different branches or search for
different bandwidths, has the outcome `ub` in this model. If a process ends with an exception the others wait for ever; such runs have the outcome
of the failing process, as in `Verif.Model.Mpi`. Stop requests are not modelled.
-/

namespace Verif.Model
open Verif Matrix Classical

variable {n k p : ℕ}

/-! ## One process -/

/-- What the loop over the locations of a work range holds: as `VarAcc`, with the hat rows numbered from the start of the range. -/
structure VarBlock (n : ℕ) where
  beta : Fin n → ℝ
  S : ℕ → Fin n → ℝ
  success : Bool

/-- GWRMultiscale.cpp:505-523: the writes of location `i`, `S.row(i - workRange.first)`. -/
def varBlockUpd (first : ℕ) (i : Fin n) (r : Res (LocalFit n 1)) (a : VarBlock n) : VarBlock n :=
  match r with
  | .ok lf => { a with beta := Function.update a.beta i (lf.beta 0), S := Function.update a.S (i.val - first) lf.si }
  | _ => { a with success := false }

/-- GWRMultiscale.cpp:489-553 `fitVarCoreSerial` on the work range of a process. The coefficients are zero outside the range. -/
noncomputable def fitVarBlock (x : Matrix (Fin n) (Fin 1) ℝ) (y : Fin n → ℝ) (W : Fin n → Fin n → ℝ) (first second : ℕ) :
    Res ((Fin n → ℝ) × (ℕ → Fin n → ℝ)) :=
  let a := (workRange n first second).foldl (fun a i => varBlockUpd first i (localFit x y (W i) (x i)) a) ⟨0, fun _ => 0, true⟩
  if a.success = true then .ok (a.beta, a.S) else .throw .runtime

/-- The members of one process during back-fitting. `s0` and `sArr` hold the rows of its work range, numbered from its start. -/
structure BfProc (n k : ℕ) where
  betas : Matrix (Fin n) (Fin k) ℝ
  resid : Fin n → ℝ
  s0 : ℕ → Fin n → ℝ
  sArr : Fin k → ℕ → Fin n → ℝ
  init : Fin k → InitType
  changeNo : Fin k → ℕ
  bw : Fin k → BandwidthWeight

/-- GWRMultiscale.cpp:317-319 `mYi` of a process. -/
def procResid (x : Matrix (Fin n) (Fin k) ℝ) (i : Fin k) (s : BfProc n k) : Fin n → ℝ := fun j => s.resid j + s.betas j i * x j i

/-- GWRMultiscale.cpp:331-357: the bookkeeping of a process after the search. -/
noncomputable def procSelect (c : MgwrCfg n k) (i : Fin k) (b : BandwidthWeight) (s : BfProc n k) : BfProc n k :=
  if |b.mBandwidth - (s.bw i).mBandwidth| > c.threshold i then
    { s with bw := Function.update s.bw i b, changeNo := Function.update s.changeNo i 0 }
  else if s.changeNo i + 1 ≥ c.retry then
    { s with bw := Function.update s.bw i b, changeNo := Function.update s.changeNo i (s.changeNo i + 1)
             init := Function.update s.init i .Specified }
  else { s with bw := Function.update s.bw i b, changeNo := Function.update s.changeNo i (s.changeNo i + 1) }

/-! ## The bandwidth criterion -/

/-- GWRMultiscale.cpp:964-1002 `bandwidthSizeCriterionVarCVMpi` and 1004-1043 `bandwidthSizeCriterionVarAICMpi`: any process that fails makes
the value DBL_MAX; otherwise the coefficients are combined by `MPI_MAX`, the traces added up, and the master's value is broadcast. -/
noncomputable def varCriterionMpi (p : ℕ) (cr : Crit) (x : Matrix (Fin n) (Fin 1) ℝ) (y : Fin n → ℝ) (rows : Res (Fin n → Fin n → ℝ)) : ℝ :=
  match rows with
  | .ok W => match cr with
    | .CV =>
      match Res.tabulate (p + 1) fun q => fitCoreCVSerial x y W (mpiFrom n (p + 1) q) (mpiTo n (p + 1) q) (fun _ => false) with
      | .ok r => finiteOrMax (rss x y (Matrix.of fun i _ => allreduceMax p (fun q i => (r q).1 i 0) i))
      | _ => dblMax
    | .AIC =>
      match Res.tabulate (p + 1) fun q => fitCoreSHatSerial x y W (mpiFrom n (p + 1) q) (mpiTo n (p + 1) q) (fun _ => false) with
      | .ok r =>
        match aicc x y (Matrix.of fun i _ => allreduceMax p (fun q i => (r q).1.1 i 0) i) (∑ q, (r q).1.2 0) with
        | .ok v => finiteOrMax v
        | _ => dblMax
      | _ => dblMax
  | _ => dblMax

/-- GWRMultiscale.cpp:322-330: the search that every process runs for a variable with column `x`, partial residuals `y` and distances `D`. -/
noncomputable def mpiSelect (p : ℕ) (cr : Crit) (D : Fin n → Fin n → ℝ) (bounds : ℝ × ℝ) (x : Matrix (Fin n) (Fin 1) ℝ) (y : Fin n → ℝ)
    (b0 : BandwidthWeight) : Res BandwidthWeight :=
  (optimize b0 bounds.1 bounds.2 (fun _ b => (true, varCriterionMpi p cr x y (Res.tabulate n fun i => b.weight (D i)))) []).out

/-! ## Back-fitting -/

/-- What distributed back-fitting uses besides `MgwrCfg`: criterion, distances and bounds of the search of each variable. -/
structure MpiSearch (n k : ℕ) where
  crit : Fin k → Crit
  dist : Fin k → Fin n → Fin n → ℝ
  bounds : Fin k → ℝ × ℝ

/-- GWRMultiscale.cpp:320-363 in all processes. -/
noncomputable def mpiBfSearch (c : MgwrCfg n k) (u : MpiSearch n k) (i : Fin k) (s : Fin (p + 1) → BfProc n k) :
    Res (Fin (p + 1) → BfProc n k) :=
  if ∀ q, (s q).init i = .Specified then .ok s
  else if ∀ q, (s q).init i ≠ .Specified ∧ procResid c.x i (s q) = procResid c.x i (s 0) ∧ (s q).bw i = (s 0).bw i then
    (mpiSelect p (u.crit i) (u.dist i) (u.bounds i) (colOf c.x i) (procResid c.x i (s 0)) ((s 0).bw i)).bind fun b =>
      .ok fun q => procSelect c i b (s q)
  else .ub

/-- The number of observations of process `q`. -/
def mpiRows (n P : ℕ) (q : Fin P) : ℕ := mpiTo n P q - mpiFrom n P q

/-- The column-major memory of a block of rows. -/
def blockMem (rows : ℕ) (S : ℕ → Fin n → ℝ) (a : ℕ) : ℝ := if h : a / rows < n then S (a % rows) ⟨a / rows, h⟩ else 0

/-- A block of rows indexed by column numbers. -/
def blockAt (S : ℕ → Fin n → ℝ) (e l : ℕ) : ℝ := if h : l < n then S e ⟨l, h⟩ else 0

/-- GWRMultiscale.cpp:947-962 `fitVarMpi` in all processes, and 367-371. `yi` are the members `mYi`. -/
noncomputable def mpiFitVar (c : MgwrCfg n k) (i : Fin k) (yi : Fin (p + 1) → Fin n → ℝ) (s : Fin (p + 1) → BfProc n k) :
    Res (Fin (p + 1) → BfProc n k) :=
  (Res.tabulate (p + 1) fun q =>
      fitVarBlock (colOf c.x i) (yi q) (c.wt i ((s q).bw i)) (mpiFrom n (p + 1) q) (mpiTo n (p + 1) q)).bind fun r =>
    let beta : Fin n → ℝ := allreduceMax p fun q => (r q).1
    let sArrayi : Fin (p + 1) → ℕ → Fin n → ℝ := fun q e l => (s q).sArr i e l - (s q).s0 e l
    (if c.hasHat then
        (Res.tabulate (p + 1) fun q =>
          matMulMpi (mpiRows n (p + 1)) (fun q => blockMem (mpiRows n (p + 1) q) (r q).2) (fun q => blockAt (sArrayi q)) q).bind fun m =>
        .ok fun q => ((fun e l => m q e l.val + (r q).2 e l : ℕ → Fin n → ℝ))
      else .ok fun q => (s q).sArr i).bind fun slice =>
    .ok fun q =>
      let betas : Matrix (Fin n) (Fin k) ℝ := Matrix.of fun j m => if m = i then beta j else (s q).betas j m
      { s q with
        betas := betas
        resid := fun j => c.y j - fitted c.x betas j
        sArr := if c.hasHat then Function.update (s q).sArr i (slice q) else (s q).sArr
        s0 := if c.hasHat then (fun e l => slice q e l - sArrayi q e l) else (s q).s0 }

/-- GWRMultiscale.cpp:313-372 in all processes: one variable. -/
noncomputable def mpiBfVar (c : MgwrCfg n k) (u : MpiSearch n k) (i : Fin k) (s : Fin (p + 1) → BfProc n k) : Res (Fin (p + 1) → BfProc n k) :=
  (mpiBfSearch c u i s).bind fun s' => mpiFitVar c i (fun q => procResid c.x i (s q)) s'

/-- GWRMultiscale.cpp:313-373 in all processes: the loop over the variables. -/
noncomputable def mpiBfVars (c : MgwrCfg n k) (u : MpiSearch n k) : List (Fin k) → (Fin (p + 1) → BfProc n k) → Res (Fin (p + 1) → BfProc n k)
  | [], s => .ok s
  | i :: is, s => (mpiBfVar c u i s).bind fun s' => mpiBfVars c u is s'

/-- GWRMultiscale.cpp:309-381 in all processes, with `m` iterations left; `go q` and `r0 q` are whether process `q` goes on and its `RSS0`. -/
noncomputable def mpiBfLoop (c : MgwrCfg n k) (u : MpiSearch n k) :
    ℕ → (Fin (p + 1) → Bool) → (Fin (p + 1) → ℝ) → (Fin (p + 1) → BfProc n k) → Res ((Fin (p + 1) → BfProc n k) × (Fin (p + 1) → ℝ))
  | 0, _, r0, s => .ok (s, r0)
  | m + 1, go, r0, s =>
    if ∀ q, go q = false then .ok (s, r0)
    else if ∀ q, go q = true then
      (mpiBfVars c u (List.finRange k) s).bind fun s' =>
        mpiBfLoop c u m (fun q => bfContinue c.critType c.critThreshold (r0 q) (rss c.x c.y (s' q).betas)) (fun q => rss c.x c.y (s' q).betas) s'
    else .ub

/-- GWRMultiscale.cpp:293-385 `backfitting` in all processes. -/
noncomputable def mpiBackfitting (c : MgwrCfg n k) (u : MpiSearch n k) (s : Fin (p + 1) → BfProc n k) :
    Res ((Fin (p + 1) → BfProc n k) × (Fin (p + 1) → ℝ)) :=
  mpiBfLoop c u c.maxIter (fun _ => decide (dblMax > c.critThreshold)) (fun q => rss c.x c.y (s q).betas) s

/-- GWRMultiscale.cpp:233-246, 304-306: the state in which process `q` starts, given the coefficients of the initial GWR (broadcast to all)
and the process's own hat rows. -/
def procInit (c : MgwrCfg n k) (first : ℕ) (betas : Matrix (Fin n) (Fin k) ℝ) (a : FitAcc n k) (init : Fin k → InitType)
    (bw : Fin k → BandwidthWeight) : BfProc n k :=
  { betas := betas
    resid := fun j => c.y j - fitted c.x betas j
    s0 := a.s
    sArr := fun i e l => if h : first + e < n then c.x ⟨first + e, h⟩ i * a.c e i l else 0
    init := init
    changeNo := 0
    bw := bw }

/-- GWRMultiscale.cpp:80-291 `fit` in all processes, after the bandwidth searches before back-fitting: the initial GWR (whose messages arrive in
the order `msgs`; `g1`, `g2` as in `fitMpi`), back-fitting, the traces added up over the processes (257-266). Hat matrix switched on. -/
noncomputable def mpiMgwrFit (p : ℕ) (c : MgwrCfg n k) (u : MpiSearch n k) (W0 : Fin n → Fin n → ℝ) (init : Fin k → InitType)
    (bw : Fin k → BandwidthWeight) (g1 : Fin (p + 1) → Fin 2 → ℝ) (g2 : Fin (p + 1) → Fin n → ℝ) (msgs : List (Fin (p + 1) × FitTag)) :
    Res (Fin (p + 1) → MgwrOut n k) :=
  (fitMpi p c.x c.y W0 true true g1 g2 msgs).bind fun f =>
  (Res.tabulate (p + 1) fun q => fitCoreSerial c.x c.y W0 (mpiFrom n (p + 1) q) (mpiTo n (p + 1) q) true true (fun _ => false)).bind fun a =>
  (mpiBackfitting c u fun q => procInit c (mpiFrom n (p + 1) q) f.betas (a q).1 init bw).bind fun r =>
    let shati : Fin (p + 1) → Fin 2 → ℝ := fun q =>
      ![∑ e ∈ Finset.range (mpiRows n (p + 1) q), blockAt (r.1 q).s0 e (mpiFrom n (p + 1) q + e),
        ∑ e ∈ Finset.range (mpiRows n (p + 1) q), ∑ l, (r.1 q).s0 e l * (r.1 q).s0 e l]
    .ok fun q =>
      { betas := (r.1 q).betas
        se := betasSE c.x c.y { (a q).1 with betas := f.betas, se := f.se, shat := f.shat, qdiag := f.qdiag }
        bw := (r.1 q).bw
        init := (r.1 q).init
        diagnostic := mgwrDiagnostic c.y (∑ q, shati q) (r.2 q) }

end Verif.Model

import Verif.Model.GWRMultiscale

/-!
# Model of `GWRMultiscale::fit` from coordinates to coefficients

Composes the distance, kernel, bandwidth search and back-fitting models (serial mode, `CRSDistance` and `BandwidthWeight` for every
variable, hat matrix switched on, no stop requests, no GPU, no MPI).
-/

namespace Verif.Model
open Verif Matrix Classical

variable {n k : ℕ}

/-- The members `GWRMultiscale::fit` reads. `dist0` and `bw0` are the spatial weight of the initial GWR, `dist` and `bw` those of the
variables. -/
structure MgwrSetup (n k : ℕ) where
  coords : DynMat
  x : Matrix (Fin n) (Fin k) ℝ
  y : Fin n → ℝ
  hasIntercept : Bool
  centred : Fin k → Bool
  dist0 : CRSDistance
  bw0 : BandwidthWeight
  dist : Fin k → CRSDistance
  bw : Fin k → BandwidthWeight
  init : Fin k → InitType
  approach : Fin k → Crit
  lower : Option ℝ
  upper : Option ℝ
  adaptiveLower : ℝ
  threshold : Fin k → ℝ
  retry : ℕ
  critType : BackFitCrit
  critThreshold : ℝ
  maxIter : ℕ

/-- The distances from every observation to all observations, `mSpatialWeights[i].distance()->distance(j)`. -/
noncomputable def distRows (d : CRSDistance) (n : ℕ) : Res (Fin n → Fin n → ℝ) :=
  Res.tabulate n fun i => (d.distance i).bind fun l => rowToVec l n

/-- GWRMultiscale.cpp:103-144: the initial GWR with automatic bandwidth selection. Its criterion is that of the first variable
(line 110, undefined if there is none). Returns its weights; the fit itself is the first step of `mgwrFit`. -/
noncomputable def mgwrInitialWeights (u : MgwrSetup n k) (x : Matrix (Fin n) (Fin k) ℝ) : Res (Fin n → Fin n → ℝ) :=
  (if h : 0 < k then Res.ok (u.approach ⟨0, h⟩) else .ub).bind fun c =>
    (bindLocations u.dist0 u.coords u.coords).bind fun d' => (gwrSelectBandwidth c d' u.bw0 u.lower u.upper x u.y).bind fun r =>
      r.out.bind fun b => weightRows d' b n n

/-- GWRMultiscale.cpp:207-208: smallest and largest distance, determined for variables of type `Null` only. -/
noncomputable def mgwrDistRange (t : InitType) (d' : CRSDistance) : Res (ℝ × ℝ) :=
  if t = .Null then d'.maxDistance.bind fun a => d'.minDistance.bind fun b => .ok (b, a) else .ok (0, 0)

/-- The settings of back-fitting for centred predictors `x` and the distances `D` of every variable. Weights that cannot be computed
are represented by zeros: like the exception or the NaN they are in the code, they make the local fit fail. -/
noncomputable def MgwrSetup.cfg (u : MgwrSetup n k) (x : Matrix (Fin n) (Fin k) ℝ) (D : Fin k → Fin n → Fin n → ℝ) : MgwrCfg n k :=
  { x := x
    y := u.y
    wt := fun i b j => match b.weight (D i j) with
      | .ok w => w
      | _ => 0
    hasHat := true
    threshold := u.threshold
    retry := u.retry
    critType := u.critType
    critThreshold := u.critThreshold
    maxIter := u.maxIter }

/-- GWRMultiscale.cpp:202-217 and 322-330: the bandwidth search of variable `i` for a response `y`, starting from `b`. -/
noncomputable def MgwrSetup.search (u : MgwrSetup n k) (x : Matrix (Fin n) (Fin k) ℝ) (D : Fin k → Fin n → Fin n → ℝ)
    (range : Fin k → ℝ × ℝ) (i : Fin k) (y : Fin n → ℝ) (b : BandwidthWeight) : Res BandwidthWeight :=
  mgwrSelect (u.approach i) (D i) (mgwrBounds (u.init i) b.mAdaptive u.adaptiveLower u.lower u.upper n (range i)) (colOf x i) y b

/-- The environment of back-fitting without stop requests. -/
noncomputable def MgwrSetup.env (u : MgwrSetup n k) (x : Matrix (Fin n) (Fin k) ℝ) (D : Fin k → Fin n → Fin n → ℝ)
    (range : Fin k → ℝ × ℝ) : BfEnv n k :=
  { stopIter := fun _ => false
    stopVar := fun _ _ => false
    stopFit := fun _ _ => false
    stopLoc := fun _ _ _ => false
    select := fun _ i y b => u.search x D range i y b }

/-- GWRMultiscale.cpp:80-291 `fit`. Order of failures simplified: the code fits the initial model before it binds the distances of
the variables and searches their bandwidths; here the fit comes after. -/
noncomputable def mgwrRun (u : MgwrSetup n k) : Res (MgwrOut n k) :=
  let x := centrePredictors u.hasIntercept u.centred u.x
  (mgwrInitialWeights u x).bind fun W0 =>
  (Res.tabulate k fun i => bindLocations (u.dist i) u.coords u.coords).bind fun d' =>
  (Res.tabulate k fun i => distRows (d' i) n).bind fun D =>
  (Res.tabulate k fun i => mgwrDistRange (u.init i) (d' i)).bind fun range =>
  (Res.tabulate k fun i => if u.init i = .Null then u.search x D range i u.y (u.bw i) else .ok (u.bw i)).bind fun bw =>
    mgwrFit (u.cfg x D) (u.env x D range) W0 u.init bw

end Verif.Model

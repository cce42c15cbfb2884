import Verif.Model.GpuTask

/-!
# Specification: what the calls of a session with a GPU task say
-/

namespace Verif.Spec
open Verif.Model

variable {n k m : ℕ}

/-- The value a call gives to the entry in row `i` and column `j` of the predictors. -/
noncomputable def givesX (i j : ℕ) : TaskOp → Option ℝ
  | .setX i' j' v => if i' = i ∧ j' = j then some v else none
  | _ => none

/-- The value a call gives to the response of observation `i`. -/
noncomputable def givesY (i : ℕ) : TaskOp → Option ℝ
  | .setY i' v => if i' = i then some v else none
  | _ => none

/-- The value a call gives to a setting of the weighting kernel. -/
def givesBandwidth : TaskOp → Option ℝ
  | .setBandwidthSize b => some b
  | _ => none

def givesAdaptive : TaskOp → Option Bool
  | .setBandwidthAdaptive a => some a
  | _ => none

/-- The kernel that a call chooses (by its number). -/
def givesKernel : TaskOp → Option KernelType
  | .setBandwidthKernel i => if i = 0 then some .Gaussian else if i = 1 then some .Exponential else if i = 2 then some .Bisquare
    else if i = 3 then some .Tricube else if i = 4 then some .Boxcar else none
  | _ => none

/-- The criterion of the search of a bandwidth that a call asks for (0 is the AIC, 1 the cross-validation score). -/
def asksSearch : TaskOp → Option Crit
  | .enableBandwidthOptimization i => if i = 0 then some .AIC else if i = 1 then some .CV else none
  | _ => none

/-- The threshold of the selection of variables that a call asks for. -/
def asksSelection : TaskOp → Option ℝ
  | .enableVariablesOptimization t => some t
  | _ => none

/-- The location that a call is meant to give to observation `i`. -/
noncomputable def givesPoint (i : ℕ) : TaskOp → Option (ℝ × ℝ)
  | .setCoords i' u v => if i' = i then some (u, v) else none
  | _ => none

/-- The last value given in a session. -/
def lastGiven {α : Type} (gives : TaskOp → Option α) (session : List TaskOp) : Option α := (session.filterMap gives).getLast?

/-- The calls that choose the exponent and the angle of Minkowski distances. -/
def isMinkowskiSetting : TaskOp → Bool
  | .setPoly _ => true
  | .setTheta _ => true
  | _ => false

/-- The distance of the task is of either kind, for geographic coordinates or not. -/
def HasDistance (t : Task n k m) (geo : Bool) : Prop :=
  t.set.distance = some (.crs geo) ∨ ∃ p θ, t.set.distance = some (.minkwoski geo p θ)

/-- What the task reports after a fit with report `g`: everything agrees with `g`. -/
structure TaskReports (t : Task n k m) {k' : ℕ} (g : GWRReport n k') : Prop where
  betas : ∀ (i : Fin n) (j : Fin k'), t.betas (i : ℕ) (j : ℕ) = .ok (g.betas i j)
  betasSE : ∀ (i : Fin n) (j : Fin k'), t.betasSE (i : ℕ) (j : ℕ) = g.se i j
  shat : ∀ i, t.shat i = .ok (g.shat i)
  qDiag : ∀ i : Fin n, t.qDiag (i : ℕ) = .ok (g.qdiag i)
  s : n < 8192 → ∀ i j : Fin n, t.s (i : ℕ) (j : ℕ) = .ok (g.s i j)
  diagnostic : t.res.diagnostic = g.diagnostic

end Verif.Spec

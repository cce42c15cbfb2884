import Verif.Model.GWRObject

/-!
# Specification of calls on an object without stop requests
-/

namespace Verif.Spec
open Verif.Model

variable {n k m : ℕ}

/-- Nobody asked this fit to stop: every poll was answered no. -/
def FitUndisturbed (c : FitCall n k) : Prop :=
  c.pollInit = false ∧ (∀ j q, c.pollCrit j q = false) ∧ c.pollMid = false ∧ ∀ q, c.pollCore q = false

/-- Nobody asked this prediction to stop. -/
def PredictUndisturbed (c : PredictCall n k m) : Prop := c.pollInit = false ∧ (∀ q, c.pollCore q = false) ∧ c.pollEnd = false

/-- Nobody asked this call to stop. -/
def Undisturbed : ObjCall → Prop
  | .fit _ _ c => FitUndisturbed c
  | .predict _ _ _ c => PredictUndisturbed c
  | .setSpatialWeight _ _ => True

/-- A call of `fit` or `predict`. -/
def IsRun : ObjCall → Prop
  | .setSpatialWeight _ _ => False
  | _ => True

/-- The same fit, not asked to stop. -/
def undisturbedFit (c : FitCall n k) : FitCall n k :=
  { c with pollInit := false, pollCrit := fun _ _ => false, pollMid := false, pollCore := fun _ => false }

/-- The same prediction, not asked to stop. -/
def undisturbedPredict (c : PredictCall n k m) : PredictCall n k m := { c with pollInit := false, pollCore := fun _ => false, pollEnd := false }

end Verif.Spec

import Verif.Spec.Ridge
import Verif.Spec.Scalable
import Verif.Spec.GWRDefinition
import Verif.Model.GWRLocalCollinearity

/-! # What a run of local ridge regression reports -/

namespace Verif.Spec
open Verif Verif.Model

variable {n k : ℕ}

/-- Coefficients: at every location the local ridge estimate for the weights `w i`. Diagnostics: residual sum of squares of these coefficients,
effective parameters from the two traces of the hat matrix of the *unpenalised* weighted least squares fits, and the remaining numbers by these
formulas, where they are defined. -/
def IsRidgeReport (lambda : ℝ) (adjust : Bool) (thresh : ℝ) (x : Matrix (Fin n) (Fin k) ℝ) (y : Fin n → ℝ) (w : Fin n → Fin n → ℝ)
    (r : LcrResult n k) : Prop :=
  let S := fun i l : Fin n => hatEntry x (w i) i l
  (∀ i, IsLocalRidge lambda adjust thresh x y (w i) (r.betas i)) ∧
  ∃ d, r.diagnostic = some d ∧ d.RSS = residualSS x y r.betas ∧ d.ENP = 2 * ∑ i, S i i - ∑ i, ∑ l, S i l ^ 2 ∧ d.EDF = n - d.ENP ∧
    (∀ v, d.AIC = .ok v → v = n * (Real.log (2 * Real.pi * (d.RSS / d.EDF)) + 1) + 2 * (d.ENP + 1)) ∧
    (∀ v, d.AICc = .ok v → v = n * Real.log (2 * Real.pi * (d.RSS / d.EDF)) + n * ((1 + d.ENP / n) / (1 - (d.ENP + 2) / n))) ∧
    (∀ v, d.RSquare = .ok v → v = 1 - d.RSS / ∑ i, (y i - (∑ i, y i) / n) ^ 2) ∧
    (∀ v, d.RSquareAdjust = .ok v → v = 1 - d.RSS / (∑ i, (y i - (∑ i, y i) / n) ^ 2) * (n - 1) / d.EDF)

/-- `v` is the cross-validation score for weights `w`: the sum of squared errors of the local ridge estimates at the observations, each computed
with the observation's own weight set to zero, and the largest double if that is smaller. -/
def IsRidgeScore (lambda : ℝ) (adjust : Bool) (thresh : ℝ) (x : Matrix (Fin n) (Fin k) ℝ) (y : Fin n → ℝ) (w : Fin n → Fin n → ℝ) (v : ℝ) : Prop :=
  ∃ B : Fin n → Fin k → ℝ, (∀ i, IsLocalRidge lambda adjust thresh x y (fun l => if l = i then 0 else w i l) (B i)) ∧
    v = min (∑ i, (y i - ∑ j, x i j * B i j) ^ 2) dblMax

end Verif.Spec

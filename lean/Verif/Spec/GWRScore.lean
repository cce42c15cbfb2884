import Verif.Spec.Smoother
import Verif.Model.GWRRun

/-! What the bandwidth search of a geographically weighted regression minimises. -/

namespace Verif.Spec
open Verif.Model

variable {n k : ℕ}

/-- `v` is the cross-validation score of regressions with weights `w`: the sum of squared errors, each observation being predicted by the regression at
its place without itself. -/
def IsLooScore (x : Matrix (Fin n) (Fin k) ℝ) (y : Fin n → ℝ) (w : Fin n → Fin n → ℝ) (v : ℝ) : Prop :=
  ∃ B, (∀ i, IsWLS x y (fun l => if l = i then 0 else w i l) (B i)) ∧ v = residualSS x y B

/-- `v` is the corrected Akaike criterion of regressions with weights `w`. -/
def IsAICcScore (x : Matrix (Fin n) (Fin k) ℝ) (y : Fin n → ℝ) (w : Fin n → Fin n → ℝ) (v : ℝ) : Prop :=
  ∃ B C, IsLocalRegression x y w B C ∧ 0 < residualSS x y B ∧ ∑ i, hatOf x C i i ≠ n - 2 ∧
    v = aiccFormula n (residualSS x y B) (∑ i, hatOf x C i i)

/-- The value of the chosen criterion. -/
def IsGWRScore : Crit → Matrix (Fin n) (Fin k) ℝ → (Fin n → ℝ) → (Fin n → Fin n → ℝ) → ℝ → Prop
  | .CV => IsLooScore
  | .AIC => IsAICcScore

end Verif.Spec

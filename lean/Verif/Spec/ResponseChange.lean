import Verif.Model.GWRBasic

/-! # What a regression should do when its response is rescaled and a known linear effect is added -/

namespace Verif.Spec
open Verif Verif.Model

variable {n k : ℕ}

/-- The response `a y + x γ`. -/
def changedResponse (x : Matrix (Fin n) (Fin k) ℝ) (a : ℝ) (γ : Fin k → ℝ) (y : Fin n → ℝ) : Fin n → ℝ := fun i => a * y i + ∑ j, x i j * γ j

/-- How coefficients, diagnostics and standard errors of the changed response are to be obtained from those of the original one: the coefficients
follow the change, the residuals are scaled, and everything without a unit stays. Statements about R² are for effects that are the same
everywhere. -/
structure FollowsResponse (x : Matrix (Fin n) (Fin k) ℝ) (a : ℝ) (γ : Fin k → ℝ) (B B' : Matrix (Fin n) (Fin k) ℝ) (D D' : Diagnostic)
    (se se' : Fin n → Fin k → Res ℝ) : Prop where
  betas : ∀ i j, B' i j = a * B i j + γ j
  rss : D'.RSS = a ^ 2 * D.RSS
  enp : D'.ENP = D.ENP
  edf : D'.EDF = D.EDF
  aic : ∀ v, D.AIC = .ok v → D'.AIC = .ok (v + n * Real.log (a ^ 2))
  aicc : ∀ v, D.AICc = .ok v → D'.AICc = .ok (v + n * Real.log (a ^ 2))
  rsquare : (∃ c, ∀ i, ∑ j, x i j * γ j = c) → D'.RSquare = D.RSquare ∧ D'.RSquareAdjust = D.RSquareAdjust
  se : ∀ i j v, se i j = .ok v → se' i j = .ok (|a| * v)

end Verif.Spec

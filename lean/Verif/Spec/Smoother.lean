import Verif.Spec.GWRDefinition

/-! Local regressions as a linear smoother: hat matrix, degrees of freedom, diagnostics, robust weights. -/

namespace Verif.Spec

variable {n k : ℕ}

/-- Local regressions in which observation `l` has weight `w i l` at location `i`: `B` are the coefficients, and `C i j l` is coefficient `j` at location
`i` of the response that is 1 at observation `l` and 0 elsewhere. -/
structure IsLocalRegression (x : Matrix (Fin n) (Fin k) ℝ) (y : Fin n → ℝ) (w : Fin n → Fin n → ℝ) (B : Matrix (Fin n) (Fin k) ℝ)
    (C : Fin n → Fin k → Fin n → ℝ) : Prop where
  coefficients : ∀ i, IsWLS x y (w i) (B i)
  unit : ∀ i l, IsWLS x (Pi.single l 1) (w i) fun j => C i j l

/-- Entry of the hat matrix: the fitted value of observation `i` for the response that is 1 at `l` and 0 elsewhere. -/
def hatOf (x : Matrix (Fin n) (Fin k) ℝ) (C : Fin n → Fin k → Fin n → ℝ) (i l : Fin n) : ℝ := ∑ j, x i j * C i j l

/-- The part of observation `l` in the residual degrees of freedom: the squared length of column `l` of `I - S`. -/
def residualDfAt (x : Matrix (Fin n) (Fin k) ℝ) (C : Fin n → Fin k → Fin n → ℝ) (l : Fin n) : ℝ :=
  ∑ i, ((if i = l then 1 else 0) - hatOf x C i l) ^ 2

/-- Residual degrees of freedom `n - 2 tr S + tr SᵀS`: the squared length of `I - S`. -/
def residualDf (x : Matrix (Fin n) (Fin k) ℝ) (C : Fin n → Fin k → Fin n → ℝ) : ℝ := ∑ l, residualDfAt x C l

/-- Residual of observation `i`. -/
def residualAt (x : Matrix (Fin n) (Fin k) ℝ) (y : Fin n → ℝ) (B : Matrix (Fin n) (Fin k) ℝ) (i : Fin n) : ℝ := y i - ∑ j, x i j * B i j

/-- Total sum of squares. -/
noncomputable def totalSS (y : Fin n → ℝ) : ℝ := ∑ i, (y i - (∑ l, y l) / n) ^ 2

/-- Weight of an observation in the refit of the first robust method: 0 if the residual is more than three of its standard errors, otherwise 1. -/
noncomputable def outlierWeight (x : Matrix (Fin n) (Fin k) ℝ) (y : Fin n → ℝ) (B : Matrix (Fin n) (Fin k) ℝ) (C : Fin n → Fin k → Fin n → ℝ) (l : Fin n) : ℝ :=
  if 3 * √(residualSS x y B / residualDf x C * residualDfAt x C l) < |residualAt x y B l| then 0 else 1

/-- First robust method with spatial weights `W`: fit, weight 0 for the outliers, fit again. `mask` are the robust weights of the last fit. -/
def RobustFirst (x : Matrix (Fin n) (Fin k) ℝ) (y : Fin n → ℝ) (W : Fin n → Fin n → ℝ) (mask : Fin n → ℝ) (B : Matrix (Fin n) (Fin k) ℝ)
    (C : Fin n → Fin k → Fin n → ℝ) : Prop :=
  ∃ B₀ C₀, IsLocalRegression x y W B₀ C₀ ∧ (∀ l, mask l = outlierWeight x y B₀ C₀ l) ∧ IsLocalRegression x y (fun i l => W i l * mask l) B C

/-- Second robust method with spatial weights `W`: fits number `0 … q`, `1 ≤ q ≤ 20`, the first with robust weights 1, each later one with the robust
weights of the residuals before it at the root of their mean square (all 0 if that is 0). It ends as soon as two successive mean squares differ by no
more than 0.00001 of the later one, or after 20 refits. -/
def RobustSecond (x : Matrix (Fin n) (Fin k) ℝ) (y : Fin n → ℝ) (W : Fin n → Fin n → ℝ) (mask : Fin n → ℝ) (B : Matrix (Fin n) (Fin k) ℝ)
    (C : Fin n → Fin k → Fin n → ℝ) : Prop :=
  ∃ (q : ℕ) (b : ℕ → Matrix (Fin n) (Fin k) ℝ) (c : ℕ → Fin n → Fin k → Fin n → ℝ) (m : ℕ → Fin n → ℝ), 1 ≤ q ∧ q ≤ 20 ∧
    (∀ l, m 0 l = 1) ∧ (∀ t ≤ q, IsLocalRegression x y (fun i l => W i l * m t l) (b t) (c t)) ∧
    (∀ t < q, ∀ l, m (t + 1) l = if residualSS x y (b t) = 0 then 0 else robustWeight √(residualSS x y (b t) / n) (residualAt x y (b t) l)) ∧
    (∀ t, t + 1 < q → StillMoving (residualSS x y (b t) / n) (residualSS x y (b (t + 1)) / n)) ∧
    (q = 20 ∨ ∃ t, t + 1 = q ∧ ¬ StillMoving (residualSS x y (b t) / n) (residualSS x y (b q) / n)) ∧
    b q = B ∧ c q = C ∧ m q = mask

end Verif.Spec

import Mathlib.Analysis.SpecialFunctions.Log.Basic
import Mathlib.Analysis.Real.Sqrt
import Mathlib.Analysis.SpecialFunctions.Trigonometric.Basic
import Verif.Spec.Regression
import Verif.Spec.Formulas
import Verif.Spec.OrderStat

/-! Geographically weighted regression in one page: distances, kernel, local fit; and the textbook diagnostics. -/

namespace Verif.Spec
open Verif.Model

variable {n k m : ℕ}

/-- Straight line distance of two points given by their first two coordinates. -/
noncomputable def plane (p q : ℕ → ℝ) : ℝ := √((q 0 - p 0) ^ 2 + (q 1 - p 1) ^ 2)

/-- `B` are the coefficients of geographically weighted regression at the points `at'` from the observations `(x, y)` at the
points `obs`, for a kernel of fixed bandwidth: each row is the unique minimiser of the locally weighted sum of squares. -/
def IsGWRFixed (kernel : KernelType) (bw : ℝ) (at' : Fin m → ℕ → ℝ) (obs : Fin n → ℕ → ℝ) (x : Matrix (Fin n) (Fin k) ℝ)
    (y : Fin n → ℝ) (B : Matrix (Fin m) (Fin k) ℝ) : Prop :=
  ∀ i, IsWLS x y (fun l => kernelFormula kernel bw (plane (at' i) (obs l))) (B i)

/-- The same for an adaptive bandwidth of `q` neighbours: at each point the bandwidth is the distance of the `q`-th nearest
observation. -/
def IsGWRAdaptive (kernel : KernelType) (q : ℕ) (at' : Fin m → ℕ → ℝ) (obs : Fin n → ℕ → ℝ) (x : Matrix (Fin n) (Fin k) ℝ)
    (y : Fin n → ℝ) (B : Matrix (Fin m) (Fin k) ℝ) : Prop :=
  ∀ i, ∃ r, IsKthSmallest (fun l => plane (at' i) (obs l)) q r ∧
    IsWLS x y (fun l => kernelFormula kernel r (plane (at' i) (obs l))) (B i)

/-- Residual sum of squares of local coefficients. -/
def residualSS (x : Matrix (Fin n) (Fin k) ℝ) (y : Fin n → ℝ) (B : Matrix (Fin n) (Fin k) ℝ) : ℝ :=
  ∑ i, (y i - ∑ j, x i j * B i j) ^ 2

/-- Akaike information criterion of a smoother with trace `t`, as GWR software reports it. -/
noncomputable def aicFormula (n : ℕ) (rss t : ℝ) : ℝ := n * Real.log (rss / n) + n * Real.log (2 * Real.pi) + n + t

/-- Its small sample correction. -/
noncomputable def aiccFormula (n : ℕ) (rss t : ℝ) : ℝ :=
  n * Real.log (rss / n) + n * Real.log (2 * Real.pi) + n * ((n + t) / (n - 2 - t))

/-- The robust weight of a residual `r` at standard error `σ`: 1 up to two standard errors, 0 from three on, in between
`(1 - (|r|/σ - 2)²)²`. -/
noncomputable def robustWeight (σ r : ℝ) : ℝ :=
  if |r| ≤ 2 * σ then 1 else if |r| < 3 * σ then (1 - (|r| / σ - 2) ^ 2) ^ 2 else 0

/-- Two successive mean squared errors differ by more than 0.00001 of the later one. -/
def StillMoving (before after : ℝ) : Prop := 1 / 100000 * after < |before - after|

end Verif.Spec

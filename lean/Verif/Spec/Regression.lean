import Mathlib.Data.Real.Basic
import Mathlib.Algebra.BigOperators.Fin
import Mathlib.LinearAlgebra.Matrix.Trace

/-! # Weighted least squares, independent of the implementation -/

namespace Verif.Spec

variable {n k : ℕ}

/-- Weighted residual sum of squares of the coefficients `b`. -/
def wss (x : Matrix (Fin n) (Fin k) ℝ) (y w : Fin n → ℝ) (b : Fin k → ℝ) : ℝ :=
  ∑ l, w l * (y l - ∑ j, x l j * b j) ^ 2

/-- `b` is the unique minimiser of the weighted residual sum of squares. -/
def IsWLS (x : Matrix (Fin n) (Fin k) ℝ) (y w : Fin n → ℝ) (b : Fin k → ℝ) : Prop :=
  ∀ b', b' ≠ b → wss x y w b < wss x y w b'

/-- The observations with positive weight determine the coefficients: no non-zero coefficient vector is invisible to them. -/
def Determined (x : Matrix (Fin n) (Fin k) ℝ) (w : Fin n → ℝ) : Prop :=
  ∀ b : Fin k → ℝ, (∀ l, 0 < w l → ∑ j, x l j * b j = 0) → b = 0

end Verif.Spec

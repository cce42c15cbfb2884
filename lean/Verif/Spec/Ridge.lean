import Verif.Spec.Regression
import Mathlib.Analysis.Real.Sqrt

/-! # Singular values and ridge regression, independent of the implementation -/

namespace Verif.Spec

variable {n k : ℕ}

/-- `s` is the largest factor by which `a` stretches a vector: its largest singular value. -/
def IsLargestSV (a : Matrix (Fin n) (Fin k) ℝ) (s : ℝ) : Prop :=
  0 ≤ s ∧ (∀ v : Fin k → ℝ, ∑ l, (∑ j, a l j * v j) ^ 2 ≤ s ^ 2 * ∑ j, v j ^ 2) ∧
  ∃ v : Fin k → ℝ, v ≠ 0 ∧ ∑ l, (∑ j, a l j * v j) ^ 2 = s ^ 2 * ∑ j, v j ^ 2

/-- `s` is the smallest factor by which `a` stretches a vector: its smallest singular value if it has at least as many rows as columns. -/
def IsSmallestSV (a : Matrix (Fin n) (Fin k) ℝ) (s : ℝ) : Prop :=
  0 ≤ s ∧ (∀ v : Fin k → ℝ, s ^ 2 * ∑ j, v j ^ 2 ≤ ∑ l, (∑ j, a l j * v j) ^ 2) ∧
  ∃ v : Fin k → ℝ, v ≠ 0 ∧ ∑ l, (∑ j, a l j * v j) ^ 2 = s ^ 2 * ∑ j, v j ^ 2

/-- `s` is the standard deviation (divisor `n - 1`) of the values `v`. -/
def IsStdDev (v : Fin n → ℝ) (s : ℝ) : Prop := 0 ≤ s ∧ ((n : ℝ) - 1) * s ^ 2 = ∑ l, (v l - (∑ i, v i) / n) ^ 2

/-- The ridge objective: weighted residual sum of squares plus a penalty on the coefficients, each measured in its scale `s`. -/
def ridgeObjective (x : Matrix (Fin n) (Fin k) ℝ) (y w : Fin n → ℝ) (s : Fin k → ℝ) (lam : ℝ) (b : Fin k → ℝ) : ℝ :=
  wss x y w b + lam * ∑ j, (s j * b j) ^ 2

/-- The rows of `x` multiplied by their weights, then every column divided by its length. -/
noncomputable def unitColumns (x : Matrix (Fin n) (Fin k) ℝ) (w : Fin n → ℝ) : Matrix (Fin n) (Fin k) ℝ :=
  Matrix.of fun l j => w l * x l j / Real.sqrt (∑ i, (w i * x i j) ^ 2)

/-- `lam` is the ridge parameter for extreme singular values `s0 ≥ sm`: with adjustment and a condition number `s0/sm` above the threshold, the one
for which `(s0 + lam)/(sm + lam)` is the threshold; the global parameter `lambda` otherwise. -/
def RidgeParameter (lambda : ℝ) (adjust : Bool) (thresh s0 sm lam : ℝ) : Prop :=
  (adjust = true ∧ thresh * sm < s0 ∧ 0 < sm + lam ∧ (s0 + lam) / (sm + lam) = thresh) ∨ (¬ (adjust = true ∧ thresh * sm < s0) ∧ lam = lambda)

/-- `b` is the local ridge estimate for weights `w`: the unique minimiser of the ridge objective whose scales are the standard deviations of the
variables (1 for the first column) and whose parameter follows from the extreme singular values of the weighted columns of unit length. -/
def IsLocalRidge (lambda : ℝ) (adjust : Bool) (thresh : ℝ) (x : Matrix (Fin n) (Fin k) ℝ) (y w : Fin n → ℝ) (b : Fin k → ℝ) : Prop :=
  ∃ (s0 sm lam : ℝ) (s : Fin k → ℝ), IsLargestSV (unitColumns x w) s0 ∧ IsSmallestSV (unitColumns x w) sm ∧
    RidgeParameter lambda adjust thresh s0 sm lam ∧
    (∀ j, j.val = 0 → s j = 1) ∧ (∀ j, j.val ≠ 0 → IsStdDev (fun l => x l j) (s j)) ∧
    ∀ b', b' ≠ b → ridgeObjective x y w s lam b < ridgeObjective x y w s lam b'

end Verif.Spec

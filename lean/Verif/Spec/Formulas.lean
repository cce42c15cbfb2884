import Mathlib.Analysis.SpecialFunctions.Trigonometric.Basic
import Mathlib.Analysis.Real.Sqrt
import Verif.Model.Kernel

/-! Textbook formulas of the kernels and of the distances. -/

namespace Verif.Spec
open Verif.Model

/-- The weight that a kernel of bandwidth `b` gives to distance `d`, as in the documentation of the library
(`\exp(-(d/b)^2/2)` and so on). -/
noncomputable def kernelFormula : KernelType → ℝ → ℝ → ℝ
  | .Gaussian, b, d => Real.exp (-(d / b) ^ 2 / 2)
  | .Exponential, b, d => Real.exp (-(d / b))
  | .Bisquare, b, d => if d < b then (1 - (d / b) ^ 2) ^ 2 else 0
  | .Tricube, b, d => if d < b then (1 - (d / b) ^ 3) ^ 3 else 0
  | .Boxcar, b, d => if d < b then 1 else 0

/-- The spatio-temporal distance from the focus at `(x, y)` and time `t` to an observation at `(x', y')` and time `t'`, with
weight `lam` of space and mixing coefficient `c`: observations of the future are far away, unless only space counts. -/
noncomputable def spaceTime (lam c x y t x' y' t' : ℝ) : ℝ :=
  let s := √((x' - x) ^ 2 + (y' - y) ^ 2)
  if lam ≠ 1 ∧ t < t' then 10 ^ 13
  else lam * s + (1 - lam) * |t - t'| + 2 * √(lam * (1 - lam) * s * |t - t'|) * c

/-- `M` is attained as largest and `m` as smallest value of a family of distances given row by row: `rows i` is what the
object returns for focus `i`. -/
def SharpBounds (rows : ℕ → Res (List ℝ)) (M m : ℝ) : Prop :=
  (∀ i l, rows i = .ok l → ∀ x ∈ l, m ≤ x ∧ x ≤ M) ∧ (∃ i l, rows i = .ok l ∧ M ∈ l) ∧ (∃ i l, rows i = .ok l ∧ m ∈ l)

end Verif.Spec

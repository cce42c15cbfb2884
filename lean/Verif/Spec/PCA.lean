import Verif.Spec.Summary
import Mathlib.LinearAlgebra.Matrix.Notation
import Mathlib.Data.Matrix.Mul
import Mathlib.Data.Matrix.Diagonal

/-! Specification vocabulary for principal components. -/

namespace Verif.Spec
open Matrix

/-- `d` (decreasing, non-negative) and the columns of the orthogonal matrix `V` are singular values and right singular vectors of `A`: the
columns of `A V` are orthogonal with lengths `d`. -/
structure IsRightSVD {n p : ℕ} (A : Matrix (Fin n) (Fin p) ℝ) (d : Fin p → ℝ) (V : Matrix (Fin p) (Fin p) ℝ) : Prop where
  nonneg : ∀ j, 0 ≤ d j
  anti : Antitone d
  orth : Vᵀ * V = 1
  gram : (A * V)ᵀ * (A * V) = diagonal fun j => d j ^ 2

/-- The score of the observations along the direction `v`: `∑ c, x l c * v c`. -/
def score {n p : ℕ} (x : Matrix (Fin n) (Fin p) ℝ) (v : Fin p → ℝ) (l : Fin n) : ℝ := ∑ c, x l c * v c

/-- Share of observation `l` in the total weight. -/
noncomputable def shareOf {n : ℕ} (w : Fin n → ℝ) (l : Fin n) : ℝ := w l / ∑ m, w m

/-- `load` and `pct` are the first principal components of the data `x` with shares `s`: orthonormal directions, each with the largest variance of
scores among all directions orthogonal to those before it; `pct` are their percentages of the total variance. -/
structure IsPrincipal {n p K : ℕ} (s : Fin n → ℝ) (x : Matrix (Fin n) (Fin p) ℝ) (load : Fin K → Fin p → ℝ) (pct : Fin K → ℝ) : Prop where
  orthonormal : ∀ j j', ∑ c, load j c * load j' c = if j = j' then 1 else 0
  best : ∀ j u, ∑ c, u c ^ 2 = 1 → (∀ j', j' < j → ∑ c, load j' c * u c = 0) → wvar s (score x u) ≤ wvar s (score x (load j))
  percent : ∀ j, pct j = 100 * wvar s (score x (load j)) / ∑ c, wvar s (fun l => x l c)
  range : ∀ j, 0 ≤ pct j ∧ pct j ≤ 100
  decreasing : ∀ j j', j ≤ j' → pct j' ≤ pct j

end Verif.Spec

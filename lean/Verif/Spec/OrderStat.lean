import Mathlib.Data.Set.Card
import Mathlib.Data.Real.Basic

/-! Specification vocabulary: order statistics of a finite family of reals, defined by counting. -/

namespace Verif.Spec

/-- `t` is the `k`-th smallest (counting from 1, with multiplicity) of the values `v`. -/
def IsKthSmallest {n : ℕ} (v : Fin n → ℝ) (k : ℕ) (t : ℝ) : Prop :=
  (∃ i, v i = t) ∧ {i | v i < t}.ncard < k ∧ k ≤ {i | v i ≤ t}.ncard

/-- `t` is the largest of the values `v`. -/
def IsLargest {n : ℕ} (v : Fin n → ℝ) (t : ℝ) : Prop := (∃ i, v i = t) ∧ ∀ i, v i ≤ t

end Verif.Spec

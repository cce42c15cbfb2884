import Mathlib.Data.Real.Basic
import Mathlib.Data.List.Basic

/-! # Specification of greedy forward selection, independent of the implementation -/

namespace Verif.Spec

/-- The candidate variables at the given positions. -/
def names (vars index : List ℕ) : List ℕ := index.map fun i => vars.getD i 0

/-- `visited` (models with their criteria, over candidates `0 … k-1`) is a complete greedy forward search that added the
candidates in the order `path`: at stage `s` the models visited are exactly the current model `path.take s` extended by one
candidate not in it, and the model continued with is one of smallest criterion among them. -/
structure GreedySearch (k : ℕ) (path : List ℕ) (visited : List (List ℕ × ℝ)) : Prop where
  perm : path.Perm (List.range k)
  covers : ∀ s < k, ∀ v < k, v ∉ path.take s → ∃ c, (path.take s ++ [v], c) ∈ visited
  only : ∀ m ∈ visited, ∃ s < k, ∃ v < k, v ∉ path.take s ∧ m.1 = path.take s ++ [v]
  best : ∀ s < k, ∃ c, (path.take (s + 1), c) ∈ visited ∧ ∀ m ∈ visited, m.1.length = s + 1 → c ≤ m.2

/-- `m` is the model at the last position where the criterion drops by at least `thr` from the preceding entry. -/
def LastGap (thr : ℝ) (models : List (List ℕ × ℝ)) (m : List ℕ × ℝ) : Prop :=
  ∃ i, ∃ h : i + 1 < models.length, models[i + 1] = m ∧ models[i].2 - models[i + 1].2 ≥ thr ∧
    ∀ j, ∀ hj : j + 1 < models.length, i < j → models[j].2 - models[j + 1].2 < thr

end Verif.Spec

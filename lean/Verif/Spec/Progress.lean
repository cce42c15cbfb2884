import Mathlib.Data.Real.Basic
import Mathlib.Data.List.Basic

/-! Specification vocabulary for progress reports. -/

namespace Verif.Spec

/-- A progress bar fed with these reports (current, total) never shows more than its total. -/
def WithinTotal (l : List (ℕ × ℕ)) : Prop := ∀ r ∈ l, r.1 ≤ r.2

/-- It never moves backwards. -/
def NeverBack (l : List (ℕ × ℕ)) : Prop := l.Pairwise fun a b => a.1 ≤ b.1

/-- The reports of the first `q` of `total` steps, in order. -/
def stepReports (q total : ℕ) : List (ℕ × ℕ) := (List.range q).map fun i => (i + 1, total)

/-- A percentage, as a fraction of one. -/
def IsFraction (p : ℝ) : Prop := 0 ≤ p ∧ p ≤ 1

end Verif.Spec

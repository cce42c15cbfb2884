import Verif.Spec.Summary
import Verif.Spec.PCA

/-! What the tables of local summary statistics hold. An entry `none` is one that is not a number. -/

namespace Verif.Spec
open Classical

variable {n k c : ℕ}

/-- The weighted statistics of one variable with shares `p`, as the tables of the average mode hold them. -/
structure IsSummary (p x : Fin n → ℝ) (mean var sd skew lcv : Option ℝ) : Prop where
  mean : mean = some (wmean p x)
  var : var = some (wvar p x)
  sd : sd = some √(wvar p x)
  skew : skew = if wvar p x = 0 then none else some (wthird p x / √(wvar p x) ^ 3)
  lcv : lcv = if wmean p x = 0 then none else some (√(wvar p x) / wmean p x)

/-- The quartiles of one variable with shares `p`, and the tables made from them. -/
structure IsQuartiles (p x : Fin n → ℝ) (q : Fin 3 → ℝ) (median iqr qi : Option ℝ) : Prop where
  quantile : ∀ t : Fin 3, IsLowerQuantile p x ((t.val + 1 : ℝ) / 4) (q t)
  median : median = some (q 1)
  iqr : iqr = some (q 2 - q 0)
  qi : qi = if q 2 - q 0 = 0 then none else some ((2 * q 1 - q 2 - q 0) / (q 2 - q 0))

/-- The statistics of a pair of variables with shares `p`; `r₁`, `r₂` are their ranks. -/
structure IsPairSummary (p x₁ x₂ r₁ r₂ : Fin n → ℝ) (cov cor rankCor : Option ℝ) : Prop where
  cov : cov = if ∑ l, p l ^ 2 = 1 then none else some (wcov p x₁ x₂ / (1 - ∑ l, p l ^ 2))
  cor : cor = wcor p x₁ x₂
  rankCor : rankCor = wcor p r₁ r₂

/-- Which columns the correlation tables have: one for each pair of different variables (each pair with the first one, if only those are asked for), in
lexicographic order. -/
structure IsPairing (firstOnly : Bool) (pair : Fin c → Fin k × Fin k) : Prop where
  lex : ∀ a a', a < a' → (pair a).1 < (pair a').1 ∨ ((pair a).1 = (pair a').1 ∧ (pair a).2 < (pair a').2)
  all : ∀ j l : Fin k, (∃ a, pair a = (j, l)) ↔ j < l ∧ (firstOnly = true → j.val = 0)

end Verif.Spec

import Mathlib.Data.Real.Basic
import Mathlib.Algebra.BigOperators.Fin

/-! # Specification of weighted covariances (C141) -/

namespace Verif.Spec
variable {n : ℕ}

/-- The mean of `v` with weights `w`. -/
noncomputable def centre (w v : Fin n → ℝ) : ℝ := (∑ l, w l * v l) / ∑ l, w l

/-- The weighted covariance that is unbiased for weights of reliability: the weighted sum of the products of deviations, divided by `V₁ - V₂ / V₁` with `V₁` the
sum of the weights and `V₂` the sum of their squares. -/
noncomputable def reliabilityCov (w u v : Fin n → ℝ) : ℝ :=
  (∑ l, w l * ((u l - centre w u) * (v l - centre w v))) / ((∑ l, w l) - (∑ l, w l ^ 2) / ∑ l, w l)

/-- The sample covariance, with divisor `n - 1`. -/
noncomputable def sampleCov (u v : Fin n → ℝ) : ℝ := (∑ l, (u l - (∑ m, u m) / n) * (v l - (∑ m, v m) / n)) / (n - 1)

end Verif.Spec

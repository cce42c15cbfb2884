import Mathlib.Analysis.SpecialFunctions.Gamma.Basic
import Mathlib.Algebra.BigOperators.Fin

/-! # Generalised linear models, independent of the implementation -/

namespace Verif.Spec

variable {n k : ℕ}

/-- Log-likelihood of independent Poisson counts with log-linear means, up to a term that does not depend on the coefficients. -/
noncomputable def poissonLL (x : Matrix (Fin n) (Fin k) ℝ) (y : Fin n → ℝ) (b : Fin k → ℝ) : ℝ :=
  ∑ i, (y i * (∑ j, x i j * b j) - Real.exp (∑ j, x i j * b j))

/-- Log-likelihood of independent Bernoulli responses with the logistic link. -/
noncomputable def logisticLL (x : Matrix (Fin n) (Fin k) ℝ) (y : Fin n → ℝ) (b : Fin k → ℝ) : ℝ :=
  ∑ i, (y i * (∑ j, x i j * b j) - Real.log (1 + Real.exp (∑ j, x i j * b j)))

/-- Log-probability of the count `y` under a Poisson law with mean `mu`. -/
noncomputable def poissonLogPmf (y mu : ℝ) : ℝ := y * Real.log mu - mu - Real.log (Real.Gamma (y + 1))

/-- Akaike's information criterion with `p` estimated parameters. -/
def aicOf (loglik : ℝ) (p : ℕ) : ℝ := -2 * loglik + 2 * p

/-- The small-sample correction of the information criterion for `k` parameters and `n` observations. -/
noncomputable def aiccCorrection (n k : ℕ) : ℝ := 2 * k * (k + 1) / (n - k - 1)

/-- Contribution of one observation to the Poisson deviance; `0 log 0 = 0`. -/
noncomputable def poissonUnitDev (y mu : ℝ) : ℝ := 2 * (y * Real.log (y / mu) - (y - mu))

/-- Contribution of one observation to the binomial deviance; `0 log 0 = 0`. -/
noncomputable def binomialUnitDev (y mu : ℝ) : ℝ := 2 * (y * Real.log (y / mu) + (1 - y) * Real.log ((1 - y) / (1 - mu)))

end Verif.Spec

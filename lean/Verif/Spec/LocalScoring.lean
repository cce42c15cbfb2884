import Verif.Spec.GLM
import Verif.Spec.Regression

/-! Calibration of geographically weighted generalised regression, independent of the implementation. -/

namespace Verif.Spec

variable {n k : ℕ}

/-- A response family with its canonical link: mean of a linear predictor, variance of a mean, log-probability of a response for a mean. -/
structure LocalFamily where
  mean : ℝ → ℝ
  var : ℝ → ℝ
  logProb : ℝ → ℝ → ℝ

/-- Counts with the logarithmic link. -/
noncomputable def poissonLocal : LocalFamily := ⟨Real.exp, fun m => m, poissonLogPmf⟩

/-- Log-probability of `y` successes in one trial; the first three terms are zero for `y = 0` and `y = 1`. -/
noncomputable def bernoulliLogPmf (y mu : ℝ) : ℝ :=
  Real.log (Real.Gamma 2) - Real.log (Real.Gamma (2 - y)) - Real.log (Real.Gamma (y + 1)) + (1 - y) * Real.log (1 - mu) + y * Real.log mu

/-- Binary responses with the logistic link. -/
noncomputable def bernoulliLocal : LocalFamily := ⟨fun e => 1 / (1 + Real.exp (-e)), fun m => m * (1 - m), bernoulliLogPmf⟩

/-- The linear predictors, means, working weights and coefficients (one row per location) of successive iterations. -/
structure Sequence (n k : ℕ) where
  eta : ℕ → Fin n → ℝ
  mu : ℕ → Fin n → ℝ
  v : ℕ → Fin n → ℝ
  b : ℕ → Fin n → Fin k → ℝ

/-- The working response of iteration `t`. -/
noncomputable def Sequence.work (q : Sequence n k) (F : LocalFamily) (y : Fin n → ℝ) (t : ℕ) (l : Fin n) : ℝ :=
  q.eta t l + (y l - q.mu t l) / F.var (q.mu t l)

/-- The log-likelihood after `t` iterations; 0 before the first. -/
noncomputable def Sequence.loglik (q : Sequence n k) (F : LocalFamily) (y : Fin n → ℝ) (t : ℕ) : ℝ :=
  if t = 0 then 0 else ∑ l, F.logProb (y l) (q.mu t l)

/-- The relative change of the log-likelihood in iteration `t` (counted from 0) is below the tolerance. -/
def Sequence.settled (q : Sequence n k) (F : LocalFamily) (y : Fin n → ℝ) (tol : ℝ) (t : ℕ) : Prop :=
  q.loglik F y (t + 1) ≠ 0 ∧ |q.loglik F y t - q.loglik F y (t + 1)| / |q.loglik F y (t + 1)| < tol

/-- `N` iterations: at every location the weighted least squares fit of the working response, with spatial weight times working weight; then the linear
predictor of an observation is that of its own location, and the working weight its variance. -/
def Sequence.Iterates (q : Sequence n k) (F : LocalFamily) (x : Matrix (Fin n) (Fin k) ℝ) (y : Fin n → ℝ) (W : Fin n → Fin n → ℝ) (N : ℕ) : Prop :=
  ∀ t < N, (∀ i, IsWLS x (q.work F y t) (fun l => W i l * q.v t l) (q.b (t + 1) i)) ∧
    (∀ i, q.eta (t + 1) i = ∑ j, x i j * q.b (t + 1) i j) ∧ (∀ i, q.mu (t + 1) i = F.mean (q.eta (t + 1) i)) ∧
    ∀ i, q.v (t + 1) i = F.var (q.mu (t + 1) i)

/-- Start for counts: linear predictor `log (y + 0.1)`, working weights 1. -/
def Sequence.StartsPoisson (q : Sequence n k) (y : Fin n → ℝ) : Prop :=
  ∀ l, q.mu 0 l = y l + 1 / 10 ∧ q.eta 0 l = Real.log (y l + 1 / 10) ∧ q.v 0 l = 1

/-- Start for binary responses: mean one half, working weights 1. -/
def Sequence.StartsBernoulli (q : Sequence n k) : Prop := ∀ l, q.mu 0 l = 1 / 2 ∧ q.eta 0 l = 0 ∧ q.v 0 l = 1

/-- The locally weighted Poisson log-likelihood of coefficients `b`, up to a constant. -/
noncomputable def localPoissonLL (x : Matrix (Fin n) (Fin k) ℝ) (y w : Fin n → ℝ) (b : Fin k → ℝ) : ℝ :=
  ∑ l, w l * (y l * (∑ j, x l j * b j) - Real.exp (∑ j, x l j * b j))

end Verif.Spec

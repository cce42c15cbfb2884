import Verif.Spec.GLM
import Verif.Spec.Regression

/-! Iteratively reweighted least squares for generalised linear models, independent of the implementation. -/

namespace Verif.Spec

variable {n k : ℕ}

/-- A family: inverse link, its derivative, variance function and unit deviance. -/
structure ExpFamily where
  mean : ℝ → ℝ
  slope : ℝ → ℝ
  var : ℝ → ℝ
  unitDev : ℝ → ℝ → ℝ

/-- Poisson with the logarithmic link; means are kept from underflow. -/
noncomputable def poissonFamily : ExpFamily where
  mean e := max (Real.exp e) (2.220446 / 10 ^ 16)
  slope e := max (Real.exp e) (2.220446 / 10 ^ 16)
  var m := m
  unitDev := poissonUnitDev

/-- Bernoulli with the logistic link. -/
noncomputable def logisticFamily : ExpFamily where
  mean e := 1 / (1 + Real.exp (-e))
  slope e := 1 / (1 + Real.exp (-e)) * (1 - 1 / (1 + Real.exp (-e)))
  var m := m * (1 - m)
  unitDev := binomialUnitDev

/-- Deviance at a linear predictor. -/
noncomputable def ExpFamily.deviance (F : ExpFamily) (y eta : Fin n → ℝ) : ℝ := ∑ i, F.unitDev (y i) (F.mean (eta i))

/-- `N` iterations from the linear predictor `eta 0`: every next one belongs to the coefficients of the weighted least squares fit of the working response
with the working weights of the last one. -/
def ExpFamily.IsIRLS (F : ExpFamily) (x : Matrix (Fin n) (Fin k) ℝ) (y : Fin n → ℝ) (N : ℕ) (b : ℕ → Fin k → ℝ) (eta : ℕ → Fin n → ℝ) : Prop :=
  ∀ t < N, IsWLS x (fun i => eta t i + (y i - F.mean (eta t i)) / F.slope (eta t i))
      (fun i => F.slope (eta t i) ^ 2 / F.var (F.mean (eta t i))) (b (t + 1)) ∧
    ∀ i, eta (t + 1) i = ∑ j, x i j * b (t + 1) j

/-- The deviance has settled: its relative change is below 1e-8. -/
def Settled (d d0 : ℝ) : Prop := |d - d0| / (1 / 10 + |d|) < 1 / 10 ^ 8

end Verif.Spec

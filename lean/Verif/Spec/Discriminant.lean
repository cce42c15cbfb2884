import Mathlib.LinearAlgebra.Matrix.NonsingularInverse
import Mathlib.Analysis.SpecialFunctions.Log.Basic
import Mathlib.Data.Real.Basic

/-! Specification vocabulary for discriminant analysis: `y l` is the class of observation `l`, `w l` its weight. -/

namespace Verif.Spec
open Matrix

variable {n k : ℕ} {α : Type} [DecidableEq α]

/-- Total weight of a class. -/
def classTotal (y : Fin n → α) (w : Fin n → ℝ) (s : α) : ℝ := ∑ l with y l = s, w l

/-- Share of an observation in the weight of its class. -/
noncomputable def classP (y : Fin n → α) (w : Fin n → ℝ) (s : α) (l : Fin n) : ℝ := w l / classTotal y w s

/-- Weighted mean of a class. -/
noncomputable def classMean (x : Matrix (Fin n) (Fin k) ℝ) (y : Fin n → α) (w : Fin n → ℝ) (s : α) : Fin k → ℝ :=
  fun c => ∑ l with y l = s, classP y w s l * x l c

/-- Unbiased weighted covariance matrix of a class. -/
noncomputable def classCov (x : Matrix (Fin n) (Fin k) ℝ) (y : Fin n → α) (w : Fin n → ℝ) (s : α) : Matrix (Fin k) (Fin k) ℝ :=
  Matrix.of fun a b => (∑ l with y l = s, classP y w s l * ((x l a - classMean x y w s a) * (x l b - classMean x y w s b))) /
    (1 - ∑ l with y l = s, classP y w s l ^ 2)

/-- Covariance matrix pooled over the classes in proportion to their sizes. -/
noncomputable def pooled (x : Matrix (Fin n) (Fin k) ℝ) (y : Fin n → α) (w : Fin n → ℝ) : Matrix (Fin k) (Fin k) ℝ :=
  Matrix.of fun a b => (∑ s ∈ Finset.univ.image y, (Fintype.card {l // y l = s} : ℝ) * classCov x y w s a b) / n

/-- Prior probability of a class: its share in the total weight. -/
noncomputable def classPrior (y : Fin n → α) (w : Fin n → ℝ) (s : α) : ℝ := classTotal y w s / ∑ l, w l

/-- The linear discriminant rule prefers the class with the smallest value of this: half the squared Mahalanobis distance to the mean
of the class minus the logarithm of the prior. -/
noncomputable def ldaCost (z mean : Fin k → ℝ) (cov : Matrix (Fin k) (Fin k) ℝ) (prior : ℝ) : ℝ :=
  1 / 2 * ((z - mean) ⬝ᵥ (cov⁻¹ *ᵥ (z - mean))) - Real.log prior

/-- The quadratic discriminant rule prefers the class with the smallest value of this: the linear one with the covariance of the class, plus half the
logarithm of its determinant. -/
noncomputable def qdaCost (z mean : Fin k → ℝ) (cov : Matrix (Fin k) (Fin k) ℝ) (prior : ℝ) : ℝ :=
  1 / 2 * Real.log cov.det + ldaCost z mean cov prior

/-- Shannon entropy of a distribution, in bits. -/
noncomputable def entropyBits {m : ℕ} (q : Fin m → ℝ) : ℝ := ∑ i, q i * (Real.log (1 / q i) / Real.log 2)

end Verif.Spec

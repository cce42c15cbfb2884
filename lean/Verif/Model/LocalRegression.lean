import Verif.Core.Loops
import Mathlib.LinearAlgebra.Matrix.PosDef
import Mathlib.LinearAlgebra.Matrix.NonsingularInverse
import Mathlib.Data.Real.Basic
import Mathlib.Algebra.Order.Star.Real

/-!
# Model of a local weighted regression

The few lines every GWR-like algorithm repeats at each location (GWRBasic.cpp:262-272, 297-306, 330-341, 217-225, …).
Matrices are Mathlib matrices over ℝ; row `i` of `x` is the covariate vector of observation `i`.
-/

namespace Verif.Model
open Verif Matrix Classical

variable {n k : ℕ}

/-- `trans(x.each_col() % w)`: the transposed design with observation `i` scaled by `w i`. -/
def xtw (x : Matrix (Fin n) (Fin k) ℝ) (w : Fin n → ℝ) : Matrix (Fin k) (Fin n) ℝ := Matrix.of fun j i => x i j * w i

/-- `xtw * x`. -/
def xtwx (x : Matrix (Fin n) (Fin k) ℝ) (w : Fin n → ℝ) : Matrix (Fin k) (Fin k) ℝ := xtw x w * x

/-- Armadillo `inv_sympd(A)`: the inverse of a symmetric positive definite matrix; throws `std::runtime_error` otherwise.
Simplification: Armadillo decides this in floating point by a Cholesky factorisation. -/
noncomputable def invSympd (A : Matrix (Fin k) (Fin k) ℝ) : Res (Matrix (Fin k) (Fin k) ℝ) :=
  if A.PosDef then .ok A⁻¹ else .throw .singular

/-- Armadillo `inv(A)`: the inverse of a non-singular matrix; throws otherwise. -/
noncomputable def invGeneral (A : Matrix (Fin k) (Fin k) ℝ) : Res (Matrix (Fin k) (Fin k) ℝ) :=
  if IsUnit A.det then .ok A⁻¹ else .throw .singular

/-- What one location produces: coefficients, `ci = (X'WX)⁻¹ X'W`, and `si = x.row(i) * ci`. -/
structure LocalFit (n k : ℕ) where
  beta : Fin k → ℝ
  ci : Matrix (Fin k) (Fin n) ℝ
  si : Fin n → ℝ

/-- GWRBasic.cpp:262-274: one location with weights `w`; `xi` is the covariate row used for the hat row. -/
noncomputable def localFit (x : Matrix (Fin n) (Fin k) ℝ) (y w : Fin n → ℝ) (xi : Fin k → ℝ) : Res (LocalFit n k) :=
  (invSympd (xtwx x w)).bind fun inv =>
    .ok { beta := inv *ᵥ (xtw x w *ᵥ y), ci := inv * xtw x w, si := xi ᵥ* (inv * xtw x w) }

/-- GWRBase.h:41-44 `Fitted`: `sum(betas % x, 1)`; row `i` of `betas` belongs to observation `i`. -/
def fitted (x betas : Matrix (Fin n) (Fin k) ℝ) (i : Fin n) : ℝ := ∑ j, betas i j * x i j

/-- GWRBase.h:63-67 `RSS`. -/
def rss (x : Matrix (Fin n) (Fin k) ℝ) (y : Fin n → ℝ) (betas : Matrix (Fin n) (Fin k) ℝ) : ℝ :=
  ∑ i, (y i - fitted x betas i) * (y i - fitted x betas i)

end Verif.Model

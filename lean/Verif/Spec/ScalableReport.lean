import Mathlib.LinearAlgebra.Matrix.NonsingularInverse
import Verif.Spec.Scalable

/-! # Scalable regression: the quantities reported beside the coefficients, in terms of the weights -/

namespace Verif.Spec

variable {n k : ℕ}

/-- The sum of the squares of the terms whose sum is `polyKernel`. -/
noncomputable def polySquares (P : ℕ) (b g : ℝ) : ℝ :=
  (b ^ 2 + ∑ q ∈ Finset.Icc 1 P, (b ^ (q + 1) * g ^ ((2 : ℝ) ^ ((P : ℝ) / 2) / 2 ^ q)) ^ 2) / (∑ q ∈ Finset.range (P + 1), b ^ (q + 1)) ^ 2

open Classical in
/-- The weights `W` of scalable regression (`ScalableWeights`) and, beside them, what is used in place of their squares: `a²`, and for a neighbour
`2 a` times its kernel plus the sum of the squares of the terms of its kernel. -/
def ScalablePair {m : ℕ} (base : ℝ → ℝ → ℝ) (d : Fin m → Fin n → ℝ) (q P : ℕ) (b a : ℝ) (W V : Fin m → Fin n → ℝ) : Prop :=
  ∃ (r : Fin m → ℝ) (med : ℝ), (∀ i, IsKthSmallest (d i) (min 50 q) (r i)) ∧ IsMedian r med ∧ ∀ i, ∃ l, IsNearest (d i) q l ∧
    ∀ j, W i j = (a + if j ∈ l then polyKernel P b (base med (d i j)) else 0) ∧
      V i j = (a ^ 2 + if j ∈ l then 2 * a * polyKernel P b (base med (d i j)) + polySquares P b (base med (d i j)) else 0)

/-- The matrix with entries `∑ₗ wₗ xₗₐ xₗᵦ`. -/
noncomputable def crossProduct (x : Matrix (Fin n) (Fin k) ℝ) (w : Fin n → ℝ) : Matrix (Fin k) (Fin k) ℝ :=
  Matrix.of fun a b => ∑ l, w l * (x l a * x l b)

/-- What scalable regression reports as the trace of the hat matrix: `∑ᵢ xᵢᵀ (MᵢMᵢ)⁻¹ xᵢ`. -/
noncomputable def scalableTrace (x : Matrix (Fin n) (Fin k) ℝ) (W : Fin n → Fin n → ℝ) : ℝ :=
  ∑ i, dotProduct (x i) (Matrix.mulVec (crossProduct x (W i) * crossProduct x (W i))⁻¹ (x i))

/-- What it reports as the trace of the hat matrix times its transpose: `∑ᵢ xᵢᵀ (MᵢMᵢ)⁻¹ Vᵢ (MᵢMᵢ)⁻¹ xᵢ`. -/
noncomputable def scalableTrace2 (x : Matrix (Fin n) (Fin k) ℝ) (W V : Fin n → Fin n → ℝ) : ℝ :=
  ∑ i, dotProduct (Matrix.mulVec (crossProduct x (W i) * crossProduct x (W i))⁻¹ (x i))
    (Matrix.mulVec (crossProduct x (V i)) (Matrix.mulVec (crossProduct x (W i) * crossProduct x (W i))⁻¹ (x i)))

/-- The factor of the residual variance in the square of the reported standard error of coefficient `j` at location `i`:
`√((MᵢMᵢ)⁻¹ Vᵢ (MᵢMᵢ)⁻¹)ⱼⱼ`. -/
noncomputable def scalableSpread (x : Matrix (Fin n) (Fin k) ℝ) (W V : Fin n → Fin n → ℝ) (i : Fin n) (j : Fin k) : ℝ :=
  Real.sqrt (((crossProduct x (W i) * crossProduct x (W i))⁻¹ * crossProduct x (V i) * (crossProduct x (W i) * crossProduct x (W i))⁻¹) j j)

open Classical in
/-- The weights with which the search by the corrected Akaike criterion works, for a bandwidth of `q` observations (`c` of which are listed as
nearest): as in `ScalableWeights`, but each observation is counted once more as its own neighbour at distance 0, and the median is taken
over the distances to the `min 50 q - 1`-th nearest observation. -/
def ScalableSearchWeights (base : ℝ → ℝ → ℝ) (d : Fin n → Fin n → ℝ) (q c P : ℕ) (b a : ℝ) (W : Fin n → Fin n → ℝ) : Prop :=
  ∃ (r : Fin n → ℝ) (med : ℝ), (∀ i, IsKthSmallest (d i) (min 50 q - 1) (r i)) ∧ IsMedian r med ∧ ∀ i, ∃ l, IsNearest (d i) c l ∧
    ∀ j, W i j = a + (if j = i then 1 else 0) * polyKernel P b 1 + if j ∈ l then polyKernel P b (base med (d i j)) else 0

end Verif.Spec

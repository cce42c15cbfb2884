import Mathlib.Analysis.SpecialFunctions.Pow.Real
import Mathlib.Data.Matrix.Mul
import Mathlib.LinearAlgebra.Matrix.NonsingularInverse
import Verif.Spec.OrderStat

/-! # Scalable regression: nearest neighbours and polynomial kernel weights, independent of the implementation -/

namespace Verif.Spec

variable {n k : ℕ}

/-- `l` lists `cnt` different points, in the order of their distance `d`, and none of the others is closer. -/
structure IsNearest (d : Fin n → ℝ) (cnt : ℕ) (l : List (Fin n)) : Prop where
  nodup : l.Nodup
  length : l.length = cnt
  ordered : l.Pairwise fun a b => d a ≤ d b
  nearest : ∀ a ∈ l, ∀ b, b ∉ l → d a ≤ d b

/-- The polynomial kernel of degree `P` with scale `b` for a neighbour with base weight `g`: the mean of `1, g^(e/2), g^(e/4), …` with
`e = 2^(P/2)`, weighted by `b, b², b³, …`. -/
noncomputable def polyKernel (P : ℕ) (b g : ℝ) : ℝ :=
  (b + ∑ q ∈ Finset.Icc 1 P, b ^ (q + 1) * g ^ ((2 : ℝ) ^ ((P : ℝ) / 2) / 2 ^ q)) / ∑ q ∈ Finset.range (P + 1), b ^ (q + 1)

/-- The weight of observation `l`: the global term `a`, plus the kernel for each time it is listed as a neighbour. -/
noncomputable def polyWeight (P : ℕ) (b a : ℝ) (nei : List (Fin n × ℝ)) (l : Fin n) : ℝ :=
  a + ((nei.filter fun j => j.1 = l).map fun j => polyKernel P b j.2).sum

/-- The leverage of observation `i` in the regression with weights `w`: the diagonal element of the hat matrix. -/
noncomputable def leverage (x : Matrix (Fin n) (Fin k) ℝ) (w : Fin n → ℝ) (i : Fin n) : ℝ :=
  dotProduct (x i) (Matrix.mulVec (Matrix.of fun a b => ∑ l, x l a * w l * x l b : Matrix (Fin k) (Fin k) ℝ)⁻¹ (x i)) * w i

/-- The entry of the hat matrix that tells how the response of observation `l` enters the fitted value of observation `i` in the regression with
weights `w`. -/
noncomputable def hatEntry (x : Matrix (Fin n) (Fin k) ℝ) (w : Fin n → ℝ) (i l : Fin n) : ℝ :=
  dotProduct (x i) (Matrix.mulVec (Matrix.of fun a b => ∑ l, x l a * w l * x l b : Matrix (Fin k) (Fin k) ℝ)⁻¹ (x l)) * w l

/-- `q` is the median of the values `v`: the middle one in order, or the mean of the two middle ones if their number is even. -/
def IsMedian {m : ℕ} (v : Fin m → ℝ) (q : ℝ) : Prop :=
  ∃ lo hi, IsKthSmallest v ((m + 1) / 2) lo ∧ IsKthSmallest v (m / 2 + 1) hi ∧ q = (lo + hi) / 2

open Classical in
/-- The weights of scalable regression at locations with distances `d` to the observations, with `q` neighbours: the base weight of a
neighbour is `base med` of its distance, where `med` is the median over the locations of the distance to the `min 50 q`-th nearest
observation; the weight is the polynomial kernel of that for the `q` nearest observations, plus `a` for all. -/
def ScalableWeights {m : ℕ} (base : ℝ → ℝ → ℝ) (d : Fin m → Fin n → ℝ) (q P : ℕ) (b a : ℝ) (W : Fin m → Fin n → ℝ) : Prop :=
  ∃ (r : Fin m → ℝ) (med : ℝ), (∀ i, IsKthSmallest (d i) (min 50 q) (r i)) ∧ IsMedian r med ∧ ∀ i, ∃ l, IsNearest (d i) q l ∧
    ∀ j, W i j = a + if j ∈ l then polyKernel P b (base med (d i j)) else 0

/-- The base weight with the Gaussian kernel. -/
noncomputable def baseGauss (med d : ℝ) : ℝ := Real.exp (-3 * (d / med) ^ 2)

/-- The base weight with the kernel called exponential. -/
noncomputable def baseExp (med d : ℝ) : ℝ := Real.exp (-9 * (d / med) ^ 2)

end Verif.Spec

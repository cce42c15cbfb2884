import Verif.Spec.GWRDefinition
import Verif.Spec.Scalable
import Verif.Spec.KernelWeight

/-! Scores of a bandwidth, and space-time regression: distance and local fit. -/

namespace Verif.Spec
open Verif.Model

variable {n k : ℕ}

open Classical in
/-- `v` is the leave-one-out score of the weights `W`: the sum of squared errors of predicting every observation by the local fit that gives it weight
zero; `worst` if one of these fits is not determined or the sum is larger. -/
def IsLeaveOneOut (x : Matrix (Fin n) (Fin k) ℝ) (y : Fin n → ℝ) (W : Fin n → Fin n → ℝ) (worst v : ℝ) : Prop :=
  (∃ B : Matrix (Fin n) (Fin k) ℝ, (∀ i, IsWLS x y (fun l => if l = i then 0 else W i l) (B i)) ∧ v = min (residualSS x y B) worst) ∨
  ((∃ i, ¬ Determined x fun l => if l = i then 0 else W i l) ∧ v = worst)

open Classical in
/-- `v` is the corrected AIC of the local fits with weights `W`; `worst` if one of them is not determined or the formula has no value in
`[-worst, worst]`. -/
def IsCorrectedAIC (x : Matrix (Fin n) (Fin k) ℝ) (y : Fin n → ℝ) (W : Fin n → Fin n → ℝ) (worst v : ℝ) : Prop :=
  (∃ B : Matrix (Fin n) (Fin k) ℝ, (∀ i, IsWLS x y (W i) (B i)) ∧
    v = if 0 < residualSS x y B ∧ ∑ i, leverage x (W i) i ≠ n - 2 ∧ |aiccFormula n (residualSS x y B) (∑ i, leverage x (W i) i)| ≤ worst
      then aiccFormula n (residualSS x y B) (∑ i, leverage x (W i) i) else worst) ∨
  ((∃ i, ¬ Determined x (W i)) ∧ v = worst)

/-- The space-time distance from a focus at the point `p` and time `t` to an observation at the point `q` and time `u`. -/
noncomputable def stDist (l c : ℝ) (p q : ℕ → ℝ) (t u : ℝ) : ℝ := spaceTime l c (p 0) (p 1) t (q 0) (q 1) u

/-- `B` are the coefficients of space-time regression at the observations, for a kernel of fixed bandwidth. -/
def IsGTWRFixed (kernel : KernelType) (bw l c : ℝ) (pts : Fin n → ℕ → ℝ) (τ : Fin n → ℝ) (x : Matrix (Fin n) (Fin k) ℝ) (y : Fin n → ℝ)
    (B : Matrix (Fin n) (Fin k) ℝ) : Prop :=
  ∀ i, IsWLS x y (fun j => kernelFormula kernel bw (stDist l c (pts i) (pts j) (τ i) (τ j))) (B i)

/-- The same for an adaptive bandwidth of `q` neighbours: at each observation the bandwidth is the space-time distance of the `q`-th nearest one. -/
def IsGTWRAdaptive (kernel : KernelType) (q : ℕ) (l c : ℝ) (pts : Fin n → ℕ → ℝ) (τ : Fin n → ℝ) (x : Matrix (Fin n) (Fin k) ℝ) (y : Fin n → ℝ)
    (B : Matrix (Fin n) (Fin k) ℝ) : Prop :=
  ∀ i, ∃ r, IsKthSmallest (fun j => stDist l c (pts i) (pts j) (τ i) (τ j)) q r ∧
    IsWLS x y (fun j => kernelFormula kernel r (stDist l c (pts i) (pts j) (τ i) (τ j))) (B i)

open Classical in
/-- `dist i j` is the space-time distance from observation `i` to observation `j`, at times `τ`: with the distance `s` on the map and the time
`t = τ i - τ j` since `j` it is `λ s + (1-λ) t + 2 √(λ(1-λ) s t) c`; observations of the future are at distance 10^13. For λ = 1, the only double in
[0,1] closer than 10^-16 to 1, there is no future, and the distance is `s`. -/
def IsSpaceTimeDistance (geographic : Bool) (coords : DynMat) (τ : Fin n → ℝ) (l c : ℝ) (dist : Fin n → Fin n → ℝ) : Prop :=
  ∃ s : Fin n → Fin n → ℝ, IsMapDistance geographic coords coords s ∧ ∀ i j, dist i j =
    if τ i < τ j ∧ 10 ^ (-16 : ℤ) ≤ |l - 1| then 10 ^ 13
    else l * s i j + (1 - l) * |τ i - τ j| + 2 * √(l * (1 - l) * s i j * |τ i - τ j|) * c

end Verif.Spec

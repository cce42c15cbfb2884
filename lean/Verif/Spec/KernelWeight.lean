import Verif.Spec.GWRDefinition
import Verif.Model.Kernel
import Verif.Model.Distance

/-! Spatial weights, from distances, for every kind of bandwidth; and the distances between map coordinates. -/

namespace Verif.Spec
open Verif Verif.Model

variable {n m : ℕ}

/-- `r` is the radius a bandwidth setting means at a place whose distances to the observations are `v`. A fixed bandwidth is the radius. An adaptive one
below the number `n` of observations lies `s` of the way from the `q`-th to the `(q+1)`-th smallest distance, `q` and `s` being its integer and
fractional part; an adaptive one of `n` or more is the largest distance times the bandwidth over `n`. -/
def IsRadius (b : BandwidthWeight) (v : Fin n → ℝ) (r : ℝ) : Prop :=
  if b.mAdaptive = true then
    (∃ (q : ℕ) (s t t' : ℝ), 1 ≤ q ∧ q < n ∧ b.mBandwidth = q + s ∧ 0 ≤ s ∧ s < 1 ∧ IsKthSmallest v q t ∧ IsKthSmallest v (q + 1) t' ∧
      r = (1 - s) * t + s * t') ∨
    ((n : ℝ) ≤ b.mBandwidth ∧ ∃ t, IsLargest v t ∧ r = b.mBandwidth / n * t)
  else r = b.mBandwidth

/-- `w i l` is the kernel of the distance `dist i l`, with the radius the bandwidth means at place `i`. -/
def IsKernelWeight (b : BandwidthWeight) (dist w : Fin m → Fin n → ℝ) : Prop :=
  ∀ i, ∃ r, IsRadius b (dist i) r ∧ ∀ l, w i l = kernelFormula b.mKernel r (dist i l)

/-- The bandwidth makes sense for these distances: an adaptive one is at least 1, and the radius is positive everywhere. (The number of observations
fits into a C++ `int`.) -/
def UsableRadius (b : BandwidthWeight) (dist : Fin m → Fin n → ℝ) : Prop :=
  (b.mAdaptive = true → 1 ≤ b.mBandwidth ∧ n < 2147483648) ∧ ∀ i r, IsRadius b (dist i) r → 0 < r

/-- `dist i l` is the distance from the `i`-th of the points `at'` to the `l`-th of the points `obs`: along a straight line, or, for geographic
coordinates, what the library's distance on the ellipsoid gives (property C55). -/
def IsMapDistance (geographic : Bool) (at' obs : DynMat) (dist : Fin m → Fin n → ℝ) : Prop :=
  if geographic = true then ∀ (i : Fin m) (l : Fin n), spGcdist (obs.val l 0) (at'.val i 0) (obs.val l 1) (at'.val i 1) = .ok (dist i l)
  else ∀ (i : Fin m) (l : Fin n), dist i l = plane (at'.val i) (obs.val l)

end Verif.Spec

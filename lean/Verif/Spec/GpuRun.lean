import Verif.Spec.KernelWeight
import Verif.Model.KernelCuda

/-!
# Specification: bandwidths that mean the same on both devices
-/

namespace Verif.Spec
open Verif.Model

variable {n m : ℕ}

/-- The bandwidth means the same on the GPU as on the CPU: a fixed one is not the largest number there is, an adaptive one is a whole number not
above the number of observations, and for the boxcar kernel no observation lies exactly on the edge. -/
def DeviceBandwidth (b : BandwidthWeight) (dist : Fin m → Fin n → ℝ) : Prop :=
  (b.mAdaptive = false → b.mBandwidth ≠ dblMax) ∧ (b.mAdaptive = true → ∃ q : ℕ, q ≤ n ∧ b.mBandwidth = q) ∧
    (b.mKernel = .Boxcar → ∀ i r, IsRadius b (dist i) r → ∀ l, dist i l ≠ r)

end Verif.Spec

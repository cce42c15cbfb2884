import Verif.Spec.Smoother

/-! Density regression: every coordinate axis has its own kernel and bandwidth. -/

namespace Verif.Spec
open Verif.Model

variable {n : ℕ}

/-- `w i l` are the weights along one axis with coordinates `c`: the kernel of the distance along the axis, the bandwidth being `bw` itself or, if it
is adaptive, the distance of the `bw`-th nearest observation along the axis. -/
def IsAxisWeight (b : BandwidthWeight) (c : Fin n → ℝ) (w : Fin n → Fin n → ℝ) : Prop :=
  if b.mAdaptive = true then
    ∀ i, ∃ (q : ℕ) (r : ℝ), b.mBandwidth = q ∧ IsKthSmallest (fun l => |c l - c i|) q r ∧ ∀ l, w i l = kernelFormula b.mKernel r |c l - c i|
  else ∀ i l, w i l = kernelFormula b.mKernel b.mBandwidth |c l - c i|

/-- The bandwidth makes sense along an axis with coordinates `c`: it is positive; if it is adaptive, it is a number of observations smaller than all, and
not that many coincide. -/
def UsableBandwidth (b : BandwidthWeight) (c : Fin n → ℝ) : Prop :=
  0 < b.mBandwidth ∧ (b.mAdaptive = true → ∃ q : ℕ, b.mBandwidth = q ∧ q < n ∧ q < 2147483648 ∧
    ∀ i r, IsKthSmallest (fun l => |c l - c i|) q r → 0 < r)

end Verif.Spec

import Mathlib.Analysis.SpecialFunctions.Exp
import Mathlib.Data.List.Sort
import Verif.Core.Res

/-!
# Model of `BandwidthWeight` (CPU)

`double` is modelled by `ℝ`; `arma::vec` with `n` elements by `Fin n → ℝ`.
-/

namespace Verif.Model
open Verif

/-- include/gwmodelpp/spatialweight/BandwidthWeight.h:46-53 `KernelFunctionType`. -/
inductive KernelType
  | Gaussian | Exponential | Bisquare | Tricube | Boxcar
  deriving DecidableEq, Repr

/-- include/gwmodelpp/spatialweight/BandwidthWeight.h:257-260 data members. -/
structure BandwidthWeight where
  mBandwidth : ℝ
  mAdaptive : Bool
  mKernel : KernelType

/-- Armadillo's element-wise comparison `dist < bw`, a 0/1 vector (here one element of it). -/
noncomputable def less (d bw : ℝ) : ℝ := if d < bw then 1 else 0

/-- One element of BandwidthWeight.h:68-71 `GaussianKernelFunction`.
With `bw = 0` IEEE arithmetic gives `exp(-∞) = 0` for `d ≠ 0` and NaN for `d = 0`. -/
noncomputable def gaussianKernel (d bw : ℝ) : Res ℝ :=
  if bw = 0 then (if d = 0 then .nonfinite else .ok 0)
  else .ok (Real.exp ((d * d) / ((-2.0) * (bw * bw))))

/-- One element of BandwidthWeight.h:80-83 `ExponentialKernelFunction`.
With `bw = 0`: `exp(-∞) = 0` for `d > 0`, NaN for `d = 0` and `+∞` for `d < 0`. -/
noncomputable def exponentialKernel (d bw : ℝ) : Res ℝ :=
  if bw = 0 then (if 0 < d then .ok 0 else .nonfinite)
  else .ok (Real.exp (-d / bw))

/-- One element of BandwidthWeight.h:92-96 `BisquareKernelFunction`.
With `bw = 0` the quotient is `±∞` or NaN, so that the product with the 0/1 factor or the result is non-finite. -/
noncomputable def bisquareKernel (d bw : ℝ) : Res ℝ :=
  if bw = 0 then .nonfinite
  else
    let d2_d_b2 := 1.0 - (d * d) / (bw * bw)
    .ok (less d bw * (d2_d_b2 * d2_d_b2))

/-- One element of BandwidthWeight.h:105-109 `TricubeKernelFunction`; `bw = 0` as for bisquare. -/
noncomputable def tricubeKernel (d bw : ℝ) : Res ℝ :=
  if bw = 0 then .nonfinite
  else
    let d3_d_b3 := 1.0 - (d * d * d) / (bw * bw * bw)
    .ok (less d bw * (d3_d_b3 * d3_d_b3 * d3_d_b3))

/-- One element of BandwidthWeight.h:118-121 `BoxcarKernelFunction` (no division, so never NaN). -/
noncomputable def boxcarKernel (d bw : ℝ) : Res ℝ := .ok (less d bw * 1)

/-- src/gwmodelpp/spatialweight/BandwidthWeight.cpp:26-33 the dispatch table `Kernel[]`, indexed by the enum value. -/
noncomputable def kernelAt : KernelType → ℝ → ℝ → Res ℝ
  | .Gaussian => gaussianKernel
  | .Exponential => exponentialKernel
  | .Bisquare => bisquareKernel
  | .Tricube => tricubeKernel
  | .Boxcar => boxcarKernel

/-- A kernel function applied to a whole vector (all five are element-wise). The outcome is `nonfinite` as soon as
one element is. Simplification: in C++ the other elements would still be finite. -/
noncomputable def kernelVec (k : KernelType) {n : ℕ} (dist : Fin n → ℝ) (bw : ℝ) : Res (Fin n → ℝ) :=
  Res.tabulate n (fun i => kernelAt k (dist i) bw)

/-- Armadillo's `sort(dist)` (ascending), as a list. -/
noncomputable def sortVec {n : ℕ} (dist : Fin n → ℝ) : List ℝ := (List.ofFn dist).insertionSort (· ≤ ·)

/-- Armadillo's checked `v(i)` where `i` is an `int` converted to `uword` (a negative index becomes huge). -/
def elemAt (v : List ℝ) (i : ℤ) : Res ℝ :=
  if h : 0 ≤ i ∧ i < v.length then .ok (v[i.toNat]'(by omega)) else .throw .bounds

/-- C++ conversion `int(x)` of a `double` with integral value: undefined outside the range of `int`. -/
def toInt32 (x : ℤ) : Res ℤ := if -2147483648 ≤ x ∧ x < 2147483648 then .ok x else .ub

/-- C++ signed subtraction `x - 1` on `int`: overflow is undefined. -/
def predInt32 (x : ℤ) : Res ℤ := if x - 1 < -2147483648 then .ub else .ok (x - 1)

/-- Armadillo's `max(dist)`; throws on an empty vector. -/
noncomputable def vecMax {n : ℕ} (dist : Fin n → ℝ) : Res ℝ :=
  match List.ofFn dist with
  | [] => .throw .empty
  | x :: xs => .ok (xs.foldl max x)

/-- src/gwmodelpp/spatialweight/BandwidthWeight.cpp:42-53: the bandwidth distance of an adaptive bandwidth.
The comparison `dn < 1` with `nr = 0`: `bw / 0` is `-∞` for `bw < 0` and `+∞` or NaN otherwise. -/
noncomputable def adaptiveRadius (bw : ℝ) {n : ℕ} (dist : Fin n → ℝ) : Res ℝ :=
  let nr : ℝ := n
  let dn := bw / nr
  if (n ≠ 0 ∧ dn < 1) ∨ (n = 0 ∧ bw < 0) then do
    let vdist := sortVec dist
    let b0 := ⌊bw⌋
    let bx := bw - b0
    let i ← toInt32 b0
    let im1 ← predInt32 i
    let d0 ← elemAt vdist im1
    let d1 ← elemAt vdist i
    pure (d0 + (d1 - d0) * bx)
  else do
    let m ← vecMax dist
    pure (dn * m)

/-- src/gwmodelpp/spatialweight/BandwidthWeight.cpp:35-61 `BandwidthWeight::weight`. -/
noncomputable def BandwidthWeight.weight (b : BandwidthWeight) {n : ℕ} (dist : Fin n → ℝ) : Res (Fin n → ℝ) :=
  if b.mAdaptive then do
    let fixbw ← adaptiveRadius b.mBandwidth dist
    kernelVec b.mKernel dist fixbw
  else
    kernelVec b.mKernel dist b.mBandwidth

end Verif.Model

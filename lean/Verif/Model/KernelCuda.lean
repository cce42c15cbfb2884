import Verif.Model.Kernel

/-!
# Model of the CUDA weight computation

src/gwmodelpp/spatialweight/cuda/BandwidthWeightKernel.cu
-/

namespace Verif.Model
open Verif

/-- `DBL_MAX` as a real number. -/
noncomputable def dblMax : ℝ := (2 - 2⁻¹ ^ 52) * 2 ^ 1023

/-- BandwidthWeightKernel.cu:6-56, the five device kernels for one element, selected by `GWRKernelCuda[]` (70-76).
Division by a zero bandwidth as in the CPU model (NaN is `nonfinite`). -/
noncomputable def cudaKernelAt : KernelType → ℝ → ℝ → Res ℝ
  | .Gaussian, dist, bw =>
    if bw = 0 then (if dist = 0 then .nonfinite else .ok 0)
    else .ok (Real.exp ((dist * dist) / ((-2) * (bw * bw))))
  | .Exponential, dist, bw =>
    if bw = 0 then (if 0 < dist then .ok 0 else .nonfinite) else .ok (Real.exp (-dist / bw))
  | .Bisquare, dist, bw =>
    if dist > bw then .ok 0
    else if bw = 0 then .nonfinite
    else .ok ((1 - (dist * dist) / (bw * bw)) * (1 - (dist * dist) / (bw * bw)))
  | .Tricube, dist, bw =>
    if dist > bw then .ok 0
    else if bw = 0 then .nonfinite
    else .ok ((1 - (dist * dist * dist) / (bw * bw * bw)) * (1 - (dist * dist * dist) / (bw * bw * bw)) *
      (1 - (dist * dist * dist) / (bw * bw * bw)))
  | .Boxcar, dist, bw => .ok (if dist > bw then 0 else 1)

/-- One thread of one of the kernels (BandwidthWeightKernel.cu:8-12 and the identical prologues of the others):
`index = blockIdx.x * blockDim.x + threadIdx.x; if (index >= n) return; d_weights[index] = …`.
Simplification: the index does not overflow 32 bits. -/
def cudaThread (n : ℕ) (f : ℕ → α) (threads : ℕ) (mem : ℕ → α) (bt : ℕ × ℕ) : ℕ → α :=
  let index := bt.1 * threads + bt.2
  if index ≥ n then mem else fun i => if i = index then f index else mem i

/-- The launch `<<<gridSize, blockSize>>>` with `blockSize = threads`, `gridSize = (n + threads - 1) / threads`
(BandwidthWeightKernel.cu:83, 112 and 137-138): the threads of the grid run in the order `order`. -/
def cudaGrid (n threads : ℕ) : List (ℕ × ℕ) :=
  (List.range ((n + threads - 1) / threads)).flatMap (fun b => (List.range threads).map (fun t => (b, t)))

/-- Result in device memory of running the threads in some order. -/
def cudaLaunch (n threads : ℕ) (order : List (ℕ × ℕ)) (f : ℕ → α) (mem : ℕ → α) : ℕ → α :=
  order.foldl (cudaThread n f threads) mem

/-- Unchecked read of device memory `v_dists[i]` of length `n`: undefined outside. -/
def rawAt (v : List ℝ) (i : ℤ) : Res ℝ :=
  if h : 0 ≤ i ∧ i < v.length then .ok (v[i.toNat]'(by omega)) else .ub

/-- BandwidthWeightKernel.cu:79-118 `gw_weight_cuda`: the weights written for `ndp = n` distances. The launches are
collapsed to their element-wise effect, which is what `cudaLaunch` gives for every thread order (theorem C33). CUDA errors
are not modelled. -/
noncomputable def gwWeightCuda (b : BandwidthWeight) {n : ℕ} (dist : Fin n → ℝ) : Res (Fin n → ℝ) :=
  open Classical in
  if b.mBandwidth = dblMax then .ok (fun _ => 1)
  else if b.mAdaptive then do
    let vdists := sortVec dist
    let x : ℝ := if b.mBandwidth < n then b.mBandwidth else n
    -- `(int)x` truncates toward zero
    let i ← toInt32 (if 0 ≤ x then ⌊x⌋ else ⌈x⌉)
    let im1 ← predInt32 i
    let bw_dist ← rawAt vdists im1
    Res.tabulate n (fun i => cudaKernelAt b.mKernel (dist i) bw_dist)
  else
    Res.tabulate n (fun i => cudaKernelAt b.mKernel (dist i) b.mBandwidth)

end Verif.Model

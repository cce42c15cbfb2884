import Verif.Model.GWRBasicRun
import Verif.Model.GWRCuda
import Verif.Model.KernelCuda

/-!
# Model of whole runs of `GWRBasic` on the GPU

Built from the device kernels for distances and weights and the batched fits of `Verif.Model.GWRCuda`. CUDA errors (no device, no memory)
and stop requests are not modelled. `G` is `mGroupLength`, 64 unless `setGroupSize` was called (GWRBasic.h).
-/

namespace Verif.Model
open Verif Matrix Classical

variable {n k m : ℕ}

/-! ## Distances on the device -/

/-- CRSDistance.cpp:164-165 `cumat(points.t())`: device memory holds the transposed matrix column by column, that is, the points (two
coordinates each, which `makeParameter` ensures) one after the other. -/
def devMem (points : DynMat) : ℕ → ℝ := fun p => points.val (p / 2) (p % 2)

/-- spatialweight/cuda/CRSDistanceKernel.cu:42-50 `eu_dist_vec_kernel`, what the thread with index `i` writes. -/
noncomputable def euDistKernel (dp rp : ℕ → ℝ) (i : ℕ) : ℝ :=
  √((dp (i * 2) - rp 0) ^ 2 + (dp (i * 2 + 1) - rp 1) ^ 2)

/-- spatialweight/cuda/CRSDistanceKernel.cu:94-151 `sp_gcdist`. -/
noncomputable def spGcdistCuda (lon1 lon2 lat1 lat2 : ℝ) : Res ℝ :=
  if |lat1 - lat2| < doubleEps ∧ (|lon1 - lon2| < doubleEps ∨ |(|lon1| + |lon2|) - 360.0| < doubleEps) then .ok 0
  else
    let DE2RA := Real.pi / 180
    let a := 6378.137
    let f := 1.0 / 298.257223563
    let lat1R := lat1 * DE2RA
    let lat2R := lat2 * DE2RA
    let lon1R := lon1 * DE2RA
    let lon2R := lon2 * DE2RA
    let F := (lat1R + lat2R) / 2.0
    let G := (lat1R - lat2R) / 2.0
    let L := (lon1R - lon2R) / 2.0
    let sinG2 := Real.sin G ^ 2
    let cosG2 := Real.cos G ^ 2
    let sinF2 := Real.sin F ^ 2
    let cosF2 := Real.cos F ^ 2
    let sinL2 := Real.sin L ^ 2
    let cosL2 := Real.cos L ^ 2
    let S := sinG2 * cosL2 + cosF2 * sinL2
    let C := cosG2 * cosL2 + sinF2 * sinL2
    if S = 0 ∨ C = 0 then .nonfinite
    else
      let w := Real.arctan √(S / C)
      let R := √(S * C) / w
      let D := 2 * w * a
      let H1 := (3 * R - 1) / (2 * C)
      let H2 := (3 * R + 1) / (2 * S)
      .ok (D * (1 + f * H1 * sinF2 * cosG2 - f * H2 * cosF2 * sinG2))

/-- spatialweight/cuda/CRSDistanceKernel.cu:153-160 `sp_dist_vec_kernel`, what the thread with index `i` writes. -/
noncomputable def spDistKernel (dp rp : ℕ → ℝ) (i : ℕ) : Res ℝ :=
  spGcdistCuda (dp (i * 2)) (rp 0) (dp (i * 2 + 1)) (rp 1)

/-- `mCalculatorCuda` (CRSDistance.h:137, 180). -/
noncomputable def devCalc (geographic : Bool) (dp rp : ℕ → ℝ) (i : ℕ) : Res ℝ :=
  if geographic then spDistKernel dp rp i else .ok (euDistKernel dp rp i)

/-- CRSDistance.cpp:171-184 `distance` on the device, after `prepareCuda` (158-169) uploaded the current points: one thread for each focus
point (`mParameter->total`) reads the data point of the same number, beyond the upload if there are fewer of these. The launch is
collapsed to its element-wise effect (C33_launch_covers). Inherited unchanged by `MinkwoskiDistance`. -/
noncomputable def CRSDistance.distanceCuda (d : CRSDistance) (focus : ℕ) : Res (List ℝ) :=
  match d.mParameter with
  | none => .throw .runtime
  | some (fp, dp) =>
    if focus < fp.nRows then
      if dp.nRows < fp.nRows then .ub
      else mapRes (devCalc d.mGeographic (devMem dp) fun p => devMem fp (focus * 2 + p)) (List.range fp.nRows)
    else .throw .runtime

/-- MinkwoskiDistance.h declares no device function: `CRSDistance::distance(uword, double*, size_t*)` runs. -/
noncomputable def MinkwoskiDistance.distanceCuda (d : MinkwoskiDistance) (focus : ℕ) : Res (List ℝ) := d.base.distanceCuda focus

/-- SpatialWeight.h:415-423 `weightVector` on the device, for `n` observations. -/
noncomputable def weightVectorCuda (d : CRSDistance) (b : BandwidthWeight) (n : ℕ) (i : ℕ) : Res (Fin n → ℝ) :=
  (d.distanceCuda i).bind fun l => (rowToVec l n).bind fun dist => gwWeightCuda b dist

/-- The weights of all locations. Simplification: computed before the batches, as in `weightRows`. -/
noncomputable def weightRowsCuda (d : CRSDistance) (b : BandwidthWeight) (n m : ℕ) : Res (Fin m → Fin n → ℝ) :=
  Res.tabulate m fun i => weightVectorCuda d b n i

/-! ## Runs -/

/-- GWRBasic.cpp:235-244 `fitBase` with 589-673 `fitCoreCuda`. -/
noncomputable def gpuFinish (G : ℕ) (d' : CRSDistance) (b : BandwidthWeight) (x : Matrix (Fin n) (Fin k) ℝ) (y : Fin n → ℝ) (sS sC : Bool) :
    Res (GWRReport n k) :=
  (weightRowsCuda d' b n n).bind fun W => (fitCoreCuda x y W 0 n G sS sC).bind fun a =>
    .ok { weight := b, betas := a.betas, diagnostic := calcDiagnostic x y a.betas a.shat, se := betasSE x y a, shat := a.shat, qdiag := a.qdiag,
          s := a.s, c := a.c }

/-- GWRBasic.cpp:62-170 `fit` on the GPU without automatic selections. -/
noncomputable def gpuRun (G : ℕ) (d : CRSDistance) (b : BandwidthWeight) (coords : DynMat) (x : Matrix (Fin n) (Fin k) ℝ) (y : Fin n → ℝ)
    (sS sC : Bool) : Res (GWRReport n k) :=
  (bindLocations d coords coords).bind fun d' => gpuFinish G d' b x y sS sC

/-- GWRBasic.cpp:172-198 `predict` on the GPU with 675-719 `predictCuda` (which treats other numbers of locations than observations as in
`Verif.Model.predictCuda`; the weights of the locations are those of the device for as many locations as observations). -/
noncomputable def gpuPredict (G : ℕ) (d : CRSDistance) (b : BandwidthWeight) (locations coords : DynMat)
    (x : Matrix (Fin n) (Fin k) ℝ) (y : Fin n → ℝ) : Res (Matrix (Fin n) (Fin k) ℝ) :=
  (bindLocations d locations coords).bind fun d' => (weightRowsCuda d' b n n).bind fun W => predictCuda x y W 0 n G

/-- GWRBasic.cpp:349-394 with 721-826: one evaluation of the bandwidth criterion on the GPU; `g` is the initial content of the vector at
line 779. The cores do not throw when an inversion fails. Simplification: weights that are not finite give DBL_MAX (on the device they make
the inversion fail, or the value non-finite). -/
noncomputable def gpuCriterion (c : Crit) (G : ℕ) (g : ℕ → ℝ) (d' : CRSDistance) (x : Matrix (Fin n) (Fin k) ℝ) (y : Fin n → ℝ)
    (b : BandwidthWeight) : ℝ :=
  match weightRowsCuda d' b n n with
  | .ok W =>
    match c with
    | .CV => criterionCV x y false (.ok (fitCoreCVCuda x y W 0 n G, false))
    | .AIC => criterionAIC x y false (.ok (fitCoreSHatCuda x y W 0 n G g, false))
  | _ => dblMax

/-- GWRBasic.cpp:135-157: the bandwidth search of `fit` on the GPU; `g j` is the initial content of the vector at line 779 in the `j`-th
evaluation. -/
noncomputable def gpuSearch (c : Crit) (G : ℕ) (g : ℕ → ℕ → ℝ) (d' : CRSDistance) (b0 : BandwidthWeight) (lower upper : Option ℝ)
    (x : Matrix (Fin n) (Fin k) ℝ) (y : Fin n → ℝ) : Res SearchResult :=
  (gwrUpper d' b0 n upper).bind fun u =>
    .ok (optimize b0 (lower.getD (if b0.mAdaptive then 20 else 0)) u (fun j b => (true, gpuCriterion c G (g j) d' x y b)) [])

/-- GWRBasic.cpp:62-170 `fit` on the GPU with automatic bandwidth selection: the search and the report. -/
noncomputable def gpuAutoRun (c : Crit) (G : ℕ) (g : ℕ → ℕ → ℝ) (d : CRSDistance) (b0 : BandwidthWeight) (lower upper : Option ℝ)
    (coords : DynMat) (x : Matrix (Fin n) (Fin k) ℝ) (y : Fin n → ℝ) (sS sC : Bool) : Res (SearchResult × GWRReport n k) :=
  (bindLocations d coords coords).bind fun d' => (gpuSearch c G g d' b0 lower upper x y).bind fun r => r.out.bind fun b =>
    (gpuFinish G d' b x y sS sC).bind fun rep => .ok (r, rep)

end Verif.Model

import Verif.Model.GpuRun

/-!
# Model of the selection of variables on the GPU
-/

namespace Verif.Model
open Verif Matrix

variable {n k : ℕ}

/-- GWRBasic.cpp:396-418 `indepVarsSelectionCriterion` with 771-826 `fitCoreSHatCuda`: the bandwidth is replaced by DBL_MAX, for which the device
gives every observation weight 1 (BandwidthWeightKernel.cu:84-89). A failing inversion does not throw. `g` is the initial content of the vector at
line 779. Simplification: distances that cannot be computed are `ub`. -/
noncomputable def gpuVarsCriterion (G : ℕ) (g : ℕ → ℝ) (d' : CRSDistance) (b : BandwidthWeight) (x : Matrix (Fin n) (Fin k) ℝ) (y : Fin n → ℝ)
    (hasIntercept : Bool) (vars : List ℕ) : Res ℝ :=
  (pickCols x (index2uvec vars hasIntercept)).bind fun x' =>
    match weightRowsCuda d' { b with mBandwidth := dblMax } n n with
    | .ok W => aicc x' y (fitCoreSHatCuda x' y W 0 n G g).1 ((fitCoreSHatCuda x' y W 0 n G g).2 0)
    | _ => .ub

/-- GWRBasic.cpp:112-133: the selection step of `fit` on the GPU. -/
noncomputable def gpuSelectVars (srt : List FModel → List FModel) (thr : ℝ) (G : ℕ) (g : List ℕ → ℕ → ℝ) (d' : CRSDistance) (b : BandwidthWeight)
    (x : Matrix (Fin n) (Fin k) ℝ) (y : Fin n → ℝ) (hasIntercept : Bool) : Res (Selected n) :=
  selectVars (fun vars => gpuVarsCriterion G (g vars) d' b x y hasIntercept vars) srt thr x hasIntercept

/-- GWRBasic.cpp:62-170 `fit` on the GPU with automatic selection of variables and a given bandwidth. -/
noncomputable def gpuVarRun (srt : List FModel → List FModel) (thr : ℝ) (G : ℕ) (g : List ℕ → ℕ → ℝ) (d : CRSDistance)
    (b : BandwidthWeight) (coords : DynMat) (x : Matrix (Fin n) (Fin k) ℝ) (y : Fin n → ℝ) (hasIntercept sS sC : Bool) :
    Res (Σ s : Selected n, GWRReport n s.cols.length) :=
  (bindLocations d coords coords).bind fun d' => (gpuSelectVars srt thr G g d' b x y hasIntercept).bind fun s =>
    (gpuFinish G d' b s.x y sS sC).bind fun rep => .ok ⟨s, rep⟩

/-- GWRBasic.cpp:62-170 `fit` on the GPU with both selections: variables first, then the bandwidth for the selected variables. -/
noncomputable def gpuVarAutoRun (srt : List FModel → List FModel) (thr : ℝ) (G : ℕ) (g : List ℕ → ℕ → ℝ) (c : Crit) (gB : ℕ → ℕ → ℝ)
    (d : CRSDistance) (b0 : BandwidthWeight) (lower upper : Option ℝ) (coords : DynMat) (x : Matrix (Fin n) (Fin k) ℝ)
    (y : Fin n → ℝ) (hasIntercept sS sC : Bool) : Res (Σ s : Selected n, SearchResult × GWRReport n s.cols.length) :=
  (bindLocations d coords coords).bind fun d' => (gpuSelectVars srt thr G g d' b0 x y hasIntercept).bind fun s =>
    (gpuSearch c G gB d' b0 lower upper s.x y).bind fun r => r.out.bind fun b =>
      (gpuFinish G d' b s.x y sS sC).bind fun rep => .ok ⟨s, (r, rep)⟩

end Verif.Model

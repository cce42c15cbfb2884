import Verif.Model.GWRLocalCollinearity

/-!
# Model of whole runs of `GWRLocalCollinearity` (serial mode, `CRSDistance`, no stop requests)
-/

namespace Verif.Model
open Verif Matrix Classical

variable {n k m : ℕ}

/-- GWRLocalCollinearity.cpp:38-89 `fit` with a given bandwidth, on a fresh object (the trace members are 0). -/
noncomputable def lcrRun (sv : Matrix (Fin n) (Fin k) ℝ → ℝ × ℝ) (cfg : LcrCfg) (d : CRSDistance) (b : BandwidthWeight) (coords : DynMat)
    (x : Matrix (Fin n) (Fin k) ℝ) (y : Fin n → ℝ) : Res (LcrResult n k) :=
  (bindLocations d coords coords).bind fun d' => (weightRows d' b n n).bind fun W =>
    lcrFit (lcrFitSerial sv cfg x y W fun _ => false) x y 0

/-- GWRLocalCollinearity.cpp:198-262 for a candidate bandwidth: exceptions leave the function. `d'` has its parameter already. -/
noncomputable def lcrCriterion (sv : Matrix (Fin n) (Fin k) ℝ → ℝ × ℝ) (cfg : LcrCfg) (d' : CRSDistance) (x : Matrix (Fin n) (Fin k) ℝ)
    (y : Fin n → ℝ) (b : BandwidthWeight) : Res ℝ :=
  (weightRows d' b n n).bind fun W => lcrCriterionCV sv cfg x y W fun _ => false

/-- The value of a criterion that does not throw (GWRLocalCollinearity.cpp:198-262). The value 0 for one that does is never used
(`lcrSelectBandwidth`). -/
noncomputable def lcrScore (sv : Matrix (Fin n) (Fin k) ℝ → ℝ × ℝ) (cfg : LcrCfg) (d' : CRSDistance) (x : Matrix (Fin n) (Fin k) ℝ)
    (y : Fin n → ℝ) (b : BandwidthWeight) : ℝ :=
  match lcrCriterion sv cfg d' x y b with
  | .ok v => v
  | _ => 0

/-- GWRLocalCollinearity.cpp:49-66: the bandwidth search between 20 and the number of observations (adaptive), or 0 and the largest distance
(fixed). Simplification: an exception or a value that is not finite in one of the evaluations ends the run here, without saying which. -/
noncomputable def lcrSelectBandwidth (sv : Matrix (Fin n) (Fin k) ℝ → ℝ × ℝ) (cfg : LcrCfg) (d' : CRSDistance) (b0 : BandwidthWeight)
    (x : Matrix (Fin n) (Fin k) ℝ) (y : Fin n → ℝ) : Res SearchResult :=
  (if b0.mAdaptive then Res.ok (n : ℝ) else d'.maxDistance).bind fun u =>
    let r := optimize b0 (if b0.mAdaptive then 20 else 0) u
      (fun _ b => (true, lcrScore sv cfg d' x y b)) []
    if ∀ e ∈ r.evals, ∃ v, lcrCriterion sv cfg d' x y { b0 with mBandwidth := e.x } = .ok v then .ok r else .throw .logic

/-- GWRLocalCollinearity.cpp:38-89 `fit` with automatic bandwidth selection, on a fresh object. -/
noncomputable def lcrAutoRun (sv : Matrix (Fin n) (Fin k) ℝ → ℝ × ℝ) (cfg : LcrCfg) (d : CRSDistance) (b0 : BandwidthWeight) (coords : DynMat)
    (x : Matrix (Fin n) (Fin k) ℝ) (y : Fin n → ℝ) : Res (BandwidthWeight × LcrResult n k) :=
  (bindLocations d coords coords).bind fun d' => (lcrSelectBandwidth sv cfg d' b0 x y).bind fun r => r.out.bind fun b =>
    (weightRows d' b n n).bind fun W => (lcrFit (lcrFitSerial sv cfg x y W fun _ => false) x y 0).bind fun f => .ok (b, f)

/-- GWRLocalCollinearity.cpp:100-110 `predict` at `m` locations. -/
noncomputable def lcrPredictRun (sv : Matrix (Fin n) (Fin k) ℝ → ℝ × ℝ) (cfg : LcrCfg) (d : CRSDistance) (b : BandwidthWeight)
    (locations coords : DynMat) (m : ℕ) (x : Matrix (Fin n) (Fin k) ℝ) (y : Fin n → ℝ) : Res (Matrix (Fin m) (Fin k) ℝ × Bool) :=
  (bindLocations d locations coords).bind fun d' => (weightRows d' b n m).bind fun W => lcrPredictSerial sv cfg x y W fun _ => false

end Verif.Model

import Verif.Model.GWDA
import Verif.Model.GWRRun

/-!
# Model of whole runs of `GWDA` (`CRSDistance`, `BandwidthWeight`)
-/

namespace Verif.Model
open Verif Matrix

variable {n k m : ℕ} {α : Type} [DecidableEq α]

/-- What a run publishes (GWDA.h:169-204). The entries of `probs`, `pmax` and `entropy` may be NaN or infinite: the rows are outcomes. -/
structure GwdaOutput (α : Type) (n m : ℕ) where
  scores : Fin n → Fin m → ℝ
  group : Fin n → α
  correctRate : ℝ
  probs : Fin n → Res (Fin m → ℝ)
  pmax : Fin n → Res ℝ
  entropy : Fin n → Res ℝ

/-- GWDA.cpp:47-77: the second half of `run`, from the scores. Without classes `cols(0, NV - 1)` throws; with one class the entropy of the empty vector
throws (67-68). -/
noncomputable def gwdaPublish (y : Fin n → α) (lev : List α) (rows : Fin n → Fin lev.length → ℝ) : Res (GwdaOutput α n lev.length) :=
  (Res.tabulate n fun j => gwdaGroup lev (rows j)).bind fun group =>
  (correctRate y group).bind fun cr =>
  if lev.length = 0 then .throw .bounds
  else (shannonEntropy (fun _ : Fin (lev.length - 1) => 1 / ((lev.length : ℝ) - 1))).bind fun entMax =>
    .ok { scores := rows, group := group, correctRate := cr
          probs := fun j => gwdaProbs (rows j)
          pmax := fun j => (gwdaProbs (rows j)).bind fun p => .ok (⨆ i, p i)
          entropy := fun j => (gwdaProbs (rows j)).bind fun p => (shannonEntropy p).bind fun v => fdiv v entMax }

/-- GWDA.cpp:29-78 `run`, from the coordinates. Simplification: a score that is NaN or infinite makes the whole outcome `nonfinite`. -/
noncomputable def gwdaFull (e : GwdaEnv k) (st : GwdaState) (d : CRSDistance) (b : BandwidthWeight) (coords : DynMat)
    (x : Matrix (Fin n) (Fin k) ℝ) (y : Fin n → α) : Res (GwdaState × GwdaOutput α n (gwdaLevels (List.ofFn y)).length) :=
  (bindLocations d coords coords).bind fun d' =>
  if k < 2 then .throw .runtime
  else (weightRows d' b n n).bind fun W =>
    (gwdaRun e st x y W).bind fun r =>
    (gwdaPublish y (gwdaLevels (List.ofFn y)) r.2).bind fun o => .ok (r.1, o)

end Verif.Model

import Verif.Model.GWRRun
import Verif.Model.ForwardSelector

/-!
# Model of `GWRBasic::fit` with automatic selection of variables

Serial mode, `CRSDistance`, no stop requests. A criterion that is not finite ends the model run with `nonfinite`; the code goes on
and compares infinities or NaN.
-/

namespace Verif.Model
open Verif Matrix Classical

variable {n k : ℕ}

/-- Armadillo `x.cols(indices)`: an exception for an index outside the matrix. -/
def pickCols (x : Matrix (Fin n) (Fin k) ℝ) (cols : List ℕ) : Res (Matrix (Fin n) (Fin cols.length) ℝ) :=
  if h : ∀ c ∈ cols, c < k then .ok (Matrix.of fun i j => x i ⟨cols[j.val], h _ (List.getElem_mem _)⟩) else .throw .bounds

/-- GWRBasic.cpp:396-418 `indepVarsSelectionCriterion`. The bandwidth is replaced by `DBL_MAX`; exceptions from the regression are
caught. `d'` has its parameter already. -/
noncomputable def gwrVarsCriterion (d' : CRSDistance) (b : BandwidthWeight) (x : Matrix (Fin n) (Fin k) ℝ) (y : Fin n → ℝ)
    (hasIntercept : Bool) (vars : List ℕ) : Res ℝ :=
  (pickCols x (index2uvec vars hasIntercept)).bind fun x' =>
    match weightRows d' { b with mBandwidth := dblMax } n n with
    | .ok W =>
      match fitCoreSHatSerial x' y W 0 n (fun _ => false) with
      | .ok r => aicc x' y r.1.1 (r.1.2 0)
      | _ => .ok dblMax
    | _ => .ok dblMax

/-- GWRBasic.cpp:115-119: the candidates, all columns or all but the first. -/
def candidates (k : ℕ) (hasIntercept : Bool) : List ℕ := (List.range k).filter fun i => (if hasIntercept then 1 else 0) ≤ i

/-- What the selection leaves behind: `mSelectedIndepVars`, the reported criteria, and the new `mX`. -/
structure Selected (n : ℕ) where
  vars : List ℕ
  criteria : List FModel
  cols : List ℕ
  x : Matrix (Fin n) (Fin cols.length) ℝ

/-- GWRBasic.cpp:112-133, GWDR.cpp:46-66: the selection step of `fit` by the criterion `crit`. `srt` stands for `std::sort`. -/
noncomputable def selectVars (crit : List ℕ → Res ℝ) (srt : List FModel → List FModel) (thr : ℝ) (x : Matrix (Fin n) (Fin k) ℝ)
    (hasIntercept : Bool) : Res (Selected n) :=
  let vars := candidates k hasIntercept
  let value := fun vs => match crit vs with | .ok v => v | _ => 0
  (forwardOptimize srt vars thr fun _ vs => (true, value vs)).bind fun r =>
    if ∀ m ∈ r.evals, ∃ v, crit (convertIndex vars m.1) = .ok v then
      r.out.bind fun sel =>
        let cols := if 0 < sel.length then index2uvec sel hasIntercept else List.range k
        (pickCols x cols).bind fun x' =>
          .ok ⟨sel, if 0 < sel.length then indepVarsCriterion vars (r.sorted.getD []) else [], cols, x'⟩
    else .nonfinite

/-- GWRBasic.cpp:112-133: the selection step of `fit`. -/
noncomputable def gwrSelectVars (srt : List FModel → List FModel) (thr : ℝ) (d' : CRSDistance) (b : BandwidthWeight)
    (x : Matrix (Fin n) (Fin k) ℝ) (y : Fin n → ℝ) (hasIntercept : Bool) : Res (Selected n) :=
  selectVars (gwrVarsCriterion d' b x y hasIntercept) srt thr x hasIntercept

/-- GWRBasic.cpp:62-170 `fit` with automatic selection of variables and a given bandwidth. -/
noncomputable def gwrVarFit (srt : List FModel → List FModel) (thr : ℝ) (d : CRSDistance) (b : BandwidthWeight) (coords : DynMat)
    (x : Matrix (Fin n) (Fin k) ℝ) (y : Fin n → ℝ) (hasIntercept sS sC : Bool) :
    Res (Σ s : Selected n, FitAcc n s.cols.length) :=
  (bindLocations d coords coords).bind fun d' =>
    (gwrSelectVars srt thr d' b x y hasIntercept).bind fun s =>
      (gwrFit d b coords s.x y sS sC (fun _ => false)).bind fun a => .ok ⟨s, a.1⟩

/-- GWRBasic.cpp:62-170 `fit` with both selections: variables first, then the bandwidth for the selected variables. -/
noncomputable def gwrVarAutoFit (srt : List FModel → List FModel) (thr : ℝ) (c : Crit) (d : CRSDistance) (b0 : BandwidthWeight)
    (lower upper : Option ℝ) (coords : DynMat) (x : Matrix (Fin n) (Fin k) ℝ) (y : Fin n → ℝ) (hasIntercept sS sC : Bool) :
    Res (Σ s : Selected n, BandwidthWeight × FitAcc n s.cols.length) :=
  (bindLocations d coords coords).bind fun d' =>
    (gwrSelectVars srt thr d' b0 x y hasIntercept).bind fun s =>
      (gwrAutoFit c d b0 lower upper coords s.x y sS sC).bind fun r => .ok ⟨s, r⟩

end Verif.Model

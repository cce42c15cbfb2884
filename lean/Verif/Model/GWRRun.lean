import Verif.Model.GWRBasic
import Verif.Model.Kernel
import Verif.Model.Distance
import Verif.Model.BandwidthSelector

/-!
# Model of `GWRBasic::fit` and `GWRBasic::predict` from coordinates to coefficients

Composes the distance, kernel, local regression and bandwidth search models (serial mode, `CRSDistance`, `BandwidthWeight`, no
variable selection, no GPU, no MPI).
-/

namespace Verif.Model
open Verif Matrix Classical

variable {n k m T : ℕ}

/-- An `arma::vec` used where a vector of `n` elements is needed; Armadillo throws on size mismatch. -/
def rowToVec (l : List ℝ) (n : ℕ) : Res (Fin n → ℝ) :=
  if h : l.length = n then .ok (fun i => l[i.val]'(by rw [h]; exact i.isLt)) else .throw .size

/-- SpatialWeight.h:380-383 `weightVector(i) = mWeight->weight(mDistance->distance(i))`, for a model with `n` observations. -/
noncomputable def weightVector (d : CRSDistance) (b : BandwidthWeight) (n : ℕ) (i : ℕ) : Res (Fin n → ℝ) :=
  (d.distance i).bind fun l => (rowToVec l n).bind fun dist => b.weight dist

/-- All weight vectors of `m` locations. Simplification: the code computes `weightVector(i)` inside the loop over locations;
here all are computed first. Without a stop request the outcome of the loop is the same, up to which of several abnormal
outcomes is reported. -/
noncomputable def weightRows (d : CRSDistance) (b : BandwidthWeight) (n m : ℕ) : Res (Fin m → Fin n → ℝ) :=
  Res.tabulate m fun i => weightVector d b n i

/-- SpatialMonoscaleAlgorithm.cpp:5-12 `createDistanceParameter`, GWRBasic.cpp:200-207 `createPredictionDistanceParameter`. -/
def bindLocations (d : CRSDistance) (locations coords : DynMat) : Res CRSDistance :=
  match d.makeParameter [.mat locations, .mat coords] with
  | (d', .ok _) => .ok d'
  | (_, .throw e) => .throw e
  | (_, .ub) => .ub
  | (_, .nonfinite) => .nonfinite

/-- GWRBasic.cpp:62-170 `fit` without automatic selections, 235-244 `fitBase`, 246-289. -/
noncomputable def gwrFit (d : CRSDistance) (b : BandwidthWeight) (coords : DynMat) (x : Matrix (Fin n) (Fin k) ℝ) (y : Fin n → ℝ)
    (sS sC : Bool) (stop : ℕ → Bool) : Res (FitAcc n k × Bool) :=
  (bindLocations d coords coords).bind fun d' => (weightRows d' b n n).bind fun W => fitCoreSerial x y W 0 n sS sC stop

/-- GWRBasic.cpp:172-233 `predict` at `m` locations. -/
noncomputable def gwrPredict (d : CRSDistance) (b : BandwidthWeight) (locations coords : DynMat) (m : ℕ)
    (x : Matrix (Fin n) (Fin k) ℝ) (y : Fin n → ℝ) (stop : ℕ → Bool) : Res (Matrix (Fin m) (Fin k) ℝ × Bool) :=
  (bindLocations d locations coords).bind fun d' => (weightRows d' b n m).bind fun W => predictSerial x y W stop

/-- Which criterion is minimised. -/
inductive Crit
  | CV | AIC
  deriving DecidableEq

/-- One criterion evaluation without stop requests (GWRBasic.cpp:349-394): any exception gives DBL_MAX, and so do non-finite
weights, which make the inverse fail or the value non-finite. `d'` has its parameter already. -/
noncomputable def gwrCriterion (c : Crit) (d' : CRSDistance) (x : Matrix (Fin n) (Fin k) ℝ) (y : Fin n → ℝ) (b : BandwidthWeight) :
    ℝ :=
  match weightRows d' b n n with
  | .ok W =>
    match c with
    | .CV => criterionCV x y false (fitCoreCVSerial x y W 0 n (fun _ => false))
    | .AIC => criterionAIC x y false (fitCoreSHatSerial x y W 0 n (fun _ => false))
  | _ => dblMax

/-- GWRBasic.cpp:135-157: the bandwidth search of `fit`, without stop requests. Default bounds: 20 and the number of
observations if adaptive, 0 and the largest distance if fixed. -/
noncomputable def gwrSelectBandwidth (c : Crit) (d' : CRSDistance) (b0 : BandwidthWeight) (lower upper : Option ℝ)
    (x : Matrix (Fin n) (Fin k) ℝ) (y : Fin n → ℝ) : Res SearchResult :=
  (match upper with
    | some u => Res.ok u
    | none => if b0.mAdaptive then .ok (n : ℝ) else d'.maxDistance).bind fun u =>
  .ok (optimize b0 (lower.getD (if b0.mAdaptive then 20 else 0)) u (fun _ b => (true, gwrCriterion c d' x y b)) [])

/-- GWRBasic.cpp:62-170 `fit` with automatic bandwidth selection, without stop requests. Also returns the selected weight. -/
noncomputable def gwrAutoFit (c : Crit) (d : CRSDistance) (b0 : BandwidthWeight) (lower upper : Option ℝ) (coords : DynMat)
    (x : Matrix (Fin n) (Fin k) ℝ) (y : Fin n → ℝ) (sS sC : Bool) : Res (BandwidthWeight × FitAcc n k) :=
  (bindLocations d coords coords).bind fun d' => (gwrSelectBandwidth c d' b0 lower upper x y).bind fun r => r.out.bind fun b =>
    (weightRows d' b n n).bind fun W => (fitCoreSerial x y W 0 n sS sC (fun _ => false)).bind fun p => .ok (b, p.1)

/-- One criterion evaluation in parallel mode (GWRBasic.cpp:349-394 with 516-584), without stop requests, under a sequence of
loop events. A weight that is not finite makes the inverse fail, which only clears a local flag. Simplification: so does, in the model, an
exception raised by `weightVector`; in the code it would end the program. -/
noncomputable def gwrCriterionOmp (c : Crit) (d' : CRSDistance) (x : Matrix (Fin n) (Fin k) ℝ) (y : Fin n → ℝ)
    (evs : List (OmpEv (Fin n) (Fin T))) (b : BandwidthWeight) : ℝ :=
  match c with
  | .CV =>
    let s := ompRun (fun i : Fin n => (weightVector d' b n i).bind fun w => localBeta x y (Function.update w i 0)) (fun _ => setRow)
      (fun _ => false) evs 0
    criterionCV x y false (.ok (s.st, s.terminated))
  | .AIC =>
    let s := ompRun (fun i : Fin n => (weightVector d' b n i).bind fun w => localFit x y w (x i)) shatUpdOmp (fun _ => false) evs (0, 0)
    criterionAIC x y false (.ok ((s.st.1, ∑ t, s.st.2 t), s.terminated))

/-- With all weights computed beforehand. -/
theorem gwrCriterionOmp_rows (c : Crit) {d' : CRSDistance} {x : Matrix (Fin n) (Fin k) ℝ} {y : Fin n → ℝ} {evs : List (OmpEv (Fin n) (Fin T))}
    {b : BandwidthWeight} {W : Fin n → Fin n → ℝ} (h : weightRows d' b n n = .ok W) :
    gwrCriterionOmp c d' x y evs b = match c with
      | .CV => criterionCV x y false (fitCoreCVOmp x y W (fun _ => false) evs)
      | .AIC => criterionAIC x y false (fitCoreSHatOmp x y W (fun _ => false) evs) := by
  have hi : ∀ i : Fin n, weightVector d' b n i = .ok (W i) := fun i => Res.tabulate_eq_ok.1 h i
  cases c <;> simp only [gwrCriterionOmp, hi, Res.bind] <;> rfl

/-- The bandwidth search in parallel mode between given bounds; `sched j` is the schedule of the `j`-th criterion evaluation. -/
noncomputable def gwrSelectBandwidthOmp (c : Crit) (d' : CRSDistance) (b0 : BandwidthWeight) (lower upper : ℝ)
    (x : Matrix (Fin n) (Fin k) ℝ) (y : Fin n → ℝ) (sched : ℕ → List (OmpEv (Fin n) (Fin T))) : SearchResult :=
  optimize b0 lower upper (fun j b => (true, gwrCriterionOmp c d' x y (sched j) b)) []

/-! ## Validation -/

/-- The members that `GWRBasic::isValid` and `GTWR::isValid` look at, plus the distance, which they do not look at. -/
structure GWRMembers where
  coordRows : ℕ
  coordCols : ℕ
  xRows : ℕ
  xCols : ℕ
  yRows : ℕ
  weight : Option BandwidthWeight
  hasDistance : Bool

/-- SpatialAlgorithm.cpp:5-8 `isValid`: `!mCoords.is_empty()`. `SpatialMonoscaleAlgorithm` does not override it. -/
def spatialValid (s : GWRMembers) : Bool := s.coordRows != 0 && s.coordCols != 0

/-- GWRBase.cpp:6-18 `isValid`. -/
def gwrBaseValid (s : GWRMembers) : Bool :=
  if spatialValid s then
    if ¬ 0 < s.xCols then false
    else if ¬ (s.xRows = s.yRows ∧ s.xRows = s.coordRows) then false
    else true
  else false

/-- GWRBasic.cpp:1132-1145 and GTWR.cpp:267-280 `isValid`. `weight<BandwidthWeight>()` is null if no weight was set; it is
dereferenced. -/
noncomputable def gwrBasicValid (s : GWRMembers) : Res Bool :=
  if gwrBaseValid s then
    match s.weight with
    | none => .ub
    | some b => if ¬ b.mBandwidth > 0 then .ok false else .ok true
  else .ok false

/-- GWRScalable.cpp:665-681 `isValid`. -/
noncomputable def gwrScalableValid (s : GWRMembers) : Res Bool :=
  if gwrBaseValid s then
    match s.weight with
    | none => .ub
    | some b =>
      if ¬ (b.mKernel = .Gaussian ∨ b.mKernel = .Exponential) then .ok false
      else if ¬ b.mBandwidth > 0 then .ok false else .ok true
  else .ok false

/-- GWSS.cpp:51-61 (and GWDA.cpp:15-27) `isValid`: number of rows not compared. -/
def gwssValid (s : GWRMembers) : Bool := if spatialValid s then (if ¬ 0 < s.xCols then false else true) else false

end Verif.Model

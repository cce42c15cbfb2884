import Verif.Model.GWRBasic
import Mathlib.Data.List.MinMax
import Mathlib.Analysis.SpecialFunctions.Log.Base

/-!
# Model of `GWDA`: geographically weighted discriminant analysis

`α` is the type of class labels (`std::string`), `n` the number of observations (rows of `mCoords`, `mX` and `mY`; the code does
not compare them), `k` the number of variables. The weights `wt l j` of observation `l` at location `j` are column `j` of the
matrix `wt` of the code. Prediction data other than the data itself cannot be set (`mprX`, `mprY` are private without a setter),
so the prediction locations are the observations.
-/

namespace Verif.Model
open Verif Matrix

variable {n k : ℕ} {α : Type} [DecidableEq α]

/-- GWDA.cpp:164-177 `levels`: labels in order of first appearance. -/
def gwdaLevels (y : List α) : List α := y.foldl (fun lev s => if s ∈ lev then lev else lev ++ [s]) []

/-- GWDA.cpp:140-148 `findSameString`: the indices of a class. -/
def findSame (y : Fin n → α) (s : α) : List (Fin n) := (List.finRange n).filter fun i => y i = s

/-- GWDA.cpp:151-161 `splitX`: the observations of each class, in the order of the levels. A matrix is the list of its rows. -/
def splitX (x : Matrix (Fin n) (Fin k) ℝ) (y : Fin n → α) : List (List (Fin k → ℝ)) :=
  (gwdaLevels (List.ofFn y)).map fun s => (findSame y s).map x

/-- GWDA.cpp:179-196 `ytable`: the number of observations per label; a missing key reads as 0. -/
def ytable (y : List α) : α → ℕ := y.foldl (fun c s => Function.update c s (c s + 1)) (fun _ => 0)

/-- `wt.rows(findSameString(y, s)).col(j)` summed, e.g. GWDA.cpp:407, 421, 440. -/
def classWeight (wt : Fin n → Fin n → ℝ) (idx : List (Fin n)) (j : Fin n) : ℝ := (idx.map fun l => wt l j).sum

/-- GWDA.cpp:399-412 `wMean` of the observations `idx` at location `j`. -/
noncomputable def wMean (x : Matrix (Fin n) (Fin k) ℝ) (wt : Fin n → Fin n → ℝ) (idx : List (Fin n)) (j : Fin n) :
    Res (Fin k → ℝ) :=
  if classWeight wt idx j = 0 then .nonfinite
  else .ok fun c => (idx.map fun l => wt l j / classWeight wt idx j * x l c).sum

/-- GWDA.cpp:199-217 `covwtmat` of the observations `idx` with weights `w`. -/
noncomputable def covwtmat (x : Matrix (Fin n) (Fin k) ℝ) (idx : List (Fin n)) (w : Fin n → ℝ) : Res (Matrix (Fin k) (Fin k) ℝ) :=
  let sw := (idx.map w).sum
  let sww := (idx.map fun l => w l * w l).sum
  if sw * sw - sww = 0 ∨ sw = 0 then .nonfinite
  else
    let average : Fin k → ℝ := fun c => (idx.map fun l => x l c * w l).sum / sw
    .ok (Matrix.of fun a b => sw / (sw * sw - sww) * (idx.map fun l => w l * ((x l a - average a) * (x l b - average b))).sum)

/-- GWDA.cpp:415-431 `wVarCov` of the observations `idx` at location `j` (at least two variables, checked by `run`). -/
noncomputable def wVarCov (x : Matrix (Fin n) (Fin k) ℝ) (wt : Fin n → Fin n → ℝ) (idx : List (Fin n)) (j : Fin n) :
    Res (Matrix (Fin k) (Fin k) ℝ) :=
  if classWeight wt idx j = 0 then .nonfinite else covwtmat x idx fun l => wt l j / classWeight wt idx j

/-- GWDA.cpp:434-443 `wPrior` at location `j`. `sumW` is the sum of all elements of the weight matrix. -/
noncomputable def wPrior (wt : Fin n → Fin n → ℝ) (idx : List (Fin n)) (sumW : ℝ) (j : Fin n) : Res ℝ :=
  fdiv (classWeight wt idx j) sumW

/-- The options of the analysis and the two Armadillo functions that are not modelled further: `norm` of a matrix (its largest
singular value) and what `solve` does with a singular matrix. -/
structure GwdaEnv (k : ℕ) where
  hasCov : Bool
  hasMean : Bool
  hasPrior : Bool
  nrm : Matrix (Fin k) (Fin k) ℝ → ℝ
  solveSingular : Matrix (Fin k) (Fin k) ℝ → (Fin k → ℝ) → Res (Fin k → ℝ)

/-- Armadillo's `solve(A, b)`. -/
noncomputable def gwdaSolve (e : GwdaEnv k) (A : Matrix (Fin k) (Fin k) ℝ) (b : Fin k → ℝ) : Res (Fin k → ℝ) :=
  if A.det ≠ 0 then .ok (A⁻¹ *ᵥ b) else e.solveSingular A b

/-- `wtOnes.ones(nDp, nPr)`, GWDA.cpp:311. -/
def wtOnes (n : ℕ) : Fin n → Fin n → ℝ := fun _ _ => 1

/-- `accu(wt)`. -/
def accu (wt : Fin n → Fin n → ℝ) : ℝ := ∑ j, ∑ l, wt l j

/-- GWDA.cpp:361-373: the covariance matrix used by the linear rule at location `j`, pooled over the classes with the class sizes.
`lev` are the levels of `y`. -/
noncomputable def pooledCov (e : GwdaEnv k) (x : Matrix (Fin n) (Fin k) ℝ) (y : Fin n → α) (lev : List α)
    (wt : Fin n → Fin n → ℝ) (j : Fin n) : Res (Matrix (Fin k) (Fin k) ℝ) :=
  (Res.tabulate lev.length fun i => wVarCov x (if e.hasCov then wt else wtOnes n) (findSame y (lev.get i)) j).bind fun sig =>
    let tot : ℝ := ∑ i : Fin lev.length, (ytable (List.ofFn y) (lev.get i) : ℝ)
    if tot = 0 then .nonfinite
    else .ok (Matrix.of fun a b => (∑ i : Fin lev.length, (ytable (List.ofFn y) (lev.get i) : ℝ) * sig i a b) / tot)

/-- GWDA.cpp:381-385 (and 285-289): the discriminant score of one location and class, given its mean, covariance and prior.
`m` is the number of classes, `m / 2` is an integer division. -/
noncomputable def gwdaScore (e : GwdaEnv k) (m : ℕ) (xj mean : Fin k → ℝ) (cov : Matrix (Fin k) (Fin k) ℝ) (prior : ℝ) : Res ℝ :=
  (gwdaSolve e cov (xj - mean)).bind fun v =>
  (flog (e.nrm cov)).bind fun ln => (flog prior).bind fun lp =>
    .ok (((m / 2 : ℕ) : ℝ) * ln + 1 / 2 * ((xj - mean) ⬝ᵥ v) - lp)

/-- GWDA.cpp:303-387 `wlda`: the scores of location `j`, one per class. A score that is not finite makes the outcome `nonfinite`. -/
noncomputable def wldaRow (e : GwdaEnv k) (x : Matrix (Fin n) (Fin k) ℝ) (y : Fin n → α) (lev : List α)
    (wt : Fin n → Fin n → ℝ) (j : Fin n) : Res (Fin lev.length → ℝ) :=
  (pooledCov e x y lev wt j).bind fun cov =>
  Res.tabulate lev.length fun i =>
    (wMean x (if e.hasMean then wt else wtOnes n) (findSame y (lev.get i)) j).bind fun mean =>
    (wPrior (if e.hasPrior then wt else wtOnes n) (findSame y (lev.get i)) (accu (if e.hasPrior then wt else wtOnes n)) j).bind fun pr =>
    gwdaScore e lev.length (x j) mean cov pr

/-- GWDA.cpp:220-291 `wqda`: the scores of location `j`. `wtOnes` is never given a size there (226-227), so that without all three
options `wtOnes.rows(…)` throws. -/
noncomputable def wqdaRow (e : GwdaEnv k) (x : Matrix (Fin n) (Fin k) ℝ) (y : Fin n → α) (lev : List α)
    (wt : Fin n → Fin n → ℝ) (j : Fin n) : Res (Fin lev.length → ℝ) :=
  if e.hasMean = false ∨ e.hasCov = false ∨ e.hasPrior = false then .throw .bounds
  else Res.tabulate lev.length fun i =>
    (wMean x wt (findSame y (lev.get i)) j).bind fun mean =>
    (wVarCov x wt (findSame y (lev.get i)) j).bind fun cov =>
    (wPrior wt (findSame y (lev.get i)) (accu wt) j).bind fun pr =>
    gwdaScore e lev.length (x j) mean cov pr

/-- GWDA.cpp:388-394 (292-298): `lev[index_min(logPf.row(j))]`; `index_min` of an empty row throws. -/
noncomputable def gwdaGroup (lev : List α) (scores : Fin lev.length → ℝ) : Res α :=
  match (List.finRange lev.length).argmin scores with
  | some i => .ok (lev.get i)
  | none => .throw .empty

/-- GWDA.cpp:81-91 `shannonEntropy`; `min` of an empty vector throws. -/
noncomputable def shannonEntropy {m : ℕ} (p : Fin m → ℝ) : Res ℝ :=
  if m = 0 then .throw .empty
  else if (∃ i, p i < 0) ∨ ∑ i, p i ≤ 0 then .ok 0
  else .ok (-∑ i ∈ Finset.univ.filter (fun i => 0 < p i), Real.logb 2 (p i / ∑ i, p i) * (p i / ∑ i, p i))

/-- GWDA.cpp:58-64 for one row of the score matrix `mRes`, published as `probs`: all columns but the last are exponentiated, then the
row is divided by its sum. -/
noncomputable def gwdaProbs {m : ℕ} (scores : Fin m → ℝ) : Res (Fin m → ℝ) :=
  let tmp : Fin m → ℝ := fun i => if i.val < m - 1 then Real.exp (scores i) else scores i
  if ∑ i, tmp i = 0 then .nonfinite else .ok fun i => tmp i / ∑ i, tmp i

/-- GWDA.cpp:67-74 for one row of `probs`, published as `entropy`: divided by the entropy of the uniform distribution on one class
less than there are. -/
noncomputable def gwdaEntropy {m : ℕ} (probs : Fin m → ℝ) : Res ℝ :=
  (shannonEntropy (fun _ : Fin (m - 1) => 1 / ((m : ℝ) - 1))).bind fun entMax =>
  (shannonEntropy probs).bind fun en => fdiv en entMax

/-- GWDA.cpp:48-57: share of the locations whose predicted label is the given one. -/
noncomputable def correctRate (y group : Fin n → α) : Res ℝ :=
  fdiv ((Finset.univ.filter fun i => group i = y i).card : ℝ) n

/-- GWDA.cpp:94-114 `discriminantAnalysisSerial`: the weight matrix that is used. `hasPredict` is the member `mHasPredict`. -/
def gwdaWtSerial (hasPredict : Bool) (W : Fin n → Fin n → ℝ) : Fin n → Fin n → ℝ :=
  fun l j => if hasPredict = false ∧ l = j then 0 else W j l

/-- GWDA.cpp:118-137 `discriminantAnalysisOmp`: the diagonal is kept. -/
def gwdaWtOmp (W : Fin n → Fin n → ℝ) : Fin n → Fin n → ℝ := fun l j => W j l

/-- Members of the object that `run` reads and writes, as far as needed here: `prSet` says that `mprX` and `mprY` are not empty. -/
structure GwdaState where
  isWqda : Bool
  parallel : Bool
  prSet : Bool

/-- GWDA.cpp:29-46 and 94-137: the score rows computed by a call of `run`, and the object after it. `W j` are the weights of
location `j`. `mHasPredict = !(mprX.is_empty() && mprY.empty())`, then the empty ones are filled with the data. -/
noncomputable def gwdaRun (e : GwdaEnv k) (s : GwdaState) (x : Matrix (Fin n) (Fin k) ℝ) (y : Fin n → α) (W : Fin n → Fin n → ℝ) :
    Res (GwdaState × (Fin n → Fin (gwdaLevels (List.ofFn y)).length → ℝ)) :=
  if k < 2 then .throw .runtime
  else
    let lev := gwdaLevels (List.ofFn y)
    let wt := if s.parallel then gwdaWtOmp W else gwdaWtSerial s.prSet W
    (Res.tabulate n fun j => if s.isWqda then wqdaRow e x y lev wt j else wldaRow e x y lev wt j).bind fun rows =>
      .ok ({ s with prSet := true }, rows)

end Verif.Model

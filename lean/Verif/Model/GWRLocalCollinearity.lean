import Verif.Model.GWRBasic
import Verif.Model.GWRRun

/-!
# Model of `GWRLocalCollinearity`: condition numbers, local ridge regression, fit and prediction

Armadillo's `svd` is a parameter `sv`, which gives the largest and the smallest singular value of a matrix with all entries finite.
-/

namespace Verif.Model
open Verif Matrix Classical

variable {n k m T : ℕ}

/-- GWRLocalCollinearity.cpp:350 (and 235, 296, 399, 448): `x1w = x % (wi * wispan1)`, rows multiplied by their weights. -/
def lcrWeighted (x : Matrix (Fin n) (Fin k) ℝ) (w : Fin n → ℝ) : Matrix (Fin n) (Fin k) ℝ := Matrix.of fun l j => x l j * w l

/-- GWRLocalCollinearity.cpp:355 (and 242, 303, 404, 453): `x1w.each_row() / sqrt(sum(x1w % x1w, 0))`. A column of zeros gives 0/0; `svd` of
a matrix that is not finite reports failure and leaves `S` empty, so `S(0)` in the next line is out of bounds. -/
noncomputable def lcrScaled (x : Matrix (Fin n) (Fin k) ℝ) (w : Fin n → ℝ) : Res (Matrix (Fin n) (Fin k) ℝ) :=
  if ∃ j, ∑ l, lcrWeighted x w l j * lcrWeighted x w l j = 0 then .throw .bounds
  else .ok (Matrix.of fun l j => lcrWeighted x w l j / Real.sqrt (∑ l, lcrWeighted x w l j * lcrWeighted x w l j))

/-- GWRLocalCollinearity.cpp:358, 361: `S(0)/S(k-1) > mCnThresh`. A smallest singular value of 0 gives `+inf`, or NaN if both are 0. -/
noncomputable def cnExceeds (s0 sm thresh : ℝ) : Prop := if sm = 0 then 0 < s0 else thresh < s0 / sm

/-- GWRLocalCollinearity.cpp:359-364 (and 247-252, 308-313, 408-413, 457-462): the ridge parameter of a location. -/
noncomputable def lcrLambda (lambda : ℝ) (adjust : Bool) (thresh s0 sm : ℝ) : Res ℝ :=
  if adjust = true ∧ cnExceeds s0 sm thresh then fdiv (s0 - thresh * sm) (thresh - 1) else .ok lambda

/-- Armadillo `stddev(v)` with the default normalisation `n - 1`; 0 for a single value. -/
noncomputable def stddev (v : Fin n → ℝ) : ℝ :=
  if n ≤ 1 then 0 else Real.sqrt ((∑ l, (v l - meanVec v) ^ 2) / ((n : ℝ) - 1))

/-- GWRLocalCollinearity.cpp:153-154: the scale of each column; 1 for the first. -/
noncomputable def ridgeScale (x : Matrix (Fin n) (Fin k) ℝ) (j : Fin k) : ℝ := if j.val = 0 then 1 else stddev fun l => x l j

/-- GWRLocalCollinearity.cpp:140-171 `ridgelm`. Without a second column `cols(1, 0)` is out of bounds; a constant column or a weighted
response without variation gives a division by 0. -/
noncomputable def ridgelm (x : Matrix (Fin n) (Fin k) ℝ) (y w : Fin n → ℝ) (lambda : ℝ) : Res (Fin k → ℝ) :=
  if k < 2 then .throw .bounds
  else if ∃ l, w l < 0 then .nonfinite
  else if ∃ j, ridgeScale x j = 0 then .nonfinite
  else
    let ysd := stddev fun l => y l * Real.sqrt (w l)
    if ysd = 0 then .nonfinite
    else
      let xws : Matrix (Fin n) (Fin k) ℝ := Matrix.of fun l j => x l j * Real.sqrt (w l) / ridgeScale x j
      let yws := fun l => y l * Real.sqrt (w l) / ysd
      (invGeneral (xwsᵀ * xws + lambda • (1 : Matrix (Fin k) (Fin k) ℝ))).bind fun inv =>
        .ok fun j => (inv *ᵥ (xwsᵀ *ᵥ yws)) j * ysd / ridgeScale x j

/-- Settings used by every location. -/
structure LcrCfg where
  lambda : ℝ
  adjust : Bool
  thresh : ℝ

/-- GWRLocalCollinearity.cpp:342-365 (and 226-253, 388-414): the coefficients of one location. `S(k-1)` with fewer observations than
columns is out of bounds. -/
noncomputable def lcrBeta (sv : Matrix (Fin n) (Fin k) ℝ → ℝ × ℝ) (cfg : LcrCfg) (x : Matrix (Fin n) (Fin k) ℝ) (y w : Fin n → ℝ) :
    Res (Fin k → ℝ) :=
  if k < 2 then .throw .bounds
  else (lcrScaled x w).bind fun a =>
    if n < k then .throw .bounds
    else (lcrLambda cfg.lambda cfg.adjust cfg.thresh (sv a).1 (sv a).2).bind fun lam => ridgelm x y w lam

/-- GWRLocalCollinearity.cpp:367-371 (and 417-421): the row of the hat matrix, computed from the regression without ridge term. -/
noncomputable def lcrHatRow (x : Matrix (Fin n) (Fin k) ℝ) (w : Fin n → ℝ) (i : Fin n) : Res (Fin n → ℝ) :=
  (invGeneral (xtwx x w)).bind fun inv => .ok fun l => lcrWeighted x w i ⬝ᵥ (inv *ᵥ lcrWeighted x w l)

/-- GWRLocalCollinearity.cpp:339-375: one iteration of `fitSerial`: coefficients and hat row. -/
noncomputable def lcrLocal (sv : Matrix (Fin n) (Fin k) ℝ → ℝ × ℝ) (cfg : LcrCfg) (x : Matrix (Fin n) (Fin k) ℝ) (y : Fin n → ℝ)
    (W : Fin n → Fin n → ℝ) (i : Fin n) : Res ((Fin k → ℝ) × (Fin n → ℝ)) :=
  (lcrBeta sv cfg x y (W i)).bind fun b => (lcrHatRow x (W i) i).bind fun h => .ok (b, h)

/-- The two numbers kept of a hat row: `hatrow(i)` and `sum(hatrow % hatrow)`. -/
def lcrTraces (i : Fin n) (h : Fin n → ℝ) : Fin 2 → ℝ := ![h i, ∑ l, h l * h l]

/-- GWRLocalCollinearity.cpp:330-377 `fitSerial`. `tr` holds the members `mTrS`, `mTrStS`, which are not reset. -/
noncomputable def lcrFitSerial (sv : Matrix (Fin n) (Fin k) ℝ → ℝ × ℝ) (cfg : LcrCfg) (x : Matrix (Fin n) (Fin k) ℝ) (y : Fin n → ℝ)
    (W : Fin n → Fin n → ℝ) (stop : ℕ → Bool) (tr : Fin 2 → ℝ) : Res ((Matrix (Fin n) (Fin k) ℝ × (Fin 2 → ℝ)) × Bool) :=
  serialFor (lcrLocal sv cfg x y W) (fun i r s => (setRow i r.1 s.1, s.2 + lcrTraces i r.2)) stop (List.finRange n) 0 (0, tr)

/-- GWRLocalCollinearity.cpp:419-474 `fitOmp`. The unsynchronised additions to the members in 468-469 are overwritten afterwards and are
left out (they are a data race, see `Model/Accesses`). An exception that leaves the parallel region ends the program. -/
noncomputable def lcrFitOmp (sv : Matrix (Fin n) (Fin k) ℝ → ℝ × ℝ) (cfg : LcrCfg) (x : Matrix (Fin n) (Fin k) ℝ) (y : Fin n → ℝ)
    (W : Fin n → Fin n → ℝ) (stop : ℕ → Bool) (evs : List (OmpEv (Fin n) (Fin T))) (_tr : Fin 2 → ℝ) :
    Res ((Matrix (Fin n) (Fin k) ℝ × (Fin 2 → ℝ)) × Bool) :=
  let s := ompRun (lcrLocal sv cfg x y W)
    (fun (t : Fin T) i r s => (setRow i r.1 s.1, Function.update s.2 t (s.2 t + lcrTraces i r.2))) stop evs
    ((0, 0) : Matrix (Fin n) (Fin k) ℝ × (Fin T → Fin 2 → ℝ))
  if s.success = true then .ok ((s.st.1, ∑ t, s.st.2 t), s.terminated) else .ub

/-- GWRLocalCollinearity.cpp:378-417 `predictSerial`. -/
noncomputable def lcrPredictSerial (sv : Matrix (Fin n) (Fin k) ℝ → ℝ × ℝ) (cfg : LcrCfg) (x : Matrix (Fin n) (Fin k) ℝ)
    (y : Fin n → ℝ) (W : Fin m → Fin n → ℝ) (stop : ℕ → Bool) : Res (Matrix (Fin m) (Fin k) ℝ × Bool) :=
  serialFor (fun i => lcrBeta sv cfg x y (W i)) setRow stop (List.finRange m) 0 0

/-- GWRLocalCollinearity.cpp:476-521 `predictOmp`: the result has `mX.size() + 1` columns, so assigning a row of `k` coefficients throws
unless they agree. -/
noncomputable def lcrPredictOmp (sv : Matrix (Fin n) (Fin k) ℝ → ℝ × ℝ) (cfg : LcrCfg) (x : Matrix (Fin n) (Fin k) ℝ)
    (y : Fin n → ℝ) (W : Fin m → Fin n → ℝ) (stop : ℕ → Bool) (evs : List (OmpEv (Fin m) (Fin T))) :
    Res (Matrix (Fin m) (Fin (n * k + 1)) ℝ × Bool) :=
  let s := ompRun
    (fun i => (lcrBeta sv cfg x y (W i)).bind fun b =>
      if h : n * k + 1 = k then .ok (fun j : Fin (n * k + 1) => b (j.cast h)) else .throw .size)
    (fun _ => setRow) stop evs (0 : Matrix (Fin m) (Fin (n * k + 1)) ℝ)
  if s.success = true then .ok (s.st, s.terminated) else .ub

/-- GWRLocalCollinearity.cpp:198-262 `bandwidthSizeCriterionCVSerial`: the score of given weights; an exception is not caught. -/
noncomputable def lcrCriterionCV (sv : Matrix (Fin n) (Fin k) ℝ → ℝ × ℝ) (cfg : LcrCfg) (x : Matrix (Fin n) (Fin k) ℝ) (y : Fin n → ℝ)
    (W : Fin n → Fin n → ℝ) (stop : ℕ → Bool) : Res ℝ :=
  (serialFor (fun i => lcrBeta sv cfg x y (cvWeight W i)) setRow stop (List.finRange n) 0 (0 : Matrix (Fin n) (Fin k) ℝ)).bind fun r =>
    if r.2 = true then .ok dblMax else .ok (finiteOrMax (rss x y r.1))

/-- GWRLocalCollinearity.cpp:77-86: the diagnostics of `fit` from the coefficients and the members `mTrS`, `mTrStS`. -/
noncomputable def lcrDiagnostic (x : Matrix (Fin n) (Fin k) ℝ) (y : Fin n → ℝ) (betas : Matrix (Fin n) (Fin k) ℝ) (tr : Fin 2 → ℝ) :
    Diagnostic :=
  let r := rss x y betas
  let enp := 2 * tr 0 - tr 1
  let edf := (n : ℝ) - enp
  let lg := (fdiv r (n - enp)).bind fun s2 => flog (2 * Real.pi * s2)
  let r2 := (fdiv r (∑ i, (y i - meanVec y) * (y i - meanVec y))).bind fun q => .ok (1 - q)
  { RSS := r
    AIC := lg.bind fun l => .ok (n * (l + 1) + 2 * (enp + 1))
    AICc := lg.bind fun l => (fdiv enp n).bind fun q1 => (fdiv (enp + 2) n).bind fun q2 => (fdiv (1 + q1) (1 - q2)).bind fun q =>
      .ok (n * l + n * q)
    ENP := enp
    EDF := edf
    RSquare := r2
    RSquareAdjust := r2.bind fun r2 => (fdiv ((1 - r2) * (n - 1)) edf).bind fun q => .ok (1 - q) }

/-- What `fit` leaves behind: the coefficients it returns, the diagnostics (`none`: left as they were) and the trace members. -/
structure LcrResult (n k : ℕ) where
  betas : Matrix (Fin n) (Fin k) ℝ
  diagnostic : Option Diagnostic
  traces : Fin 2 → ℝ

/-- GWRLocalCollinearity.cpp:39-89 `fit` without bandwidth selection on an object whose trace members are `tr`, with the fit function
`core`. A stop request makes it return zeros. -/
noncomputable def lcrFit (core : (Fin 2 → ℝ) → Res ((Matrix (Fin n) (Fin k) ℝ × (Fin 2 → ℝ)) × Bool)) (x : Matrix (Fin n) (Fin k) ℝ)
    (y : Fin n → ℝ) (tr : Fin 2 → ℝ) : Res (LcrResult n k) :=
  (core tr).bind fun r => if r.2 = true then .ok ⟨0, none, r.1.2⟩
    else .ok ⟨r.1.1, some (lcrDiagnostic x y r.1.1 r.1.2), r.1.2⟩

/-- The same object fitted `m + 1` times in a row: the result of the last `fit()`. -/
noncomputable def lcrFits (core : (Fin 2 → ℝ) → Res ((Matrix (Fin n) (Fin k) ℝ × (Fin 2 → ℝ)) × Bool)) (x : Matrix (Fin n) (Fin k) ℝ)
    (y : Fin n → ℝ) : ℕ → Res (LcrResult n k)
  | 0 => lcrFit core x y 0
  | m + 1 => (lcrFits core x y m).bind fun r => lcrFit core x y r.traces

end Verif.Model

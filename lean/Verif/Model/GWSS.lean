import Verif.Core.Loops
import Mathlib.Analysis.Real.Sqrt
import Mathlib.Algebra.BigOperators.Fin
import Mathlib.Data.List.FinRange

/-!
# Model of `GWSS`: local summary statistics

A result entry is `Option ℝ`: `none` stands for an entry that is not a finite number (0/0, or a square root of a negative number).
Armadillo's `sort_index` is a parameter `ord` of the model: any function returning a permutation that sorts its argument; the order
of equal values is not specified by the library. The weights `W i` of location `i` are an arbitrary matrix.
-/

namespace Verif.Model
open Verif Classical

variable {n k T c : ℕ}

/-- Floating point division, as far as the model follows it. -/
noncomputable def odiv (a b : ℝ) : Option ℝ := if b = 0 then none else some (a / b)

/-- `sqrt`. -/
noncomputable def osqrt (a : ℝ) : Option ℝ := if a < 0 then none else some (Real.sqrt a)

/-- GWSS.cpp:110-112: `Wi = w / sum(w)`. -/
noncomputable def shares (w : Fin n → ℝ) : Option (Fin n → ℝ) := if ∑ l, w l = 0 then none else some fun l => w l / ∑ m, w m

/-- GWSS.h:97-102 `rank`: `res = n(sort_index(x))` holds the sorting permutation as numbers, `sort_index(res)` sorts those. -/
noncomputable def rankOf (ord : (Fin n → ℝ) → Equiv.Perm (Fin n)) (x : Fin n → ℝ) : Fin n → ℝ := fun l =>
  ((ord (fun m => ((ord x m : Fin n) : ℝ)) l : Fin n) : ℝ) + 1

/-- GWSS.cpp:29-31 `Cum`. -/
def cumShare (σ : Equiv.Perm (Fin n)) (p : Fin n → ℝ) (i : Fin n) : ℝ := ∑ j with j ≤ i, p (σ j)

/-- GWSS.cpp:24-49 `findq`, entry `j`, with `σ` the sorting permutation. `cond` is unsigned: `i - 1` for `i = 0` is the largest
index, `cond < 0` is never true, and the unchecked `xo[cond]` reads outside the vector. -/
noncomputable def findq (σ : Equiv.Perm (Fin n)) (x : Fin n → ℝ) (p : Option (Fin n → ℝ)) (hn : 0 < n) (j : Fin 3) : Res ℝ :=
  match p with
  | none => .ok (x (σ ⟨n - 1, by omega⟩))
  | some p =>
    match (List.finRange n).find? (fun i => decide ((1 / 4 : ℝ) * (j.val + 1) < cumShare σ p i)) with
    | none => .ok (x (σ ⟨n - 1, by omega⟩))
    | some i => if i.val = 0 then .ub else .ok (x (σ ⟨i.val - 1, by omega⟩))

/-- One row of the results of the average mode. `lcv` is filled after the loop. -/
structure AvgRow (k : ℕ) where
  mean : Fin k → Option ℝ
  var : Fin k → Option ℝ
  sd : Fin k → Option ℝ
  skew : Fin k → Option ℝ
  median : Fin k → Option ℝ
  iqr : Fin k → Option ℝ
  qi : Fin k → Option ℝ

/-- GWSS.cpp:84-96 zero-filled. -/
def AvgRow.zero : AvgRow k := ⟨fun _ => some 0, fun _ => some 0, fun _ => some 0, fun _ => some 0, fun _ => some 0, fun _ => some 0,
  fun _ => some 0⟩

/-- GWSS.cpp:113 `trans(Wi) * mX`, column `j`. -/
def localMean (X : Fin n → Fin k → ℝ) (p : Fin n → ℝ) (j : Fin k) : ℝ := ∑ l, p l * X l j

/-- GWSS.cpp:125-126 `Wi.t() * (centerized % centerized)`, column `j`. -/
def localVar (X : Fin n → Fin k → ℝ) (p : Fin n → ℝ) (j : Fin k) : ℝ :=
  ∑ l, p l * ((X l j - localMean X p j) * (X l j - localMean X p j))

/-- GWSS.cpp:128 the numerator of the skewness. -/
def localThird (X : Fin n → Fin k → ℝ) (p : Fin n → ℝ) (j : Fin k) : ℝ :=
  ∑ l, p l * ((X l j - localMean X p j) * (X l j - localMean X p j) * (X l j - localMean X p j))

/-- GWSS.cpp:114-124 the three quartiles of every variable, if asked for. -/
noncomputable def quartiles (ord : (Fin n → ℝ) → Equiv.Perm (Fin n)) (X : Fin n → Fin k → ℝ) (quantile : Bool)
    (p : Option (Fin n → ℝ)) (hn : 0 < n) : Res (Fin k → Fin 3 → ℝ) :=
  if quantile then Res.tabulate k fun j => Res.tabulate 3 fun q => findq (ord fun l => X l j) (fun l => X l j) p hn q
  else .ok fun _ _ => 0

/-- GWSS.cpp:110-129 the body of the loop for one location with weights `w`. -/
noncomputable def avgRow (ord : (Fin n → ℝ) → Equiv.Perm (Fin n)) (X : Fin n → Fin k → ℝ) (quantile : Bool) (w : Fin n → ℝ)
    (hn : 0 < n) : Res (AvgRow k) :=
  (quartiles ord X quantile (shares w) hn).bind fun q =>
    let stat (f : (Fin n → ℝ) → Option ℝ) : Option ℝ := (shares w).bind f
    .ok {
      mean := fun j => stat fun p => some (localMean X p j)
      var := fun j => stat fun p => some (localVar X p j)
      sd := fun j => stat fun p => osqrt (localVar X p j)
      skew := fun j => stat fun p => (osqrt (localVar X p j)).bind fun s => odiv (localThird X p j) (localVar X p j * s)
      median := fun j => some (q j 1)
      iqr := fun j => some (q j 2 - q j 0)
      qi := fun j => if quantile then odiv (2 * q j 1 - q j 2 - q j 0) (q j 2 - q j 0) else some 0 }

/-- GWSS.cpp:102-132 `GWAverageSerial`; the result holds a row per location and whether a stop request was seen. -/
noncomputable def gwAverageSerial (ord : (Fin n → ℝ) → Equiv.Perm (Fin n)) (X : Fin n → Fin k → ℝ) (quantile : Bool)
    (W : Fin n → Fin n → ℝ) (stop : ℕ → Bool) : Res ((Fin n → AvgRow k) × Bool) :=
  serialFor (fun i => avgRow ord X quantile (W i) i.pos) (fun i r (a : Fin n → AvgRow k) => Function.update a i r) stop (List.finRange n) 0
    (fun _ => AvgRow.zero)

/-- GWSS.cpp:177-209 `GWAverageOmp`. There is no exception handler in the loop; the only abnormal event is the undefined behaviour of
`findq`. -/
noncomputable def gwAverageOmp (ord : (Fin n → ℝ) → Equiv.Perm (Fin n)) (X : Fin n → Fin k → ℝ) (quantile : Bool)
    (W : Fin n → Fin n → ℝ) (stop : ℕ → Bool) (evs : List (OmpEv (Fin n) (Fin T))) : Res ((Fin n → AvgRow k) × Bool) :=
  let s := ompRun (fun i => avgRow ord X quantile (W i) i.pos) (fun (_ : Fin T) i r (a : Fin n → AvgRow k) => Function.update a i r) stop
    evs (fun _ => AvgRow.zero)
  if s.success = true then .ok (s.st, s.terminated) else .ub

/-- GWSS.cpp:131, 207 `mLCV = mStandardDev / mLocalMean`. -/
noncomputable def lcv (r : AvgRow k) (j : Fin k) : Option ℝ := (r.sd j).bind fun s => (r.mean j).bind fun m => odiv s m

/-! ## Correlation mode -/

/-- GWSS.h:76-79 `covwt`; `sqrt` of a negative weight is not a number. -/
noncomputable def covwt (x1 x2 w : Fin n → ℝ) : Option ℝ :=
  if ∃ l, w l < 0 then none
  else odiv (∑ l, (Real.sqrt (w l) * (x1 l - ∑ m, x1 m * w m)) * (Real.sqrt (w l) * (x2 l - ∑ m, x2 m * w m))) (1 - ∑ l, w l * w l)

/-- GWSS.h:90-93 `corwt`. -/
noncomputable def corwt (x1 x2 w : Fin n → ℝ) : Option ℝ :=
  (covwt x1 x2 w).bind fun c12 => (covwt x1 x1 w).bind fun c11 => (covwt x2 x2 w).bind fun c22 => (osqrt (c11 * c22)).bind fun s => odiv c12 s

/-- GWSS.cpp:73: `nCol`. -/
def corrCols (k : ℕ) (firstOnly : Bool) : ℕ := if firstOnly then k - 1 else (k + 1) * k / 2 - k

/-- GWSS.cpp:139, 152-155: the pairs visited by the two inner loops, `j < corrSize` and `j < k < nVar`. -/
def corrPairs (k : ℕ) (firstOnly : Bool) : List (Fin k × Fin k) :=
  ((List.finRange k).filter fun j => decide (j.val < if firstOnly then 1 else k - 1)).flatMap fun j =>
    ((List.finRange k).filter fun l => decide (j < l)).map fun l => (j, l)

/-- GWSS.cpp:151-165: the entries are written at `tag`, `tag` counts up; the element access is checked. -/
def corrFill {α β : Type*} (f : β → α) : List β → ℕ → (Fin c → α) → Res (Fin c → α)
  | [], _, m => .ok m
  | b :: bs, tag, m => if h : tag < c then corrFill f bs (tag + 1) (Function.update m ⟨tag, h⟩ (f b)) else .throw .bounds

/-- GWSS.cpp:157-162: the three entries for a pair. -/
noncomputable def corrEntry (X R : Fin n → Fin k → ℝ) (p : Fin n → ℝ) (jk : Fin k × Fin k) : Option ℝ × Option ℝ × Option ℝ :=
  let covjk := covwt (fun l => X l jk.1) (fun l => X l jk.2) p
  let sumW2 := ∑ l, p l * p l
  let covjj := odiv (localVar X p jk.1) (1 - sumW2)
  let covkk := odiv (localVar X p jk.2) (1 - sumW2)
  (covjk,
   covjk.bind fun a => covjj.bind fun b => covkk.bind fun d => (osqrt (b * d)).bind fun s => odiv a s,
   corwt (fun l => R l jk.1) (fun l => R l jk.2) p)

/-- One row of the results of the correlation mode: mean, variance, and (covariance, correlation, Spearman correlation) per column. -/
structure CorrRow (k c : ℕ) where
  mean : Fin k → Option ℝ
  var : Fin k → Option ℝ
  cols : Fin c → Option ℝ × Option ℝ × Option ℝ

/-- GWSS.cpp:71-79 zero-filled. -/
def CorrRow.zero : CorrRow k c := ⟨fun _ => some 0, fun _ => some 0, fun _ => (some 0, some 0, some 0)⟩

/-- GWSS.cpp:157-162 the three entries for a pair when the weights may not have a finite sum of shares. -/
noncomputable def colEntry (X R : Fin n → Fin k → ℝ) (p : Option (Fin n → ℝ)) (jk : Fin k × Fin k) : Option ℝ × Option ℝ × Option ℝ :=
  match p with
  | none => (none, none, none)
  | some p => corrEntry X R p jk

/-- GWSS.cpp:144-166 the body of the loop for one location; `R` holds the ranks (136-137). -/
noncomputable def corrRow (X R : Fin n → Fin k → ℝ) (firstOnly : Bool) (w : Fin n → ℝ) : Res (CorrRow k (corrCols k firstOnly)) :=
  (corrFill (colEntry X R (shares w)) (corrPairs k firstOnly) 0 (fun _ => (some 0, some 0, some 0))).bind fun cols =>
  .ok { mean := fun j => (shares w).bind fun p => some (localMean X p j)
        var := fun j => (shares w).bind fun p => some (localVar X p j)
        cols := cols }

/-- GWSS.cpp:136-137: the ranks of every variable. -/
noncomputable def rankX (ord : (Fin n → ℝ) → Equiv.Perm (Fin n)) (X : Fin n → Fin k → ℝ) : Fin n → Fin k → ℝ := fun l j =>
  rankOf ord (fun m => X m j) l

/-- GWSS.cpp:134-173 `GWCorrelationSerial`. -/
noncomputable def gwCorrelationSerial (ord : (Fin n → ℝ) → Equiv.Perm (Fin n)) (X : Fin n → Fin k → ℝ) (firstOnly : Bool)
    (W : Fin n → Fin n → ℝ) (stop : ℕ → Bool) : Res ((Fin n → CorrRow k (corrCols k firstOnly)) × Bool) :=
  if 2 ≤ k then
    serialFor (fun i => corrRow X (rankX ord X) firstOnly (W i))
      (fun i r (a : Fin n → CorrRow k (corrCols k firstOnly)) => Function.update a i r) stop (List.finRange n) 0 (fun _ => CorrRow.zero)
  else .throw .runtime

/-- GWSS.cpp:213-252 `GWCorrelationOmp`. -/
noncomputable def gwCorrelationOmp (ord : (Fin n → ℝ) → Equiv.Perm (Fin n)) (X : Fin n → Fin k → ℝ) (firstOnly : Bool)
    (W : Fin n → Fin n → ℝ) (stop : ℕ → Bool) (evs : List (OmpEv (Fin n) (Fin T))) :
    Res ((Fin n → CorrRow k (corrCols k firstOnly)) × Bool) :=
  if 2 ≤ k then
    let s := ompRun (fun i => corrRow X (rankX ord X) firstOnly (W i))
      (fun (_ : Fin T) i r (a : Fin n → CorrRow k (corrCols k firstOnly)) => Function.update a i r) stop evs (fun _ => CorrRow.zero)
    if s.success = true then .ok (s.st, s.terminated) else .ub
  else .throw .runtime

end Verif.Model

import Verif.Model.LocalRegression
import Verif.Model.KernelCuda
import Mathlib.Analysis.SpecialFunctions.Log.Basic
import Mathlib.Analysis.Real.Pi.Bounds

/-!
# Model of `GWRBasic`: fitting, prediction, criteria and diagnostics

The weights `W i` of location `i` come from the spatial weight (`Model/SpatialWeight`, `Model/Kernel`, `Model/Distance`);
here they are an arbitrary matrix. Errors raised while computing a weight vector are treated in those models.
-/

namespace Verif.Model
open Verif Matrix Classical

variable {n k m T : ℕ}

/-- Members written by the core fit. Row `i` of `betas`/`se` belongs to observation `i` (the code fills columns and transposes at
the end). `s` and `c` are indexed by stored row / slice. -/
structure FitAcc (n k : ℕ) where
  betas : Matrix (Fin n) (Fin k) ℝ
  se : Matrix (Fin n) (Fin k) ℝ
  shat : Fin 2 → ℝ
  qdiag : Fin n → ℝ
  s : ℕ → Fin n → ℝ
  c : ℕ → Matrix (Fin k) (Fin n) ℝ

/-- GWRBasic.cpp:249-256: zero-filled results. -/
def FitAcc.zero : FitAcc n k := ⟨0, 0, 0, 0, fun _ => 0, fun _ => 0⟩

/-- GWRBasic.cpp:257 `workRange.first … workRange.second - 1`. -/
def workRange (n first second : ℕ) : List (Fin n) := (List.finRange n).filter (fun i => first ≤ i.val ∧ i.val < second)

/-- GWRBasic.cpp:273 `sum(ci % ci, 1)`. -/
def seRow (lf : LocalFit n k) : Fin k → ℝ := fun j => ∑ l, lf.ci j l * lf.ci j l

/-- GWRBasic.cpp:275-276: the contribution of location `i` to `(tr S, tr S'S)`. `det` of a 1×1 matrix is its entry. -/
def shatRow (i : Fin n) (lf : LocalFit n k) : Fin 2 → ℝ := ![lf.si i, ∑ l, lf.si l * lf.si l]

/-- GWRBasic.cpp:277-279: `p = -si', p(i) += 1`, `p % p`. -/
def qRow (i : Fin n) (lf : LocalFit n k) : Fin n → ℝ := fun l =>
  (Function.update (fun l => -lf.si l) i (-lf.si i + 1) l) * (Function.update (fun l => -lf.si l) i (-lf.si i + 1) l)

/-- GWRBasic.cpp:269-281 the writes of one iteration. -/
def fitUpd (first : ℕ) (storeS storeC : Bool) (i : Fin n) (lf : LocalFit n k) (a : FitAcc n k) : FitAcc n k :=
  { betas := Function.update a.betas i lf.beta
    se := Function.update a.se i (seRow lf)
    shat := a.shat + shatRow i lf
    qdiag := a.qdiag + qRow i lf
    s := Function.update a.s (if storeS then i.val - first else 0) lf.si
    c := Function.update a.c (if storeC then i.val - first else 0) lf.ci }

/-- GWRBasic.cpp:246-289 `fitCoreSerial` on the work range `[first, second)`. -/
noncomputable def fitCoreSerial (x : Matrix (Fin n) (Fin k) ℝ) (y : Fin n → ℝ) (W : Fin n → Fin n → ℝ) (first second : ℕ)
    (storeS storeC : Bool) (stop : ℕ → Bool) : Res (FitAcc n k × Bool) :=
  serialFor (fun i => localFit x y (W i) (x i)) (fitUpd first storeS storeC) stop (workRange n first second) 0 FitAcc.zero

/-- Shared data of the parallel core fit: as `FitAcc`, with the accumulators kept per thread (`shat_all`, `qDiag_all`). -/
structure FitAccOmp (n k T : ℕ) where
  betas : Matrix (Fin n) (Fin k) ℝ
  se : Matrix (Fin n) (Fin k) ℝ
  shatAll : Fin T → Fin 2 → ℝ
  qdiagAll : Fin T → Fin n → ℝ
  s : ℕ → Fin n → ℝ
  c : ℕ → Matrix (Fin k) (Fin n) ℝ

/-- GWRBasic.cpp:460-466: zero-filled results. -/
def FitAccOmp.zero : FitAccOmp n k T := ⟨0, 0, 0, 0, fun _ => 0, fun _ => 0⟩

/-- GWRBasic.cpp:484-497 the writes of one iteration executed by thread `t`. -/
def fitUpdOmp (first : ℕ) (storeS storeC : Bool) (t : Fin T) (i : Fin n) (lf : LocalFit n k) (a : FitAccOmp n k T) :
    FitAccOmp n k T :=
  { betas := Function.update a.betas i lf.beta
    se := Function.update a.se i (seRow lf)
    shatAll := Function.update a.shatAll t (a.shatAll t + shatRow i lf)
    qdiagAll := Function.update a.qdiagAll t (a.qdiagAll t + qRow i lf)
    s := Function.update a.s (if storeS then i.val - first else 0) lf.si
    c := Function.update a.c (if storeC then i.val - first else 0) lf.ci }

/-- GWRBasic.cpp:456-514 `fitCoreOmp` under a sequence of loop events. Simplification: when rows of S are not stored, all
threads write row 0 concurrently; the model lets the last finisher win. -/
noncomputable def fitCoreOmp (x : Matrix (Fin n) (Fin k) ℝ) (y : Fin n → ℝ) (W : Fin n → Fin n → ℝ) (first : ℕ)
    (storeS storeC : Bool) (stop : ℕ → Bool) (evs : List (OmpEv (Fin n) (Fin T))) : Res (FitAcc n k × Bool) :=
  let s := ompRun (fun i => localFit x y (W i) (x i)) (fitUpdOmp first storeS storeC) stop evs FitAccOmp.zero
  if s.success = true then
    .ok ({ betas := s.st.betas, se := s.st.se, shat := ∑ t, s.st.shatAll t, qdiag := ∑ t, s.st.qdiagAll t, s := s.st.s,
           c := s.st.c }, s.terminated)
  else .throw .runtime

/-- GWRBasic.cpp:217-225, 297-306: the coefficients only. -/
noncomputable def localBeta (x : Matrix (Fin n) (Fin k) ℝ) (y w : Fin n → ℝ) : Res (Fin k → ℝ) :=
  (invSympd (xtwx x w)).bind fun inv => .ok (inv *ᵥ (xtw x w *ᵥ y))

/-- `betas.col(i) = b`. -/
def setRow (i : Fin m) (b : Fin k → ℝ) (betas : Matrix (Fin m) (Fin k) ℝ) : Matrix (Fin m) (Fin k) ℝ := Function.update betas i b

/-- GWRBasic.cpp:209-233 `predictSerial` at `m` locations with weights `W`. -/
noncomputable def predictSerial (x : Matrix (Fin n) (Fin k) ℝ) (y : Fin n → ℝ) (W : Fin m → Fin n → ℝ) (stop : ℕ → Bool) :
    Res (Matrix (Fin m) (Fin k) ℝ × Bool) :=
  serialFor (fun i => localBeta x y (W i)) setRow stop (List.finRange m) 0 0

/-- GWRBasic.cpp:422-454 `predictOmp`. -/
noncomputable def predictOmp (x : Matrix (Fin n) (Fin k) ℝ) (y : Fin n → ℝ) (W : Fin m → Fin n → ℝ) (stop : ℕ → Bool)
    (evs : List (OmpEv (Fin m) (Fin T))) : Res (Matrix (Fin m) (Fin k) ℝ × Bool) :=
  let s := ompRun (fun i => localBeta x y (W i)) (fun _ => setRow) stop evs 0
  if s.success = true then .ok (s.st, s.terminated) else .throw .runtime

/-- GWRBasic.cpp:299-300: the weights with the own observation switched off, `w(i) = 0.0`. -/
def cvWeight (W : Fin n → Fin n → ℝ) (i : Fin n) : Fin n → ℝ := Function.update (W i) i 0

/-- GWRBasic.cpp:291-316 `fitCoreCVSerial`. -/
noncomputable def fitCoreCVSerial (x : Matrix (Fin n) (Fin k) ℝ) (y : Fin n → ℝ) (W : Fin n → Fin n → ℝ) (first second : ℕ)
    (stop : ℕ → Bool) : Res (Matrix (Fin n) (Fin k) ℝ × Bool) :=
  serialFor (fun i => localBeta x y (cvWeight W i)) setRow stop
    (workRange n first second) 0 0

/-- GWRBasic.cpp:516-546 `fitCoreCVOmp`: failures only clear a local flag, which is never looked at again. -/
noncomputable def fitCoreCVOmp (x : Matrix (Fin n) (Fin k) ℝ) (y : Fin n → ℝ) (W : Fin n → Fin n → ℝ) (stop : ℕ → Bool)
    (evs : List (OmpEv (Fin n) (Fin T))) : Res (Matrix (Fin n) (Fin k) ℝ × Bool) :=
  let s := ompRun (fun i => localBeta x y (cvWeight W i)) (fun _ => setRow) stop evs 0
  .ok (s.st, s.terminated)

/-- GWRBasic.cpp:335-339 the writes of one iteration. -/
def shatUpd (i : Fin n) (lf : LocalFit n k) (a : Matrix (Fin n) (Fin k) ℝ × (Fin 2 → ℝ)) :
    Matrix (Fin n) (Fin k) ℝ × (Fin 2 → ℝ) := (setRow i lf.beta a.1, a.2 + shatRow i lf)

/-- GWRBasic.cpp:566-570 the writes of one iteration executed by thread `t`. -/
def shatUpdOmp (t : Fin T) (i : Fin n) (lf : LocalFit n k) (a : Matrix (Fin n) (Fin k) ℝ × (Fin T → Fin 2 → ℝ)) :
    Matrix (Fin n) (Fin k) ℝ × (Fin T → Fin 2 → ℝ) := (setRow i lf.beta a.1, Function.update a.2 t (a.2 t + shatRow i lf))

/-- GWRBasic.cpp:318-347 `fitCoreSHatSerial`. -/
noncomputable def fitCoreSHatSerial (x : Matrix (Fin n) (Fin k) ℝ) (y : Fin n → ℝ) (W : Fin n → Fin n → ℝ) (first second : ℕ)
    (stop : ℕ → Bool) : Res ((Matrix (Fin n) (Fin k) ℝ × (Fin 2 → ℝ)) × Bool) :=
  serialFor (fun i => localFit x y (W i) (x i)) shatUpd stop (workRange n first second) 0 (0, 0)

/-- GWRBasic.cpp:548-584 `fitCoreSHatOmp`: failures only clear a local flag. -/
noncomputable def fitCoreSHatOmp (x : Matrix (Fin n) (Fin k) ℝ) (y : Fin n → ℝ) (W : Fin n → Fin n → ℝ) (stop : ℕ → Bool)
    (evs : List (OmpEv (Fin n) (Fin T))) : Res ((Matrix (Fin n) (Fin k) ℝ × (Fin 2 → ℝ)) × Bool) :=
  let s := ompRun (fun i => localFit x y (W i) (x i)) shatUpdOmp stop evs (0, 0)
  .ok ((s.st.1, ∑ t, s.st.2 t), s.terminated)

/-- IEEE division: dividing by zero gives an infinity or NaN. -/
noncomputable def fdiv (a b : ℝ) : Res ℝ := if b = 0 then .nonfinite else .ok (a / b)

/-- C `log`: not finite for arguments `≤ 0`. -/
noncomputable def flog (a : ℝ) : Res ℝ := if a ≤ 0 then .nonfinite else .ok (Real.log a)

/-- GWRBase.h:89-93 `AICc`. -/
noncomputable def aicc (x : Matrix (Fin n) (Fin k) ℝ) (y : Fin n → ℝ) (betas : Matrix (Fin n) (Fin k) ℝ) (trS : ℝ) : Res ℝ :=
  (fdiv (rss x y betas) n).bind fun q => (flog q).bind fun l => (fdiv (n + trS) (n - 2 - trS)).bind fun r =>
    .ok (n * l + n * Real.log (2 * Real.pi) + n * r)

/-- `isfinite(v) ? v : DBL_MAX`: a real number beyond the range of `double` is an infinity there. -/
noncomputable def finiteOrMax (v : ℝ) : ℝ := if |v| ≤ dblMax then v else dblMax

/-- GWRBasic.cpp:349-370 `bandwidthSizeCriterionCV`, given what the core computation did. `terminated0` is the status on entry.
Exceptions are caught. -/
noncomputable def criterionCV (x : Matrix (Fin n) (Fin k) ℝ) (y : Fin n → ℝ) (terminated0 : Bool)
    (core : Res (Matrix (Fin n) (Fin k) ℝ × Bool)) : ℝ :=
  match core with
  | .ok (betas, term) => if terminated0 = false ∧ term = false then finiteOrMax (rss x y betas) else dblMax
  | _ => dblMax

/-- GWRBasic.cpp:372-394 `bandwidthSizeCriterionAIC`, given what the core computation did. -/
noncomputable def criterionAIC (x : Matrix (Fin n) (Fin k) ℝ) (y : Fin n → ℝ) (terminated0 : Bool)
    (core : Res ((Matrix (Fin n) (Fin k) ℝ × (Fin 2 → ℝ)) × Bool)) : ℝ :=
  match core with
  | .ok ((betas, shat), term) =>
    match aicc x y betas (shat 0) with
    | .ok v => if terminated0 = false ∧ term = false then finiteOrMax v else dblMax
    | _ => dblMax
  | _ => dblMax

/-- RegressionDiagnostic (RegressionDiagnostic.h). Fields that involve a division or logarithm may be non-finite. -/
structure Diagnostic where
  RSS : ℝ
  AIC : Res ℝ
  AICc : Res ℝ
  ENP : ℝ
  EDF : ℝ
  RSquare : Res ℝ
  RSquareAdjust : Res ℝ

/-- Armadillo `mean(y)`. -/
noncomputable def meanVec (y : Fin n → ℝ) : ℝ := (∑ i, y i) / n

/-- GWRBasic.cpp:47-60 `CalcDiagnostic`; the same code is in GWRRobust.cpp, GWDR.cpp, GTWR.cpp, GWRScalable.cpp:128-141 and
GWRLocalCollinearity.cpp:14-27. -/
noncomputable def calcDiagnostic (x : Matrix (Fin n) (Fin k) ℝ) (y : Fin n → ℝ) (betas : Matrix (Fin n) (Fin k) ℝ)
    (shat : Fin 2 → ℝ) : Diagnostic :=
  let r := rss x y betas
  let edf := n - 2 * shat 0 + shat 1
  let yss := ∑ i, (y i - meanVec y) * (y i - meanVec y)
  let r2 := (fdiv r yss).bind fun q => .ok (1 - q)
  { RSS := r
    AIC := (fdiv r n).bind fun q => (flog q).bind fun l => .ok (n * l + n * Real.log (2 * Real.pi) + n + shat 0)
    AICc := (fdiv r n).bind fun q => (flog q).bind fun l => (fdiv (n + shat 0) (n - 2 - shat 0)).bind fun f =>
      .ok (n * l + n * Real.log (2 * Real.pi) + n * f)
    ENP := 2 * shat 0 - shat 1
    EDF := edf
    RSquare := r2
    RSquareAdjust := r2.bind fun r2 => (fdiv ((1 - r2) * (n - 1)) (edf - 1)).bind fun q => .ok (1 - q) }

/-- C `sqrt`: NaN for negative arguments. -/
noncomputable def fsqrt (a : ℝ) : Res ℝ := if a < 0 then .nonfinite else .ok (Real.sqrt a)

/-- GWRBasic.cpp:240-242: the reported standard error of coefficient `j` at location `i`,
`sqrt(sigmaHat * mBetasSE)` with `sigmaHat = RSS / (n - 2 trS + trStS)`. -/
noncomputable def betasSE (x : Matrix (Fin n) (Fin k) ℝ) (y : Fin n → ℝ) (a : FitAcc n k) (i : Fin n) (j : Fin k) : Res ℝ :=
  (fdiv (rss x y a.betas) (n - 2 * a.shat 0 + a.shat 1)).bind fun sigma => fsqrt (sigma * a.se i j)

end Verif.Model

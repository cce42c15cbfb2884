import Verif.Model.GLM

/-!
# Model of `GWRGeneralized`

`mHasRegressionData` has no working setter (GWRGeneralized.h, `setHasRegressionData` assigns another member), so that regression points are the
data points and `mWtMat1 = mWtMat2`; `W i l` is the spatial weight of observation `l` at location `i`. Bandwidth selection is modelled by
its criteria; `ggwrFit` starts with the weights.
-/

namespace Verif.Model
open Verif Matrix Classical

variable {n k T : ℕ}

/-- GWRGeneralized.h `Family`. -/
inductive Family
  | Poisson
  | Binomial
  deriving DecidableEq

/-- C `lgamma`: not finite at zero and the negative integers. -/
noncomputable def lgam (t : ℝ) : Res ℝ := if ∃ m : ℕ, t = -m then .nonfinite else .ok (Real.log (Real.Gamma t))

/-- One term of GWRGeneralized.cpp:876, 919 with GWRGeneralized.cpp:1017-1026 `lchoose` and `n = 1`. -/
noncomputable def binomTerm (y mu : ℝ) : Res ℝ :=
  (lgam 2).bind fun a => (lgam (1 - y + 1)).bind fun b => (lgam (y + 1)).bind fun c =>
  (flog (1 - mu / 1)).bind fun l1 => (flog (mu / 1)).bind fun l2 => .ok (a - b - c + (1 - y) * l1 + y * l2)

/-- GWRGeneralized.cpp:771, 857: the starting means. -/
noncomputable def locMu0 : Family → (Fin n → ℝ) → Fin n → ℝ
  | .Poisson, y => fun i => y i + 1 / 10
  | .Binomial, _ => fun _ => 1 * (1 / 2)

/-- GWRGeneralized.cpp:772, 858: the starting linear predictor. -/
noncomputable def locNu0 : Family → (Fin n → ℝ) → Res (Fin n → ℝ)
  | .Poisson, y => Res.tabulate n fun i => flog (y i + 1 / 10)
  | .Binomial, _ => .ok 0

/-- GWRGeneralized.cpp:779, 865: the divisor in the working response. -/
def locDen : Family → ℝ → ℝ
  | .Poisson, mu => mu
  | .Binomial, mu => mu * (1 - mu)

/-- GWRGeneralized.cpp:788, 874: the means. -/
noncomputable def locMean : Family → ℝ → ℝ
  | .Poisson, nu => Real.exp nu
  | .Binomial, nu => Real.exp nu / (1 + Real.exp nu)

/-- GWRGeneralized.cpp:790-791, 876: the log-likelihood. -/
noncomputable def locLLik : Family → (Fin n → ℝ) → (Fin n → ℝ) → Res ℝ
  | .Poisson, y, mu => (Res.tabulate n fun i => dpois (y i) (mu i)).bind fun t => .ok (∑ i, t i)
  | .Binomial, y, mu => (Res.tabulate n fun i => binomTerm (y i) (mu i)).bind fun t => .ok (∑ i, t i)

/-- GWRGeneralized.cpp:798, 883: the working weights. -/
def locWork : Family → ℝ → ℝ
  | .Poisson, mu => mu
  | .Binomial, mu => 1 * mu * (1 - mu)

/-- The data the calibration leaves behind (`myAdj`, `mWt2`, `mLLik`, and the local `nu`, `mu`, `betas`). -/
structure WtState (n k : ℕ) where
  nu : Fin n → ℝ
  mu : Fin n → ℝ
  wt2 : Fin n → ℝ
  yAdj : Fin n → ℝ
  betas : Matrix (Fin n) (Fin k) ℝ
  llik : ℝ

/-- GWRGeneralized.cpp:779-791, 865-876: one iteration up to the convergence test. -/
noncomputable def wtStep (F : Family) (x : Matrix (Fin n) (Fin k) ℝ) (y : Fin n → ℝ) (W : Fin n → Fin n → ℝ) (s : WtState n k) :
    Res (WtState n k) :=
  (Res.tabulate n fun l => (fdiv (y l - s.mu l) (locDen F (s.mu l))).bind fun q => .ok (s.nu l + q)).bind fun yAdj =>
  (Res.tabulate n fun i => gwPredict x yAdj fun l => W i l * s.wt2 l).bind fun betas =>
  (locLLik F y fun i => locMean F (∑ j, x i j * betas i j)).bind fun ll =>
    .ok { nu := fun i => ∑ j, x i j * betas i j, mu := fun i => locMean F (∑ j, x i j * betas i j), wt2 := s.wt2, yAdj := yAdj,
          betas := betas, llik := ll }

/-- GWRGeneralized.cpp:792-793, 877-878. A zero denominator gives infinity or NaN, and the comparison is false. -/
def wtConverged (tol old new : ℝ) : Prop := new ≠ 0 ∧ |(old - new) / new| < tol

/-- GWRGeneralized.cpp:777-800, 863-885: at most `fuel` further iterations. Result: the state and whether the convergence test
succeeded. The four functions `PoissonWtSerial`, `PoissonWtOmp`, `BinomialWtSerial`, `BinomialWtOmp` (763-930) all run this serial loop. -/
noncomputable def wtLoop (F : Family) (tol : ℝ) (x : Matrix (Fin n) (Fin k) ℝ) (y : Fin n → ℝ) (W : Fin n → Fin n → ℝ) :
    ℕ → WtState n k → Res (WtState n k × Bool)
  | 0, s => .ok (s, false)
  | fuel + 1, s => (wtStep F x y W s).bind fun s' =>
      if wtConverged tol s.llik s'.llik then .ok (s', true)
      else wtLoop F tol x y W fuel { s' with wt2 := fun l => locWork F (s'.mu l) }

/-- GWRGeneralized.cpp:763-930. With a limit of zero iterations `myAdj` keeps its old value, empty for a new object; the model has no such
state and puts zeros there. -/
noncomputable def wtCalc (F : Family) (tol : ℝ) (maxIter : ℕ) (x : Matrix (Fin n) (Fin k) ℝ) (y : Fin n → ℝ) (W : Fin n → Fin n → ℝ) :
    Res (WtState n k × Bool) :=
  (locNu0 F y).bind fun nu => wtLoop F tol x y W maxIter ⟨nu, locMu0 F y, fun _ => 1, 0, 0, 0⟩

/-! ### Fitting -/

/-- Coefficients, standard errors and `mShat`. -/
structure GgwrAcc (n k : ℕ) where
  betas : Matrix (Fin n) (Fin k) ℝ
  se : Matrix (Fin n) (Fin k) ℝ
  shat : Fin 2 → ℝ

/-- GWRGeneralized.cpp:236-253, 515-529: what one location contributes when the hat matrix is wanted. The square root is taken in the
loop (Poisson, 253) or afterwards (Binomial, 136-140). -/
noncomputable def ggwrLoc (x : Matrix (Fin n) (Fin k) ℝ) (W : Fin n → Fin n → ℝ) (st : WtState n k) (i : Fin n) :
    Res (LocalFit n k × (Fin k → ℝ)) :=
  (localFitInv x st.yAdj (fun l => W i l * st.wt2 l) (x i)).bind fun lf =>
  (Res.tabulate n fun l => fdiv 1 (st.wt2 l)).bind fun iw =>
  (Res.tabulate k fun j => fsqrt (∑ l, lf.ci j l * iw l * lf.ci j l)).bind fun se => .ok (lf, se)

/-- The writes of one location. -/
def ggwrUpd (i : Fin n) (r : LocalFit n k × (Fin k → ℝ)) (a : GgwrAcc n k) : GgwrAcc n k :=
  { betas := Function.update a.betas i r.1.beta, se := Function.update a.se i r.2, shat := a.shat + shatRow i r.1 }

/-- GWRGeneralized.cpp:258-264, 285-293: exceptions are caught, the loop goes on, and a plain `std::exception` is thrown at the end. -/
def rethrown {α : Type _} : Res α → Res α
  | .throw _ => .throw .runtime
  | r => r

/-- GWRGeneralized.cpp:230-267 and 508-541. -/
noncomputable def ggwrHatSerial (x : Matrix (Fin n) (Fin k) ℝ) (W : Fin n → Fin n → ℝ) (st : WtState n k) (stop : ℕ → Bool) :
    Res (GgwrAcc n k × Bool) :=
  rethrown (serialFor (ggwrLoc x W st) ggwrUpd stop (List.finRange n) 0 ⟨0, 0, 0⟩)

/-- Shared data of the parallel loops; `shat` has one column per thread. -/
structure GgwrAccOmp (n k T : ℕ) where
  betas : Matrix (Fin n) (Fin k) ℝ
  se : Matrix (Fin n) (Fin k) ℝ
  shat : Fin T → Fin 2 → ℝ

/-- The writes of one location executed by thread `t`. -/
def ggwrUpdOmp (t : Fin T) (i : Fin n) (r : LocalFit n k × (Fin k → ℝ)) (a : GgwrAccOmp n k T) : GgwrAccOmp n k T :=
  { betas := Function.update a.betas i r.1.beta, se := Function.update a.se i r.2
    shat := Function.update a.shat t (a.shat t + shatRow i r.1) }

/-- GWRGeneralized.cpp:323-367 and 420-461. A failed iteration does not keep the others from running, but the function throws in the end. -/
noncomputable def ggwrHatOmp (x : Matrix (Fin n) (Fin k) ℝ) (W : Fin n → Fin n → ℝ) (st : WtState n k) (stop : ℕ → Bool)
    (evs : List (OmpEv (Fin n) (Fin T))) : Res (GgwrAcc n k × Bool) :=
  let s := ompRun (ggwrLoc x W st) ggwrUpdOmp stop evs ⟨0, 0, 0⟩
  if s.success = true then .ok (⟨s.st.betas, s.st.se, ∑ t, s.st.shat t⟩, s.terminated) else .throw .runtime

/-- GWRGeneralized.cpp:276-277, 547-548: `wi * mWt2` is a matrix product of two columns and throws unless they have one row. -/
noncomputable def ggwrPlainLoc (x : Matrix (Fin n) (Fin k) ℝ) (W : Fin n → Fin n → ℝ) (st : WtState n k) (i : Fin n) : Res (Fin k → ℝ) :=
  if n = 1 then gwPredict x st.yAdj fun l => W i l * st.wt2 l else .throw .size

/-- GWRGeneralized.cpp:278 (Poisson) writes the coefficients that are returned, 549 (Binomial) writes a member that `fit` then
overwrites with the zeros returned. -/
def ggwrPlainUpd (F : Family) (i : Fin n) (b : Fin k → ℝ) (betas : Matrix (Fin n) (Fin k) ℝ) : Matrix (Fin n) (Fin k) ℝ :=
  match F with
  | .Poisson => Function.update betas i b
  | .Binomial => betas

/-- GWRGeneralized.cpp:268-293 and 542-565. -/
noncomputable def ggwrPlainSerial (F : Family) (x : Matrix (Fin n) (Fin k) ℝ) (W : Fin n → Fin n → ℝ) (st : WtState n k) (stop : ℕ → Bool) :
    Res (Matrix (Fin n) (Fin k) ℝ × Bool) :=
  rethrown (serialFor (ggwrPlainLoc x W st) (ggwrPlainUpd F) stop (List.finRange n) 0 0)

/-- GWRGeneralized.cpp:368-399 and 462-491. -/
noncomputable def ggwrPlainOmp (F : Family) (x : Matrix (Fin n) (Fin k) ℝ) (W : Fin n → Fin n → ℝ) (st : WtState n k) (stop : ℕ → Bool)
    (evs : List (OmpEv (Fin n) (Fin T))) : Res (Matrix (Fin n) (Fin k) ℝ × Bool) :=
  let s := ompRun (ggwrPlainLoc x W st) (fun _ => ggwrPlainUpd F) stop evs (0 : Matrix (Fin n) (Fin k) ℝ)
  if s.success = true then .ok (s.st, s.terminated) else .throw .runtime

/-- How the loops over the locations are run: `mParallelType` together with, for OpenMP, the order of events. -/
inductive Exec (n : ℕ)
  | serial
  | omp {T : ℕ} (evs : List (OmpEv (Fin n) (Fin T)))

/-- The loop over the locations chosen by `setFamily` (1056-1084), with the hat matrix. -/
noncomputable def ggwrHat (x : Matrix (Fin n) (Fin k) ℝ) (W : Fin n → Fin n → ℝ) (st : WtState n k) (stop : ℕ → Bool) :
    Exec n → Res (GgwrAcc n k × Bool)
  | .serial => ggwrHatSerial x W st stop
  | .omp evs => ggwrHatOmp x W st stop evs

/-- The same without the hat matrix. -/
noncomputable def ggwrPlain (F : Family) (x : Matrix (Fin n) (Fin k) ℝ) (W : Fin n → Fin n → ℝ) (st : WtState n k) (stop : ℕ → Bool) :
    Exec n → Res (Matrix (Fin n) (Fin k) ℝ × Bool)
  | .serial => ggwrPlainSerial F x W st stop
  | .omp evs => ggwrPlainOmp F x W st stop evs

/-- GWRGeneralized.cpp:217-228: the Poisson deviance `mGwDev`, from the means of the calibration. -/
noncomputable def gwDevPoisson (y mu : Fin n → ℝ) : Res ℝ :=
  (Res.tabulate n fun i => if y i ≠ 0 then (fdiv (y i) (mu i)).bind fun q => (flog q).bind fun l => .ok (2 * (y i * (l - 1) + mu i))
    else .ok (2 * mu i)).bind fun t => .ok (∑ i, t i)

/-- GWRGeneralized.cpp:127-132: the Binomial deviance, from the returned coefficients. -/
noncomputable def gwDevBinomial (x : Matrix (Fin n) (Fin k) ℝ) (y : Fin n → ℝ) (betas : Matrix (Fin n) (Fin k) ℝ) : Res ℝ :=
  (Res.tabulate n fun i =>
    let yhat := Real.exp (∑ j, x i j * betas i j) / (1 + Real.exp (∑ j, x i j * betas i j))
    (fdiv 1 ((y i - 1 + yhat) * (y i - 1 + yhat))).bind flog).bind fun t => .ok (∑ i, t i)

/-- What `fit` computes with the hat matrix. -/
structure GgwrResult (n k : ℕ) where
  betas : Matrix (Fin n) (Fin k) ℝ
  se : Matrix (Fin n) (Fin k) ℝ
  shat : Fin 2 → ℝ
  aic : ℝ
  aicc : ℝ
  dev : ℝ
  rSquare : ℝ
  glm : GlmDiag
  cal : WtState n k
  converged : Bool

/-- The global model of the family (GeneralizedLinearModel.cpp:32-42). -/
noncomputable def glmOf (n : ℕ) : Family → GlmFamily n
  | .Poisson => glmPoisson n
  | .Binomial => glmBinomial n

/-- The deviance the diagnostics use: for Poisson the one of the calibration, for Binomial the one of the coefficients. -/
noncomputable def gwDev (F : Family) (x : Matrix (Fin n) (Fin k) ℝ) (y : Fin n → ℝ) (st : WtState n k) (betas : Matrix (Fin n) (Fin k) ℝ) :
    Res ℝ :=
  match F with
  | .Poisson => gwDevPoisson y st.mu
  | .Binomial => gwDevBinomial x y betas

/-- GWRGeneralized.cpp:84-155 `fit` with the hat matrix, from the weights on; no stop request. The `t` values, which are stored nowhere, are
left out. -/
noncomputable def ggwrFit (F : Family) (tol : ℝ) (maxIter : ℕ) (x : Matrix (Fin n) (Fin k) ℝ) (y : Fin n → ℝ) (W : Fin n → Fin n → ℝ)
    (ex : Exec n) : Res (GgwrResult n k) :=
  (calGlm (glmOf n F) x y).bind fun glm =>
  (wtCalc F tol maxIter x y W).bind fun c =>
  (ggwrHat x W c.1 (fun _ => false) ex).bind fun a =>
  (gwDev F x y c.1 a.1.betas).bind fun dev =>
  (fdiv (2 * a.1.shat 0 * (a.1.shat 0 + 1)) (n - a.1.shat 0 - 1)).bind fun corr =>
  (fdiv dev glm.nullDev).bind fun q =>
    .ok { betas := a.1.betas, se := a.1.se, shat := a.1.shat, aic := dev + 2 * a.1.shat 0, aicc := dev + 2 * a.1.shat 0 + corr,
          dev := dev, rSquare := 1 - q, glm := glm, cal := c.1, converged := c.2 }

/-- GWRGeneralized.cpp:84-87, 157-161 `fit` without the hat matrix; no stop request. -/
noncomputable def ggwrFitPlain (F : Family) (tol : ℝ) (maxIter : ℕ) (x : Matrix (Fin n) (Fin k) ℝ) (y : Fin n → ℝ)
    (W : Fin n → Fin n → ℝ) (ex : Exec n) : Res (Matrix (Fin n) (Fin k) ℝ) :=
  (calGlm (glmOf n F) x y).bind fun _ =>
  (wtCalc F tol maxIter x y W).bind fun c => (ggwrPlain F x W c.1 (fun _ => false) ex).bind fun a => .ok a.1

/-- GWRGeneralized.cpp:172-183 `predict`; no stop request. The locations only change the distance object, which is not used again: the weights
are those of the last `fit`, and `none` before the first one, when `wt.col(0)` of the empty matrix throws. -/
noncomputable def ggwrPredict (F : Family) (tol : ℝ) (maxIter : ℕ) (x : Matrix (Fin n) (Fin k) ℝ) (y : Fin n → ℝ)
    (last : Option (Fin n → Fin n → ℝ)) (ex : Exec n) (_locations : List (ℝ × ℝ)) : Res (Matrix (Fin n) (Fin k) ℝ) :=
  match last with
  | none => .throw .bounds
  | some W => (wtCalc F tol maxIter x y W).bind fun c => (ggwrPlain F x W c.1 (fun _ => false) ex).bind fun a => .ok a.1

/-! ### Bandwidth criteria -/

/-- GWRGeneralized.cpp:589-601 one location of the cross-validation. -/
noncomputable def ggwrCVLoc (F : Family) (x : Matrix (Fin n) (Fin k) ℝ) (y : Fin n → ℝ) (W : Fin n → Fin n → ℝ) (st : WtState n k)
    (i : Fin n) : Res ℝ :=
  (gwPredict x st.yAdj fun l => cvWeight W i l * st.wt2 l).bind fun b => .ok (y i - locMean F (∑ j, x i j * b j))

/-- GWRGeneralized.cpp:568-612 `bandwidthSizeGGWRCriterionCVSerial`; no stop request. Nothing is caught. -/
noncomputable def ggwrCVSerial (F : Family) (tol : ℝ) (maxIter : ℕ) (x : Matrix (Fin n) (Fin k) ℝ) (y : Fin n → ℝ)
    (W : Fin n → Fin n → ℝ) : Res ℝ :=
  (wtCalc F tol maxIter x y (cvWeight W)).bind fun c =>
  (serialFor (ggwrCVLoc F x y W c.1) (fun i r (cv : Fin n → ℝ) => Function.update cv i r) (fun _ => false) (List.finRange n) 0
    (0 : Fin n → ℝ)).bind fun r => .ok (finiteOrMax (∑ i, r.1 i * r.1 i))

/-- GWRGeneralized.cpp:614-668 `bandwidthSizeGGWRCriterionCVOmp`. An exception must not leave a parallel region. -/
noncomputable def ggwrCVOmp (F : Family) (tol : ℝ) (maxIter : ℕ) (x : Matrix (Fin n) (Fin k) ℝ) (y : Fin n → ℝ)
    (W : Fin n → Fin n → ℝ) (evs : List (OmpEv (Fin n) (Fin T))) : Res ℝ :=
  (wtCalc F tol maxIter x y (cvWeight W)).bind fun c =>
  let s := ompRun (ggwrCVLoc F x y W c.1) (fun (_ : Fin T) i r (cv : Fin n → ℝ) => Function.update cv i r) (fun _ => false) evs
    (0 : Fin n → ℝ)
  if s.success = true then .ok (finiteOrMax (∑ i, s.st i * s.st i)) else .ub

/-- GWRGeneralized.cpp:691-694: the diagonal element of the hat matrix; `CiMat` (1051-1054) is the `ci` of `gwFit`. -/
noncomputable def ggwrLeverage (x : Matrix (Fin n) (Fin k) ℝ) (W : Fin n → Fin n → ℝ) (st : WtState n k) (i : Fin n) : Res ℝ :=
  (localFitInv x st.yAdj (fun l => W i l * st.wt2 l) (x i)).bind fun lf => .ok (lf.si i)

/-- GWRGeneralized.cpp:700-704, 751-755: the criterion. The quotient may be infinite, when the model ends with `nonfinite`. -/
noncomputable def ggwrAICc (n : ℕ) (llik trs : ℝ) : Res ℝ :=
  (fdiv (2 * trs * (trs + 1)) (n - trs - 1)).bind fun c => .ok (-2 * llik + 2 * trs + c)

/-- GWRGeneralized.cpp:671-709 `bandwidthSizeGGWRCriterionAICSerial`; no stop request. -/
noncomputable def ggwrAICSerial (F : Family) (tol : ℝ) (maxIter : ℕ) (x : Matrix (Fin n) (Fin k) ℝ) (y : Fin n → ℝ)
    (W : Fin n → Fin n → ℝ) : Res ℝ :=
  (wtCalc F tol maxIter x y W).bind fun c =>
  (serialFor (ggwrLeverage x W c.1) (fun _ r (t : ℝ) => t + r) (fun _ => false) (List.finRange n) 0 0).bind fun r =>
    ggwrAICc n c.1.llik r.1

/-- GWRGeneralized.cpp:712-760 `bandwidthSizeGGWRCriterionAICOmp`: one sum per thread, of which only that of thread 0 is used;
`T + 1` is `mOmpThreadNum`. -/
noncomputable def ggwrAICOmp (F : Family) (tol : ℝ) (maxIter : ℕ) (x : Matrix (Fin n) (Fin k) ℝ) (y : Fin n → ℝ)
    (W : Fin n → Fin n → ℝ) (evs : List (OmpEv (Fin n) (Fin (T + 1)))) : Res ℝ :=
  (wtCalc F tol maxIter x y W).bind fun c =>
  let s := ompRun (ggwrLeverage x W c.1) (fun t _ r (tr : Fin (T + 1) → ℝ) => Function.update tr t (tr t + r)) (fun _ => false) evs
    (0 : Fin (T + 1) → ℝ)
  if s.success = true then ggwrAICc n c.1.llik (s.st 0) else .ub

end Verif.Model

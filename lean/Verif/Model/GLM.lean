import Verif.Model.GWDR
import Mathlib.Analysis.SpecialFunctions.Gamma.Basic

/-!
# Model of `PoissonModel`, `BinomialModel` and `GeneralizedLinearModel`

Prior weights and offsets have no setter (GeneralizedLinearModel.h), so that `mWeight` is a vector of ones and `mOffset` of zeros.
Responses are single columns. A design without columns is not modelled.
-/

namespace Verif.Model
open Verif Matrix

variable {n k : ℕ}

/-- The constant of PoissonModel.cpp:26, 62. -/
noncomputable def poisEps : ℝ := 2.220446 / 10 ^ 16

/-- PoissonModel.cpp:24-34 `linkinv`; `min()` of an empty vector throws. -/
noncomputable def poissonLinkinv (eta : Fin n → ℝ) : Res (Fin n → ℝ) :=
  if n = 0 then .throw .empty
  else if ∀ i, Real.exp (eta i) > poisEps then .ok fun i => Real.exp (eta i)
  else .ok fun i => if Real.exp (eta i) > poisEps then Real.exp (eta i) else poisEps

/-- PoissonModel.cpp:60-70 `muEta`: the same code. -/
noncomputable def poissonMuEta (eta : Fin n → ℝ) : Res (Fin n → ℝ) :=
  if n = 0 then .throw .empty
  else if ∀ i, Real.exp (eta i) > poisEps then .ok fun i => Real.exp (eta i)
  else .ok fun i => if Real.exp (eta i) > poisEps then Real.exp (eta i) else poisEps

/-- PoissonModel.cpp:83-86 `linkfun`. -/
noncomputable def poissonLinkfun (mu : Fin n → ℝ) : Res (Fin n → ℝ) := Res.tabulate n fun i => flog (mu i)

/-- The term `weights * (y * log(y/mu) - (y - mu))` of PoissonModel.cpp:43, 48. -/
noncomputable def poissonTerm (y mu w : ℝ) : Res ℝ :=
  (fdiv y mu).bind fun q => (flog q).bind fun l => .ok (w * (y * l - (y - mu)))

/-- PoissonModel.cpp:40-53 `devResids`. -/
noncomputable def poissonDevResids (y mu w : Fin n → ℝ) : Res (Fin n → ℝ) :=
  if n = 0 then .throw .empty
  else (if ∀ i, 0 < y i then Res.tabulate n fun i => poissonTerm (y i) (mu i) (w i)
    else Res.tabulate n fun i => if 0 < y i then poissonTerm (y i) (mu i) (w i) else .ok (mu i * w i)).bind fun r =>
      .ok fun i => 2 * r i

/-- PoissonModel.cpp:13-17 `initialize`: the starting means. -/
noncomputable def poissonMuStart (y : Fin n → ℝ) : Fin n → ℝ := fun i => y i + 1 / 10

/-- BinomialModel.cpp:35-39 `linkinv`. -/
noncomputable def binomialLinkinv (eta : Fin n → ℝ) : Fin n → ℝ := fun i => Real.exp (eta i) / (1 + Real.exp (eta i))

/-- BinomialModel.cpp:41-43 `variance`. -/
def binomialVariance (mu : Fin n → ℝ) : Fin n → ℝ := fun i => mu i * (1 - mu i)

/-- BinomialModel.cpp:86-90 `muEta`. -/
noncomputable def binomialMuEta (eta : Fin n → ℝ) : Fin n → ℝ := fun i =>
  Real.exp (eta i) / ((1 + Real.exp (eta i)) * (1 + Real.exp (eta i)))

/-- BinomialModel.cpp:103-107 `linkfun`. -/
noncomputable def binomialLinkfun (mu : Fin n → ℝ) : Res (Fin n → ℝ) :=
  Res.tabulate n fun i => (fdiv (mu i) (1 - mu i)).bind flog

/-- BinomialModel.cpp:132-135 `y_log_y`. -/
noncomputable def yLogY (y mu : ℝ) : Res ℝ :=
  if y ≠ 0 then (fdiv y mu).bind fun q => (flog q).bind fun l => .ok (y * l) else .ok 0

/-- BinomialModel.cpp:45-64 `devResids` for as many means as responses. -/
noncomputable def binomialDevResids (y mu w : Fin n → ℝ) : Res (Fin n → ℝ) :=
  Res.tabulate n fun i => (yLogY (y i) (mu i)).bind fun a => (yLogY (1 - y i) (1 - mu i)).bind fun b => .ok (2 * w i * (a + b))

/-- BinomialModel.cpp:13-18 `initialize` for one column: the starting means. -/
noncomputable def binomialMuStart (y w : Fin n → ℝ) : Fin n → ℝ := fun i => (w i * y i + 1 / 2) / (w i + 1)

/-- The virtual functions of `LinearModel` that `GeneralizedLinearModel::fit` uses. -/
structure GlmFamily (n : ℕ) where
  muStart : (Fin n → ℝ) → Fin n → ℝ
  linkfun : (Fin n → ℝ) → Res (Fin n → ℝ)
  linkinv : (Fin n → ℝ) → Res (Fin n → ℝ)
  muEta : (Fin n → ℝ) → Res (Fin n → ℝ)
  variance : (Fin n → ℝ) → Fin n → ℝ
  devResids : (Fin n → ℝ) → (Fin n → ℝ) → (Fin n → ℝ) → Res (Fin n → ℝ)

/-- `PoissonModel`; `variance` (PoissonModel.cpp:36-38) is the mean. -/
noncomputable def glmPoisson (n : ℕ) : GlmFamily n :=
  ⟨poissonMuStart, poissonLinkfun, poissonLinkinv, poissonMuEta, id, poissonDevResids⟩

/-- `BinomialModel`. -/
noncomputable def glmBinomial (n : ℕ) : GlmFamily n :=
  ⟨fun y => binomialMuStart y fun _ => 1, binomialLinkfun, fun e => .ok (binomialLinkinv e), fun e => .ok (binomialMuEta e),
    binomialVariance, binomialDevResids⟩

/-- GWRGeneralized.cpp:984-993 `gwPredict`. -/
noncomputable def gwPredict (x : Matrix (Fin n) (Fin k) ℝ) (y w : Fin n → ℝ) : Res (Fin k → ℝ) :=
  (invGeneral (xtwx x w)).bind fun inv => .ok (inv *ᵥ (xtw x w *ᵥ y))

/-- What an iteration of `GeneralizedLinearModel::fit` leaves behind. -/
structure GlmState (n k : ℕ) where
  coef : Fin k → ℝ
  eta : Fin n → ℝ
  mu : Fin n → ℝ
  dev : ℝ

/-- GeneralizedLinearModel.cpp:62-75: one iteration from the linear predictor `eta` and the means `mu`. All columns of `start` are
computed from the same data and are equal. A deviance that is not finite ends the model's computation (lines 76-87: the inner loop
recomputes the deviance of the same means and so either throws, when `coefold` is still empty, or returns without a result). -/
noncomputable def glmStep (F : GlmFamily n) (x : Matrix (Fin n) (Fin k) ℝ) (y eta mu : Fin n → ℝ) : Res (GlmState n k) :=
  (F.muEta eta).bind fun me =>
  (Res.tabulate n fun i => (fdiv (y i - mu i) (me i)).bind fun q => .ok (eta i + q)).bind fun z =>
  (Res.tabulate n fun i => (fdiv (me i * me i) (F.variance mu i)).bind fsqrt).bind fun w =>
  (gwPredict (Matrix.of fun i j => x i j * w i) (fun i => z i * w i) (fun _ => 1)).bind fun coef =>
  (F.linkinv (x *ᵥ coef)).bind fun mu' =>
  (F.devResids y mu' fun _ => 1).bind fun d => .ok ⟨coef, x *ᵥ coef, mu', ∑ i, d i⟩

/-- The convergence test of GeneralizedLinearModel.cpp:88. -/
def glmConverged (dev devold : ℝ) : Prop := |dev - devold| / (1 / 10 + |dev|) < 1 / 10 ^ 8

open Classical in
/-- GeneralizedLinearModel.cpp:61-96: at most `fuel` further iterations. The result: the last state, the number of iterations
performed and whether the convergence test succeeded. -/
noncomputable def glmLoop (F : GlmFamily n) (x : Matrix (Fin n) (Fin k) ℝ) (y : Fin n → ℝ) :
    ℕ → GlmState n k → ℕ → Res (GlmState n k × ℕ × Bool)
  | 0, s, it => .ok (s, it, false)
  | fuel + 1, s, it => (glmStep F x y s.eta s.mu).bind fun s' =>
      if glmConverged s'.dev s.dev then .ok (s', it + 1, true) else glmLoop F x y fuel s' (it + 1)

/-- GeneralizedLinearModel.cpp:54-96 with `mMaxit = 25`. -/
noncomputable def glmFit (F : GlmFamily n) (x : Matrix (Fin n) (Fin k) ℝ) (y : Fin n → ℝ) : Res (GlmState n k × ℕ × Bool) :=
  (F.linkfun (F.muStart y)).bind fun eta => (F.linkinv eta).bind fun mu =>
  (F.devResids y mu fun _ => 1).bind fun d => glmLoop F x y 25 ⟨0, eta, mu, ∑ i, d i⟩ 0

/-- GeneralizedLinearModel.cpp:98-104: the deviance of the mean response. -/
noncomputable def glmNullDev (F : GlmFamily n) (y : Fin n → ℝ) : Res ℝ :=
  (fdiv (∑ i, y i) n).bind fun m => (F.devResids y (fun _ => m) fun _ => 1).bind fun d => .ok (∑ i, d i)

/-- GWRGeneralized.cpp:1008-1015 `dpois`. -/
noncomputable def dpois (y mu : ℝ) : Res ℝ := (flog mu).bind fun l => .ok (-mu + y * l - Real.log (Real.Gamma (y + 1)))

/-- GeneralizedLinearModel.cpp:105-106 with PoissonModel.cpp:55-58: `aic()` of a Poisson model; `rank = mX.n_rows`. -/
noncomputable def glmPoissonAic (y mu : Fin n → ℝ) : Res ℝ :=
  (Res.tabulate n fun i => dpois (y i) (mu i)).bind fun t => .ok (-2 * ∑ i, t i + 2 * n)

/-- Subtraction of 64-bit unsigned integers. -/
def uSub (a b : ℕ) : ℕ := (a + 2 ^ 64 - b) % 2 ^ 64

/-- `GLMDiagnostic`. -/
structure GlmDiag where
  aic : ℝ
  aicc : ℝ
  nullDev : ℝ
  dev : ℝ
  rSquare : ℝ

/-- GWRGeneralized.cpp:197: `2 * nVar * (nVar + 1) / (nDp - nVar - 1)`, all operands unsigned integers (no overflow of the product is
modelled). Division by zero is undefined behaviour. -/
def glmCorrection (n k : ℕ) : Res ℕ :=
  if uSub (uSub n k) 1 = 0 then .ub else .ok (2 * k * (k + 1) / uSub (uSub n k) 1)

/-- GWRGeneralized.cpp:185-205 `CalGLMModel`. -/
noncomputable def calGlm (F : GlmFamily n) (x : Matrix (Fin n) (Fin k) ℝ) (y : Fin n → ℝ) : Res GlmDiag :=
  (glmFit F x y).bind fun r => (glmNullDev F y).bind fun nd =>
  (fdiv r.1.dev nd).bind fun q => (glmCorrection n k).bind fun c =>
    .ok ⟨r.1.dev + 2 * k, r.1.dev + 2 * k + c, nd, r.1.dev, 1 - q⟩

end Verif.Model

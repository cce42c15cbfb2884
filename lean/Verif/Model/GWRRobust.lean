import Verif.Model.GWRBasic

/-!
# Model of `GWRRobust`: re-weighting of observations

`fitF mask` stands for a call of `mfitFunction` with `mWeightMask = mask` (`fitSerial`, GWRRobust.cpp:129-170, or `fitOmp`, 173-222).
Both run the core fit of `GWRBasic` with the weights `weightVector(i) % mWeightMask`; see `robustFit`. Stop requests are not modelled
here: a stopped calibration returns zeros.
-/

namespace Verif.Model
open Verif Classical

variable {n k : ℕ}

/-- GWRRobust.cpp:141, 192: the weights of a location are multiplied by the mask. -/
def maskedW (W : Fin n → Fin n → ℝ) (mask : Fin n → ℝ) : Fin n → Fin n → ℝ := fun i l => W i l * mask l

/-- GWRRobust.cpp:129-170 `fitSerial`: the same statements as GWRBasic.cpp:246-289 with the masked weights. -/
noncomputable def robustFit (x : Matrix (Fin n) (Fin k) ℝ) (y : Fin n → ℝ) (W : Fin n → Fin n → ℝ) (storeS : Bool) (mask : Fin n → ℝ) :
    Res (FitAcc n k) :=
  (fitCoreSerial x y (maskedW W mask) 0 n storeS false fun _ => false).bind fun a => .ok a.1

/-- GWRRobust.cpp:290-291: residuals. -/
def residuals (x : Matrix (Fin n) (Fin k) ℝ) (y : Fin n → ℝ) (betas : Matrix (Fin n) (Fin k) ℝ) : Fin n → ℝ := fun i => y i - fitted x betas i

/-- GWRRobust.cpp:293: `mse = sum(residual % residual) / residual.size()`. -/
noncomputable def mse (r : Fin n → ℝ) : ℝ := (∑ i, r i * r i) / n

/-- GWRRobust.cpp:337-360 `filtWeight`. With `mse = 0` every residual is 0 and `0 / 0` is not a number: no comparison holds and the
last branch is taken. -/
noncomputable def filtWeight (r : Fin n → ℝ) (m : ℝ) : Fin n → ℝ := fun i =>
  if m = 0 then 0
  else
    let a := |r i / Real.sqrt m|
    if a ≤ 2 then 1
    else if 2 < a ∧ a < 3 then (1 - (a - 2) * (a - 2)) * (1 - (a - 2) * (a - 2))
    else 0

/-- GWRRobust.cpp:255-256, 263: `fabs(residual / sqrt(sigmaHat * qDiag)) > 3` with IEEE rules: a comparison with NaN fails, a non-zero
residual over 0 is infinite, a residual over infinity is 0. `den` is `n - 2 trS + trStS`. -/
def outlying (rssv den q r : ℝ) : Prop :=
  den ≠ 0 ∧ 0 ≤ rssv / den * q ∧ ((rssv / den * q = 0 ∧ r ≠ 0) ∨ (0 < rssv / den * q ∧ 3 < |r / Real.sqrt (rssv / den * q)|))

/-- GWRRobust.cpp:258-272: the 0/1 mask of the first method. -/
noncomputable def outlierMask (x : Matrix (Fin n) (Fin k) ℝ) (y : Fin n → ℝ) (a : FitAcc n k) : Fin n → ℝ := fun i =>
  if outlying (rss x y a.betas) (n - 2 * a.shat 0 + a.shat 1) (a.qdiag i) (residuals x y a.betas i) then 0 else 1

/-- GWRRobust.cpp:238-275 `robustGWRCaliFirst` (with `mWeightMask` all ones on entry, 82). Result: the last fit and the masks of all
fits made, in order. -/
noncomputable def caliFirst (fitF : (Fin n → ℝ) → Res (FitAcc n k)) (x : Matrix (Fin n) (Fin k) ℝ) (y : Fin n → ℝ) :
    Res (FitAcc n k × List (Fin n → ℝ)) :=
  (fitF fun _ => 1).bind fun a =>
    (fitF (outlierMask x y a)).bind fun b => .ok (b, [fun _ => 1, outlierMask x y a])

/-- GWRRobust.cpp:297, 308: `diffmse > delta`, `diffmse = abs(oldmse - mse) / mse`; with `mse = 0` this is infinite if `oldmse ≠ 0` and
not a number otherwise. -/
def goesOn (oldmse m : ℝ) : Prop := if m = 0 then oldmse ≠ 0 else 1 / 100000 < |oldmse - m| / m

/-- GWRRobust.cpp:297-310: the loop, with at most `fuel` iterations left. `a` is the fit made before, `m` its mean squared error. -/
noncomputable def robustLoop (fitF : (Fin n → ℝ) → Res (FitAcc n k)) (x : Matrix (Fin n) (Fin k) ℝ) (y : Fin n → ℝ) :
    ℕ → Bool → FitAcc n k → ℝ → (Fin n → ℝ) → List (Fin n → ℝ) → Res (FitAcc n k × List (Fin n → ℝ))
  | 0, _, a, _, _, used => .ok (a, used)
  | fuel + 1, go, a, m, mask, used =>
    if go = true then
      (fitF mask).bind fun b =>
        let r := residuals x y b.betas
        robustLoop fitF x y fuel (decide (goesOn m (mse r))) b (mse r) (filtWeight r (mse r)) (used ++ [mask])
    else .ok (a, used)

/-- GWRRobust.cpp:277-313 `robustGWRCaliSecond`; `maxiter = 20`. -/
noncomputable def caliSecond (fitF : (Fin n → ℝ) → Res (FitAcc n k)) (x : Matrix (Fin n) (Fin k) ℝ) (y : Fin n → ℝ) :
    Res (FitAcc n k × List (Fin n → ℝ)) :=
  (fitF fun _ => 1).bind fun a =>
    let r := residuals x y a.betas
    robustLoop fitF x y 20 true a (mse r) (filtWeight r (mse r)) [fun _ => 1]

end Verif.Model

import Verif.Spec.GWRScore
import Verif.Spec.KernelWeight
import Verif.Spec.SearchRange
import Verif.Model.GWRMultiscaleRun

/-!
# Specification of multiscale regression: back-fitting with one bandwidth per variable

What the published algorithm does, in terms of the data, the settings and the sequence of coefficients and bandwidths.
-/

namespace Verif.Spec
open Verif Verif.Model

variable {n k : ℕ}

/-- Where back-fitting is after some number of sweeps: the coefficients, the bandwidths, how often in a row the bandwidth of each variable has hardly
moved, and whether it is no longer searched. -/
structure Stage (n k : ℕ) where
  B : Matrix (Fin n) (Fin k) ℝ
  bw : Fin k → BandwidthWeight
  quiet : Fin k → ℕ
  frozen : Fin k → Prop

/-- The predictor `i` alone. -/
def single (x : Matrix (Fin n) (Fin k) ℝ) (i : Fin k) : Matrix (Fin n) (Fin 1) ℝ := fun l _ => x l i

/-- What variable `i` has to explain in a sweep from the coefficients `B` to the coefficients `B'`: the response less the components of the other
variables, those of the earlier variables being new already. -/
def sweepResponse (x : Matrix (Fin n) (Fin k) ℝ) (y : Fin n → ℝ) (B B' : Matrix (Fin n) (Fin k) ℝ) (i : Fin k) (l : Fin n) : ℝ :=
  y l - ∑ m with m < i, x l m * B' l m - ∑ m with i < m, x l m * B l m

/-- The range in which the bandwidth of a variable is searched unless the user sets bounds: from the smallest allowed number to the number of
observations for a number of neighbours; from 0 to the largest distance for a distance, but nothing else than 0 if the user gave a start value (C65). -/
def MultiscaleRange (given : Prop) (adaptive : Bool) (adaptiveLower : ℝ) (dist : Fin n → Fin n → ℝ) (l v : ℝ) : Prop :=
  if adaptive = true then l = adaptiveLower ∧ v = n
  else l = 0 ∧ ((given ∧ v = 0) ∨ (¬ given ∧ IsGreatest (Set.range fun p : Fin n × Fin n => dist p.1 p.2) v))

/-- `b` is the outcome of a search from the weight `b0` between `l` and `v`, for a regression of `y` on `x` at the distances `dist`. It is the best of
some tried bandwidths, by their values; the values are those of the criterion wherever it is defined and a double, and, if `serial`, `DBL_MAX` where it
is not defined. -/
def IsChosen (c : Crit) (serial : Prop) (b0 : BandwidthWeight) (dist : Fin n → Fin n → ℝ) (x : Matrix (Fin n) (Fin k) ℝ) (y : Fin n → ℝ) (l v : ℝ)
    (b : BandwidthWeight) : Prop :=
  ∃ tried : List (ℝ × ℝ), StartsInRange b0.mAdaptive l v (tried.map Prod.fst) ∧ b.mKernel = b0.mKernel ∧ b.mAdaptive = b0.mAdaptive ∧
    (∃ e ∈ tried, e.1 = b.mBandwidth ∧ ∀ e' ∈ tried, e.2 ≤ e'.2) ∧
    ∀ e ∈ tried, UsableRadius { b0 with mBandwidth := e.1 } dist → ∀ w, IsKernelWeight { b0 with mBandwidth := e.1 } dist w →
      (∀ v, IsGWRScore c x y w v → |v| ≤ dblMax → e.2 = v) ∧ (serial → (¬ ∃ v, IsGWRScore c x y w v) → e.2 = dblMax)

/-- The search for variable `i` with the settings `u`, for the response `y`, from the weight `b0`. -/
def IsSearched (u : MgwrSetup n k) (serial : Prop) (dist : Fin k → Fin n → Fin n → ℝ) (x : Matrix (Fin n) (Fin k) ℝ) (i : Fin k) (y : Fin n → ℝ)
    (b0 b : BandwidthWeight) : Prop :=
  ∃ l v, MultiscaleRange (u.init i ≠ .Null) b0.mAdaptive u.adaptiveLower (dist i) l v ∧
    IsChosen (u.approach i) serial b0 (dist i) (single x i) y (u.lower.getD l) (u.upper.getD v) b

/-- One sweep over the variables. The bandwidth of a variable that is not frozen is searched for what the variable has to explain; it freezes when it has
hardly moved `retry` times in a row. The new coefficients of the variable are those of the regression of what it has to explain on it alone, weighted with
the new bandwidth. -/
def IsSweep (u : MgwrSetup n k) (serial : Prop) (dist : Fin k → Fin n → Fin n → ℝ) (x : Matrix (Fin n) (Fin k) ℝ) (s s' : Stage n k) : Prop :=
  ∀ i, (s.frozen i → s'.frozen i ∧ s'.bw i = s.bw i ∧ s'.quiet i = s.quiet i) ∧
    (¬ s.frozen i → IsSearched u serial dist x i (sweepResponse x u.y s.B s'.B i) (s.bw i) (s'.bw i) ∧
      (u.threshold i < |(s'.bw i).mBandwidth - (s.bw i).mBandwidth| → s'.quiet i = 0 ∧ ¬ s'.frozen i) ∧
      (|(s'.bw i).mBandwidth - (s.bw i).mBandwidth| ≤ u.threshold i → s'.quiet i = s.quiet i + 1 ∧ (s'.frozen i ↔ u.retry ≤ s'.quiet i))) ∧
    (UsableRadius (s'.bw i) (dist i) → ∀ w, IsKernelWeight (s'.bw i) (dist i) w →
      ∀ j, IsWLS (single x i) (sweepResponse x u.y s.B s'.B i) (w j) fun _ => s'.B j i)

/-- The change of the residual sum of squares still exceeds the threshold, as it is or relative to the new value. -/
def GoesOn (t : BackFitCrit) (thr before after : ℝ) : Prop :=
  match t with
  | .CVR => thr < |after - before|
  | .dCVR => (after = 0 ∧ before ≠ 0) ∨ (after ≠ 0 ∧ thr < √(|after - before| / after))

/-- Back-fitting: `T` sweeps, as long as the change exceeds the threshold and the maximum number is not reached. -/
def IsBackFitting (u : MgwrSetup n k) (serial : Prop) (dist : Fin k → Fin n → Fin n → ℝ) (x : Matrix (Fin n) (Fin k) ℝ) (s : ℕ → Stage n k) (T : ℕ) :
    Prop :=
  T ≤ u.maxIter ∧ (∀ t < T, IsSweep u serial dist x (s t) (s (t + 1))) ∧
    (∀ t, t + 1 < T → GoesOn u.critType u.critThreshold (residualSS x u.y (s t).B) (residualSS x u.y (s (t + 1)).B)) ∧
    (T < u.maxIter → ∃ t, T = t + 1 ∧ ¬ GoesOn u.critType u.critThreshold (residualSS x u.y (s t).B) (residualSS x u.y (s T).B))

end Verif.Spec

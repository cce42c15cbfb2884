import Verif.Model.GWRScalable

/-!
# Model of `GWRScalable`: whole runs of `fit` and `predict`

The minimiser of the GSL library is a parameter `opt`: from the criterion, as a function of the two parameters, it picks a pair. By the
contract of `gsl_multimin_fminimizer` the value it reports is the criterion at that pair. Stop requests are not modelled.
-/

namespace Verif.Model
open Verif Matrix Classical

variable {m n k : ℕ}

/-- Armadillo `median`: an exception for an empty vector, the middle element of the sorted values for an odd number of them, the mean
of the two middle ones for an even number. -/
noncomputable def armaMedian (v : Fin m → ℝ) : Res ℝ :=
  if m = 0 then .throw .logic
  else if m % 2 = 1 then .ok ((sortVec v)[m / 2]?.getD 0)
  else .ok (((sortVec v)[m / 2 - 1]?.getD 0 + (sortVec v)[m / 2]?.getD 0) / 2)

/-- GWRScalable.cpp:477-489 (and 313-325, 359-371, 537-549): base weights for a table of neighbours, from the median of column `col`. -/
noncomputable def scaBaseRows (ker : KernelType) (rows : Fin m → NeiRow n) (col : Fin m → ℝ) : Res (Fin m → NeiRow n) :=
  (armaMedian col).bind fun med =>
    Res.tabulate m fun i => mapRes (fun j => ((scaBaseWeight ker med j.2).getD .ub).bind fun w => .ok (j.1, w)) (rows i)

/-- GWRScalable.cpp:355-371 (and 534-549): the neighbours of each location with their base weights, for distances `d` from the locations to
the observations. The width of the table has to be the bandwidth, otherwise the assignment to a row of `G` throws (line 385 and 553). -/
noncomputable def scaRows (ker : KernelType) (bw : ℝ) (σ : (Fin n → ℝ) → Equiv.Perm (Fin n)) (d : Fin m → Fin n → ℝ) :
    Res (Fin m → NeiRow n) :=
  (Res.tabulate m fun i => scaNeighbours bw σ (d i)).bind fun rows =>
    (scaBandColumn rows (scaCount bw n) ⌊bw⌋₊).bind fun col =>
      (scaBaseRows ker rows col).bind fun nei =>
        if scaCount bw n = ⌊bw⌋₊ then .ok nei else .throw .logic

/-! ## Search criteria -/

/-- GWRScalable.cpp:15-60 `Loocv`. For a singular system `solve` falls back to an approximate solution, or throws; that is the parameter
`approx`. An exception makes the value `DBL_MAX`. -/
noncomputable def scaLoocv (P : ℕ) (x : Matrix (Fin n) (Fin k) ℝ) (y : Fin n → ℝ) (nei : Fin n → NeiRow n)
    (approx : Matrix (Fin k) (Fin k) ℝ → (Fin k → ℝ) → Option (Fin k → ℝ)) (bt al : ℝ) : Res ℝ :=
  (Res.tabulate n fun i => scaSystem P x y (nei i) (bt * bt) (al * al)).bind fun sys =>
    let sol := fun i => if IsUnit (sys i).1.det then some ((sys i).1⁻¹ *ᵥ (sys i).2) else approx (sys i).1 (sys i).2
    if ∀ i, (sol i).isSome then
      .ok (∑ i, (y i - x i ⬝ᵥ (sol i).getD 0) * (y i - x i ⬝ᵥ (sol i).getD 0))
    else .ok dblMax

/-- GWRScalable.cpp:63-126 `AICvalue`. -/
noncomputable def scaAIC (P : ℕ) (x : Matrix (Fin n) (Fin k) ℝ) (y : Fin n → ℝ) (nei : Fin n → NeiRow n) (bt al : ℝ) : Res ℝ :=
  (Res.tabulate n fun i => scaSystem P x y (nei i) (bt * bt) (al * al)).bind fun sys =>
    if ∃ i, (sys i).1.det < 1 / 10 ^ 10 then .ok dblMax
    else
      (Res.tabulate n fun i => scaSolve (sys i).1 (sys i).2).bind fun beta =>
      (Res.tabulate n fun i => scaTraceRow P x y (nei i) (bt * bt) (al * al) i).bind fun tr =>
        let trS := ∑ i, tr i
        let sse := ∑ i, (y i - x i ⬝ᵥ beta i) * (y i - x i ⬝ᵥ beta i)
        match (fdiv sse n).bind fun q => (flog (Real.sqrt q)).bind fun l => (fdiv (n * (n + trS)) (n - 2 - trS)).bind fun f =>
          .ok (2 * n * l + n * Real.log (2 * Real.pi) + f) with
        | .ok v => .ok v
        | _ => .ok dblMax

/-- GWRScalable.cpp:193-213, 225: the criterion handed to the minimiser. -/
noncomputable def scaCriterion (c : Crit) (P : ℕ) (x : Matrix (Fin n) (Fin k) ℝ) (y : Fin n → ℝ) (nei : Fin n → NeiRow n)
    (approx : Matrix (Fin k) (Fin k) ℝ → (Fin k → ℝ) → Option (Fin k → ℝ)) (bt al : ℝ) : Res ℝ :=
  match c with
  | .CV => scaLoocv P x y nei approx bt al
  | .AIC => scaAIC P x y nei bt al

/-! ## Runs -/

/-- Settings of a run: criterion, degree, kernel, bandwidth, order in which `sort_index` lists equal distances, the minimiser, and what
`solve` does with singular systems. -/
structure ScaCfg (n k : ℕ) where
  crit : Crit
  P : ℕ
  ker : KernelType
  bw : ℝ
  σ : (Fin n → ℝ) → Equiv.Perm (Fin n)
  opt : (ℝ → ℝ → Res ℝ) → ℝ × ℝ
  approx : Matrix (Fin k) (Fin k) ℝ → (Fin k → ℝ) → Option (Fin k → ℝ)

/-- GWRScalable.cpp:463-504 (and 300-336): everything up to the chosen parameters `mScale`, `mPenalty` and the value of the criterion.
`none`: the kernel is another one, or the value is not below `DBL_MAX`; `mBetas` is then returned as it is. -/
noncomputable def scaChoose (u : ScaCfg n k) (x : Matrix (Fin n) (Fin k) ℝ) (y : Fin n → ℝ) (D : Fin n → Fin n → ℝ) :
    Res (Option (ℝ × ℝ × ℝ)) :=
  if u.ker = .Gaussian ∨ u.ker = .Exponential then
    (scaSetup u.crit u.bw u.σ D).bind fun st =>
      (scaBaseRows u.ker st.1 st.2).bind fun nei =>
        let crit := scaCriterion u.crit u.P x y nei u.approx
        let p := u.opt crit
        match crit p.1 p.2 with
        | .ok cv => if cv < dblMax then .ok (some (p.1 * p.1, p.2 * p.2, cv)) else .ok none
        | .nonfinite => .ok none
        | .throw e => .throw e
        | .ub => .ub
  else .ok none

/-- Results of a fit: `mScale`, `mPenalty`, `mCV`, `mBetas`, `mShat(0)`. -/
structure ScaFit (n k : ℕ) where
  scale : ℝ
  penalty : ℝ
  cv : ℝ
  betas : Matrix (Fin n) (Fin k) ℝ
  trS : ℝ

/-- GWRScalable.cpp:463-518 `fit`, 520-663 `fitSerial`. `mShat(1)` and the standard errors are left out here (see `scaRun`). -/
noncomputable def scaFit (u : ScaCfg n k) (x : Matrix (Fin n) (Fin k) ℝ) (y : Fin n → ℝ) (D : Fin n → Fin n → ℝ) :
    Res (Option (ScaFit n k)) :=
  (scaChoose u x y D).bind fun c =>
    match c with
    | none => .ok none
    | some (b, a, cv) =>
      (scaRows u.ker (scaBw u.bw n) u.σ D).bind fun nei =>
        (Res.tabulate n fun i => scaFitRow u.P x y (nei i) b a).bind fun betas =>
          (Res.tabulate n fun i => scaTraceRow u.P x y (nei i) b a i).bind fun tr =>
            .ok (some ⟨b, a, cv, Matrix.of betas, ∑ i, tr i⟩)

/-- GWRScalable.cpp:300-341 `predict`, 343-461 `predictSerial` at locations with distances `d` to the observations. Here a singular system
ends the call with an exception. -/
noncomputable def scaPredict (u : ScaCfg n k) (x : Matrix (Fin n) (Fin k) ℝ) (y : Fin n → ℝ) (D : Fin n → Fin n → ℝ)
    (d : Fin m → Fin n → ℝ) : Res (Option (Matrix (Fin m) (Fin k) ℝ)) :=
  (scaChoose u x y D).bind fun c =>
    match c with
    | none => .ok none
    | some (b, a, _) =>
      (scaRows u.ker (scaBw u.bw n) u.σ d).bind fun nei =>
        (Res.tabulate m fun i => (scaSystem u.P x y (nei i) b a).bind fun s => scaSolve s.1 s.2).bind fun betas =>
          .ok (some (Matrix.of betas))

end Verif.Model

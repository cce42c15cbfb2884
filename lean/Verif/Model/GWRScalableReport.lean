import Verif.Model.GWRScalableRun

/-!
# Model of `GWRScalable`: the second trace, standard errors and diagnostics of `fit`
-/

namespace Verif.Model
open Matrix

variable {n k : ℕ}

/-- GWRScalable.cpp:567-585: one column of `mMxx0`, written like `mMx0` with the squares of the polynomial kernels. -/
noncomputable def tableXX (P : ℕ) (x : Matrix (Fin n) (Fin k) ℝ) (nei : NeiRow n) : ℕ → ℝ :=
  (writeOrder P k).foldl (fun t q => Function.update t (slotWrite P k q.1 q.2.1 q.2.2)
    ((nei.map fun j => x j.1 q.1 * scaG P q.2.1 j.2 * scaG P q.2.1 j.2 * x j.1 q.2.2).sum)) fun _ => 0

/-- GWRScalable.cpp:610-634: `sumMx2` of one location: `Mx2 = 2 a Mx + Rx² Mxx0`, summed over the degrees, plus `a² XᵀX`. -/
noncomputable def scaSystem2 (P : ℕ) (x : Matrix (Fin n) (Fin k) ℝ) (nei : NeiRow n) (b a : ℝ) : Res (Matrix (Fin k) (Fin k) ℝ) :=
  let total := ∑ p : Fin (P + 1), scaPow b p
  if total = 0 then .nonfinite
  else
    let R := fun p : Fin (P + 1) => scaPow b p / total
    let Mx2 := fun s => 2 * a * (coefX P k R s * tableX P x nei s) + coefX P k R s * coefX P k R s * tableXX P x nei s
    .ok (Matrix.of (fun k1 k2 : Fin k => ∑ p : Fin (P + 1), Mx2 (slotRead P k k1 p k2)) + (a * a) • (xᵀ * x))

/-- GWRScalable.cpp:636-657: what location `i` adds to `trStS` and the row of `bse`; zeros for a singular system. -/
noncomputable def scaSpreadRow (P : ℕ) (x : Matrix (Fin n) (Fin k) ℝ) (y : Fin n → ℝ) (nei : NeiRow n) (b a : ℝ) (i : Fin n) :
    Res (ℝ × (Fin k → Res ℝ)) :=
  (scaSystem P x y nei b a).bind fun s => (scaSystem2 P x nei b a).bind fun m2 =>
    match invGeneral (s.1ᵀ * s.1) with
    | .ok r => .ok ((r *ᵥ x i) ⬝ᵥ (m2 *ᵥ (r *ᵥ x i)), fun j => fsqrt ((r * m2 * r) j j))
    | _ => .ok (0, fun _ => .ok 0)

/-- Results of a fit: those of `ScaFit`, `mShat(1)`, `mDiagnostic` and `mBetasSE`. -/
structure ScaReport (n k : ℕ) where
  fit : ScaFit n k
  trStS : ℝ
  diagnostic : Diagnostic
  se : Fin n → Fin k → Res ℝ

/-- GWRScalable.cpp:463-518 `fit` with 520-663 `fitSerial`: the results after the parameters `b`, `a` have been chosen. The standard errors
are `sqrt(sigmaHat * mBetasSE)` (514), where `mBetasSE` holds square roots already (652). -/
noncomputable def scaRun (u : ScaCfg n k) (x : Matrix (Fin n) (Fin k) ℝ) (y : Fin n → ℝ) (D : Fin n → Fin n → ℝ) :
    Res (Option (ScaReport n k)) :=
  (scaFit u x y D).bind fun f =>
    match f with
    | none => .ok none
    | some f => (scaRows u.ker (scaBw u.bw n) u.σ D).bind fun nei =>
      (Res.tabulate n fun i => scaSpreadRow u.P x y (nei i) f.scale f.penalty i).bind fun t =>
        let trStS := ∑ i, (t i).1
        .ok (some ⟨f, trStS, calcDiagnostic x y f.betas ![f.trS, trStS], fun i j =>
          (fdiv (rss x y f.betas) (n - 2 * f.trS + trStS)).bind fun s => ((t i).2 j).bind fun v => fsqrt (s * v)⟩)

end Verif.Model

import Verif.Model.MultiscaleMpi

/-!
# What a distributed multiscale fit is compared with

A run of a single process in which every coefficient passes through a function `cut` before it is used: `cut = id` is the ordinary run.
-/

namespace Verif.Spec
open Verif Verif.Model Matrix Classical

variable {n k p : ℕ} {α β : Type*}

/-- Two computations end in the same way, with results that are related. -/
def SameOutcome (R : α → β → Prop) : Res α → Res β → Prop
  | .ok a, .ok b => R a b
  | .throw e, .throw e' => e = e'
  | .ub, .ub => True
  | .nonfinite, .nonfinite => True
  | _, _ => False

/-- What happens to a coefficient when it is combined over `p + 1` processes. -/
noncomputable def cutOf (p : ℕ) (b : ℝ) : ℝ := if p = 0 then b else max b 0

/-- The criterion of one variable, its coefficients passed through `cut`. -/
noncomputable def cutCriterion (cut : ℝ → ℝ) (cr : Crit) (x : Matrix (Fin n) (Fin 1) ℝ) (y : Fin n → ℝ) (rows : Res (Fin n → Fin n → ℝ)) : ℝ :=
  match rows with
  | .ok W => match cr with
    | .CV =>
      match fitCoreCVSerial x y W 0 n (fun _ => false) with
      | .ok r => finiteOrMax (rss x y (Matrix.of fun i j => cut (r.1 i j)))
      | _ => dblMax
    | .AIC =>
      match fitCoreSHatSerial x y W 0 n (fun _ => false) with
      | .ok r =>
        match aicc x y (Matrix.of fun i j => cut (r.1.1 i j)) (r.1.2 0) with
        | .ok v => finiteOrMax v
        | _ => dblMax
      | _ => dblMax
  | _ => dblMax

/-- The golden section search with that criterion. -/
noncomputable def cutSelect (cut : ℝ → ℝ) (cr : Crit) (D : Fin n → Fin n → ℝ) (bounds : ℝ × ℝ) (x : Matrix (Fin n) (Fin 1) ℝ) (y : Fin n → ℝ)
    (b0 : BandwidthWeight) : Res BandwidthWeight :=
  (optimize b0 bounds.1 bounds.2 (fun _ b => (true, cutCriterion cut cr x y (Res.tabulate n fun i => b.weight (D i)))) []).out

/-- One variable of back-fitting by a single process: search, fit, coefficients through `cut`, update. -/
noncomputable def cutVar (cut : ℝ → ℝ) (c : MgwrCfg n k) (u : MpiSearch n k) (i : Fin k) (s : BfState n k) : Res (BfState n k) :=
  (if s.init i = .Specified then .ok s
    else (cutSelect cut (u.crit i) (u.dist i) (u.bounds i) (colOf c.x i) (partialResid c i s) (s.bw i)).bind fun b => .ok (bfSelect c i b s)).bind
  fun s' => (fitVarCoreSerial (colOf c.x i) (partialResid c i s) (c.wt i (s'.bw i)) fun _ => false).bind fun r =>
    .ok (bfStore c i (fun j => cut (r.1 j)) r.2 s')

/-- All variables. -/
noncomputable def cutVars (cut : ℝ → ℝ) (c : MgwrCfg n k) (u : MpiSearch n k) : List (Fin k) → BfState n k → Res (BfState n k)
  | [], s => .ok s
  | i :: is, s => (cutVar cut c u i s).bind fun s' => cutVars cut c u is s'

/-- The iterations. -/
noncomputable def cutLoop (cut : ℝ → ℝ) (c : MgwrCfg n k) (u : MpiSearch n k) : ℕ → Bool → ℝ → BfState n k → Res (BfState n k × ℝ)
  | 0, _, r0, s => .ok (s, r0)
  | m + 1, go, r0, s =>
    if go = false then .ok (s, r0)
    else (cutVars cut c u (List.finRange k) s).bind fun s' =>
      cutLoop cut c u m (bfContinue c.critType c.critThreshold r0 (rss c.x c.y s'.betas)) (rss c.x c.y s'.betas) s'

/-- Back-fitting by a single process. -/
noncomputable def cutBackfitting (cut : ℝ → ℝ) (c : MgwrCfg n k) (u : MpiSearch n k) (s : BfState n k) : Res (BfState n k × ℝ) :=
  cutLoop cut c u c.maxIter (decide (dblMax > c.critThreshold)) (rss c.x c.y s.betas) s

/-- The whole fit by a single process. -/
noncomputable def cutMgwrFit (cut : ℝ → ℝ) (c : MgwrCfg n k) (u : MpiSearch n k) (W0 : Fin n → Fin n → ℝ) (init : Fin k → InitType)
    (bw : Fin k → BandwidthWeight) : Res (MgwrOut n k) :=
  (fitCoreSerial c.x c.y W0 0 n true true (fun _ => false)).bind fun a =>
    (cutBackfitting cut c u (bfInit c a.1 init bw)).bind fun r =>
      .ok { betas := r.1.betas
            se := betasSE c.x c.y a.1
            bw := r.1.bw
            init := r.1.init
            diagnostic := mgwrDiagnostic c.y ![trace r.1.s0, trace (r.1.s0 * r.1.s0ᵀ)] r.2 }

/-- The surroundings of an ordinary run of a single process: no stop requests, the ordinary searches. -/
noncomputable def undisturbed (c : MgwrCfg n k) (u : MpiSearch n k) : BfEnv n k :=
  { stopIter := fun _ => false, stopVar := fun _ _ => false, stopFit := fun _ _ => false, stopLoc := fun _ _ _ => false,
    select := fun _ i y b => mgwrSelect (u.crit i) (u.dist i) (u.bounds i) (colOf c.x i) y b }

/-- Process `q` holds the state `s` of a single process: the same members, and of the hat matrices its own rows. -/
structure HoldsShare (q : Fin (p + 1)) (s : BfState n k) (t : BfProc n k) : Prop where
  betas : t.betas = s.betas
  resid : t.resid = s.resid
  init : t.init = s.init
  changeNo : t.changeNo = s.changeNo
  bw : t.bw = s.bw
  s0 : ∀ j : Fin n, mpiFrom n (p + 1) q ≤ j.val → j.val < mpiTo n (p + 1) q → t.s0 (j.val - mpiFrom n (p + 1) q) = s.s0 j
  sArr : ∀ i, ∀ j : Fin n, mpiFrom n (p + 1) q ≤ j.val → j.val < mpiTo n (p + 1) q → t.sArr i (j.val - mpiFrom n (p + 1) q) = s.sArr i j

end Verif.Spec

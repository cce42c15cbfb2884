import Verif.Model.GWRBasic

/-! # What a regression should report when the observations are listed in another order -/

namespace Verif.Spec
open Verif Verif.Model

variable {n k : ℕ}

/-- The `i`-th observation of the second run is the `σ i`-th of the first: coefficients and standard errors move with their observations, and the
diagnostics of the whole fit are the same. -/
structure Reordered (σ : Equiv.Perm (Fin n)) (B B' : Matrix (Fin n) (Fin k) ℝ) (D D' : Diagnostic) (se se' : Fin n → Fin k → Res ℝ) : Prop where
  betas : ∀ i j, B' i j = B (σ i) j
  diagnostic : D' = D
  se : ∀ i j, se' i j = se (σ i) j

end Verif.Spec

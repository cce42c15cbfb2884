import Verif.Spec.GWRDefinition
import Verif.Spec.Scalable
import Verif.Spec.ForwardSelector

/-! Selection of explanatory variables for a geographically weighted regression. -/

namespace Verif.Spec
open Verif.Model

variable {n k k' : ℕ}

/-- The columns of `X` are the columns `cols` of `x`, in that order. -/
def Columns (x : Matrix (Fin n) (Fin k) ℝ) (cols : List ℕ) (X : Matrix (Fin n) (Fin k') ℝ) : Prop :=
  cols.length = k' ∧ ∀ j : Fin k', ∃ c : Fin k, cols[j.val]? = some c.val ∧ ∀ i, X i j = x i c

/-- The columns of a model with the variables `vars`: column 0 first if it is the intercept. -/
def modelColumns (hasIntercept : Bool) (vars : List ℕ) : List ℕ := if hasIntercept = true then 0 :: vars else vars

/-- `v` is the corrected Akaike criterion of the regression of `y` on `X` with the given kernel and bandwidth, or the value `worst` if at some
point the observations do not determine the coefficients. -/
def IsAICcOrWorst (kernel : KernelType) (bw worst : ℝ) (pts : Fin n → ℕ → ℝ) (X : Matrix (Fin n) (Fin k) ℝ) (y : Fin n → ℝ) (v : ℝ) :
    Prop :=
  (∃ B, IsGWRFixed kernel bw pts pts X y B ∧
    v = aiccFormula n (residualSS X y B) (∑ i, leverage X (fun l => kernelFormula kernel bw (plane (pts i) (pts l))) i)) ∨
  ((∃ i, ¬ Determined X fun l => kernelFormula kernel bw (plane (pts i) (pts l))) ∧ v = worst)

end Verif.Spec

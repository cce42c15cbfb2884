import Verif.Core.Res
import Mathlib.Data.Real.Basic
import Mathlib.Data.List.Basic
import Mathlib.Data.List.Sort

/-!
# Model of `VariableForwardSelector`

Indices are list positions (`0 … k-1`) into the vector of candidate variables; criteria are real numbers, so the comparison
used for sorting is a strict weak order (no NaN).
-/

namespace Verif.Model
open Verif Classical

/-- A visited model: indices of its variables, and its criterion. -/
abbrev FModel := List ℕ × ℝ

/-- What the `n`-th call of `IVarialbeSelectable::getCriterion` answers for a list of variables: whether the status was
`Success`, and the criterion. All implementations assign the criterion (GWRBasic.h:400-404, GWDR.h:389-393,
GTWR.h:434-438), so the initial `DBL_MAX` is always overwritten. -/
abbrev VOracle := ℕ → List ℕ → Bool × ℝ

/-- VariableForwardSelector.cpp:43-49 `convertIndexToVariables`. `operator[]` is unchecked; indices are positions of `vars`
(`getD` is never used outside the vector, see `ForwardInv`). -/
def convertIndex (vars : List ℕ) (index : List ℕ) : List ℕ := index.map (fun i => vars.getD i 0)

/-- Armadillo `index_min` of a non-empty vector: the first position of the smallest element. -/
noncomputable def indexMin : List ℝ → ℕ
  | [] => 0
  | [_] => 0
  | a :: b :: t => let j := indexMin (b :: t); if (b :: t).getD j 0 < a then j + 1 else 0

/-- VariableForwardSelector.cpp:22-31 inner loop over the remaining candidates. Returns the criteria of this stage, the models
visited so far, and whether the last status was `Success`. -/
noncomputable def stageLoop (o : VOracle) (vars cur : List ℕ) : List ℕ → List ℝ → List FModel → List ℝ × List FModel × Bool
  | [], cs, ms => (cs, ms, true)
  | r :: rs, cs, ms =>
    let m := cur ++ [r]
    let a := o ms.length (convertIndex vars m)
    if a.1 = true then stageLoop o vars cur rs (cs ++ [a.2]) (ms ++ [(m, a.2)])
    else (cs ++ [a.2], ms ++ [(m, a.2)], false)

/-- Local variables of `optimize`: `curIndex`, `restIndex`, `modelCriterions`, `status == Success`. -/
structure FS where
  cur : List ℕ
  rest : List ℕ
  models : List FModel
  status : Bool

/-- VariableForwardSelector.cpp:20-34 one stage. `criterions` is a zero-initialised vector, so positions not reached after a
failure are 0; `restIndex[iBestVar]` is unchecked. -/
noncomputable def stage (o : VOracle) (vars : List ℕ) (s : FS) : Res FS :=
  let r := stageLoop o vars s.cur s.rest [] s.models
  let crit := r.1 ++ List.replicate (s.rest.length - r.1.length) 0
  let iBest := indexMin crit
  match s.rest[iBest]? with
  | none => .ub
  | some v => .ok { cur := s.cur ++ [v], rest := s.rest.eraseIdx iBest, models := r.2.1, status := r.2.2 }

/-- VariableForwardSelector.cpp:18-35 outer loop; the first argument counts the iterations left. -/
noncomputable def stages (o : VOracle) (vars : List ℕ) : ℕ → FS → Res FS
  | 0, s => .ok s
  | k + 1, s => if s.status = true then (stage o vars s).bind (stages o vars k) else .ok s

/-- What `std::sort` with `left.second > right.second` may do to a range: any rearrangement that is sorted. Which one it picks
among equal criteria is not specified. -/
def IsStdSort (srt : List FModel → List FModel) : Prop :=
  ∀ l, (srt l).Perm l ∧ (srt l).Pairwise (fun a b => b.2 ≤ a.2)

/-- VariableForwardSelector.cpp:51-63 `sort`: sections of `k, k-1, …, 1` models; a section reaching past the end is UB. -/
def sortSections (srt : List FModel → List FModel) : ℕ → List FModel → Res (List FModel)
  | 0, l => .ok l
  | i + 1, l =>
    if l.length < i + 1 then .ub
    else (sortSections srt i (l.drop (i + 1))).bind fun t => .ok (srt (l.take (i + 1)) ++ t)

/-- VariableForwardSelector.cpp:67-73 loop of `select` from index `i` downwards. At index 0 it reads `models[-1]`. -/
noncomputable def selectLoop (thr : ℝ) (models : List FModel) : ℕ → Res FModel
  | 0 => .ub
  | i + 1 =>
    match models[i]?, models[i + 1]? with
    | some a, some b => if a.2 - b.2 ≥ thr then .ok b else selectLoop thr models i
    | _, _ => .ub

/-- VariableForwardSelector.cpp:65-75 `select`. On an empty vector `models.size() - 1` wraps and the first access is out of
range. The `return models.back()` after the loop is unreachable because `i >= 0` always holds for `size_t`. -/
noncomputable def select (thr : ℝ) (models : List FModel) : Res FModel :=
  if models.length = 0 then .ub else selectLoop thr models (models.length - 1)

/-- What a caller sees of a selection. -/
structure FResult where
  /-- the returned variables -/
  out : Res (List ℕ)
  /-- the models visited, in order -/
  evals : List FModel
  /-- `mVarsCriterion` after the call, if the search got that far -/
  sorted : Option (List FModel)
  /-- no call reported a status other than `Success` -/
  success : Bool

/-- VariableForwardSelector.cpp:9-41 `optimize`. -/
noncomputable def forwardOptimize (srt : List FModel → List FModel) (vars : List ℕ) (thr : ℝ) (o : VOracle) : Res FResult :=
  (stages o vars vars.length { cur := [], rest := List.range vars.length, models := [], status := true }).bind fun s =>
    if s.status = true then
      (sortSections srt vars.length s.models).bind fun sorted =>
        .ok ⟨(select thr sorted).bind fun m => .ok (convertIndex vars m.1), s.models, some sorted, true⟩
    else .ok ⟨.ok vars, s.models, none, false⟩

/-- VariableForwardSelector.cpp:77-90 `indepVarsCriterion`. -/
def indepVarsCriterion (vars : List ℕ) (sorted : List FModel) : List FModel :=
  sorted.map (fun m => (convertIndex vars m.1, m.2))

/-- VariableForwardSelector.h:26-35 `index2uvec`. -/
def index2uvec (index : List ℕ) (hasIntercept : Bool) : List ℕ := if hasIntercept then 0 :: index else index

end Verif.Model

import Verif.Model.TaskHeap

/-!
# Specification: several GPU tasks as values

A copy is a task of its own with all that the original has; nothing done with one task changes another.
-/

namespace Verif.Spec
open Verif Verif.Model Classical

variable {n k m : ℕ}

/-- The tasks that exist, by name. -/
abbrev Tasks (n k m : ℕ) := ℕ → Option (Task n k m)

/-- What an action should do. Only tasks that exist may be used, and every name is given to one task at a time; anything else is undefined. -/
noncomputable def idealStep (v : Tasks n k m) : TaskAct n k m → Res (Tasks n k m × Option Outcome)
  | .create name x y c l type => match v name with
    | none => .ok (Function.update v name (some (.create x y c l type)), none)
    | some _ => .ub
  | .copy source name => match v source, v name with
    | some s, none => .ok (Function.update v name (some s), none)
    | _, _ => .ub
  | .assign target source => match v target, v source with
    | some _, some s => .ok (Function.update v target (some s), none)
    | _, _ => .ub
  | .call name op => match v name with
    | some t => (taskStep t op).bind fun p => .ok (Function.update v name (some p.1), some p.2)
    | none => .ub
  | .destroy name => match v name with
    | some _ => .ok (Function.update v name none, none)
    | none => .ub

/-- What a program should do. -/
noncomputable def idealRun (v : Tasks n k m) : List (TaskAct n k m) → Res (Tasks n k m × List (Option Outcome))
  | [] => .ok (v, [])
  | a :: as => (idealStep v a).bind fun p => (idealRun p.1 as).bind fun q => .ok (q.1, p.2 :: q.2)

/-- The same task, but for the diagnostics. -/
def SameButDiagnostics (t u : Task n k m) : Prop := u = { t with res := { t.res with diagnostic := u.res.diagnostic } }

/-- All tasks are made with one of the two distances of the interface. -/
def TypesExist (as : List (TaskAct n k m)) : Prop := ∀ name x y c l type, TaskAct.create name x y c l type ∈ as → type < 2

/-- Actions that lose memory: choosing one of the two types of distance loses one object, an assignment loses two. -/
def lost : TaskAct n k m → ℕ
  | .call _ (.setDistanceType type) => if type < 2 then 1 else 0
  | .assign _ _ => 2
  | _ => 0

end Verif.Spec

import Verif.Model.GpuTask

/-!
# Model of the memory of GPU tasks

`GWRBasicGpuTask` owns its distance and its weight through plain pointers. Here are the constructors, the copies, the assignments, the calls and the
destructor of several tasks, on a heap. Simplifications: all tasks have the same numbers of rows and columns (an assignment may change them); allocation
never fails, and never hands out an address twice; the clones that a run makes for itself are not on this heap (`SpatialWeight` owns them, C35).
`GWRBasicGpuTask_Del` (IGWRBasicGpuTask.cpp:15-18) deletes through the interface class, which has no virtual destructor; the language leaves this undefined;
`destroy` is the destructor of a task destroyed as what it is.
-/

namespace Verif.Model
open Verif Matrix Classical

variable {n k m : ℕ}

/-- What a pointer of a task may point to: a distance, or the members of a `BandwidthWeight`. -/
inductive TaskObj
  | dist (d : TaskDistance)
  | weight (bandwidth : Option ℝ) (adaptive : Option Bool) (kernel : Option KernelType)

/-- The heap: what is at an address, and the next free address. -/
structure TaskMem where
  mem : ℕ → Option TaskObj
  next : ℕ

/-- `new`. -/
def TaskMem.alloc (h : TaskMem) (o : TaskObj) : TaskMem := ⟨Function.update h.mem h.next (some o), h.next + 1⟩

/-- Writing through a valid pointer. -/
def TaskMem.write (h : TaskMem) (a : ℕ) (o : TaskObj) : TaskMem := ⟨Function.update h.mem a (some o), h.next⟩

/-- `delete`; of something that is not there: undefined. -/
def TaskMem.free (h : TaskMem) (a : ℕ) : Res TaskMem := match h.mem a with
  | some _ => .ok ⟨Function.update h.mem a none, h.next⟩
  | none => .ub

/-- GWRBasicGpuTask.h:14-37: the members; `own` are all but the two pointers (its distance, bandwidth, kind and kernel are not used). -/
structure HTask (n k m : ℕ) where
  own : Task n k m
  dist : Option ℕ
  weight : ℕ

/-- The task as a value: what the pointers point to is read. -/
def HTask.view (h : TaskMem) (T : HTask n k m) : Res (Task n k m) :=
  match h.mem T.weight with
  | some (.weight b a kn) => match T.dist with
    | none => .ok { T.own with set := { T.own.set with distance := none, bandwidth := b, adaptive := a, kernel := kn } }
    | some p => match h.mem p with
      | some (.dist d) => .ok { T.own with set := { T.own.set with distance := some d, bandwidth := b, adaptive := a, kernel := kn } }
      | _ => .ub
  | _ => .ub

/-- The heap and the tasks that exist, by name. -/
structure TaskWorld (n k m : ℕ) where
  heap : TaskMem
  tasks : ℕ → Option (HTask n k m)

/-- What a program does with tasks. -/
inductive TaskAct (n k m : ℕ)
  | create (name : ℕ) (x : Matrix (Fin n) (Fin k) ℝ) (y : Fin n → ℝ) (c : Matrix (Fin n) (Fin 2) ℝ) (l : Matrix (Fin m) (Fin 2) ℝ) (type : ℕ)
  | copy (source name : ℕ)
  | assign (target source : ℕ)
  | call (name : ℕ) (op : TaskOp)
  | destroy (name : ℕ)

/-- GWRBasicGpuTask.h:40-75: `mDistance` is null for other types. -/
def heapCreate (h : TaskMem) (t : Task n k m) : TaskMem × HTask n k m :=
  match t.set.distance with
  | some d => ((h.alloc (.dist d)).alloc (.weight none none none), ⟨t, some h.next, h.next + 1⟩)
  | none => (h.alloc (.weight none none none), ⟨t, none, h.next⟩)

/-- `source.mDistance->clone()` and `source.mWeight->clone()` (GWRBasicGpuTask.h:95-96, 116-117): the heap and the two new pointers. -/
def heapClone (h : TaskMem) (S : HTask n k m) : Res (TaskMem × ℕ × ℕ) :=
  match S.dist with
  | none => .ub
  | some p => match h.mem p, h.mem S.weight with
    | some (.dist d), some (.weight b a kn) => .ok ((h.alloc (.dist d)).alloc (.weight b a kn), h.next, h.next + 1)
    | _, _ => .ub

/-- GWRBasicGpuTask.h:77-97: the copy constructor; `mDiagnostic` is not mentioned. -/
def heapCopy (h : TaskMem) (S : HTask n k m) : Res (TaskMem × HTask n k m) :=
  (heapClone h S).bind fun c => .ok (c.1, ⟨{ S.own with res := { S.own.res with diagnostic := zeroDiagnostic } }, some c.2.1, c.2.2⟩)

/-- GWRBasicGpuTask.h:105-126 `operator=`; the old distance and weight are not deleted, `mDiagnostic` is not mentioned. -/
def heapAssign (h : TaskMem) (T S : HTask n k m) : Res (TaskMem × HTask n k m) :=
  (heapClone h S).bind fun c => .ok (c.1, ⟨{ S.own with res := { S.own.res with diagnostic := T.own.res.diagnostic } }, some c.2.1, c.2.2⟩)

/-- GWRBasicGpuTask.h:99-103: the destructor. -/
def heapDestroy (h : TaskMem) (T : HTask n k m) : Res TaskMem :=
  (match T.dist with
    | some p => h.free p
    | none => .ok h).bind fun h' => h'.free T.weight

/-- GWRBasicGpuTask.h:162-175: `static_cast<MinkwoskiDistance*>(mDistance)->…` and `static_cast<CRSDistance*>(mDistance)->…`: `f` is what the call does with the
distance, if the cast is right. -/
def heapDist (h : TaskMem) (T : HTask n k m) (f : TaskDistance → Option TaskDistance) : Res (TaskMem × HTask n k m × Outcome) :=
  match T.dist with
  | none => .ub
  | some p => match h.mem p with
    | some (.dist d) => match f d with
      | some d' => .ok (h.write p (.dist d'), T, .ret true)
      | none => .ub
    | _ => .ub

/-- GWRBasicGpuTask.h:178-191: the setters of the weight. -/
def heapWeight (h : TaskMem) (T : HTask n k m) (f : Option ℝ → Option Bool → Option KernelType → TaskObj) : Res (TaskMem × HTask n k m × Outcome) :=
  match h.mem T.weight with
  | some (.weight b a kn) => .ok (h.write T.weight (f b a kn), T, .ret true)
  | _ => .ub

/-- One call. `setDistanceType` (GWRBasicGpuTask.h:148-160) does not delete the old distance. The other calls read and write the members that are values, as in
`taskStep`. -/
noncomputable def heapCall (h : TaskMem) (T : HTask n k m) : TaskOp → Res (TaskMem × HTask n k m × Outcome)
  | .setDistanceType type => match newDistance type with
    | some d => .ok (h.alloc (.dist d), { T with dist := some h.next }, .ret true)
    | none => .ok (h, T, .ret true)
  | .setGeographic g => heapDist h T fun
    | .crs _ => some (.crs g)
    | .minkwoski _ p θ => some (.minkwoski g p θ)
  | .setPoly p => heapDist h T fun
    | .minkwoski g _ θ => some (.minkwoski g p θ)
    | .crs _ => none
  | .setTheta θ => heapDist h T fun
    | .minkwoski g p _ => some (.minkwoski g p θ)
    | .crs _ => none
  | .setBandwidthSize b => heapWeight h T fun _ a kn => .weight (some b) a kn
  | .setBandwidthAdaptive a => heapWeight h T fun b _ kn => .weight b (some a) kn
  | .setBandwidthKernel i => match kernelOf i with
    | some kn => heapWeight h T fun b a _ => .weight b a (some kn)
    | none => .ub
  | op => (T.view h).bind fun t => (taskStep t op).bind fun p => .ok (h, { T with own := p.1 }, p.2)

/-- One action. A name can be given only to one task at a time. -/
noncomputable def worldStep (w : TaskWorld n k m) : TaskAct n k m → Res (TaskWorld n k m × Option Outcome)
  | .create name x y c l type => match w.tasks name with
    | none =>
      let r := heapCreate w.heap (.create x y c l type)
      .ok (⟨r.1, Function.update w.tasks name (some r.2)⟩, none)
    | some _ => .ub
  | .copy source name => match w.tasks source, w.tasks name with
    | some S, none => (heapCopy w.heap S).bind fun r => .ok (⟨r.1, Function.update w.tasks name (some r.2)⟩, none)
    | _, _ => .ub
  | .assign target source => match w.tasks target, w.tasks source with
    | some T, some S => (heapAssign w.heap T S).bind fun r => .ok (⟨r.1, Function.update w.tasks target (some r.2)⟩, none)
    | _, _ => .ub
  | .call name op => match w.tasks name with
    | some T => (heapCall w.heap T op).bind fun r => .ok (⟨r.1, Function.update w.tasks name (some r.2.1)⟩, some r.2.2)
    | none => .ub
  | .destroy name => match w.tasks name with
    | some T => (heapDestroy w.heap T).bind fun h => .ok (⟨h, Function.update w.tasks name none⟩, none)
    | none => .ub

/-- A program: the final state and how the calls ended. -/
noncomputable def worldRun (w : TaskWorld n k m) : List (TaskAct n k m) → Res (TaskWorld n k m × List (Option Outcome))
  | [] => .ok (w, [])
  | a :: as => (worldStep w a).bind fun p => (worldRun p.1 as).bind fun q => .ok (q.1, p.2 :: q.2)

/-- At the start there is nothing. -/
def emptyWorld : TaskWorld n k m := ⟨⟨fun _ => none, 0⟩, fun _ => none⟩

end Verif.Model

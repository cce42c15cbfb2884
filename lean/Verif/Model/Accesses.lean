import Verif.Model.GWRLocalCollinearity

/-!
# Single memory accesses of the threads of a parallel loop

The event model of `Verif.Core.Loops` runs the writes of an iteration in one step. Here every access to shared memory is a step of its own, and
the accesses of different threads are interleaved in any way that keeps the order within each thread (sequential consistency, which C++
guarantees for programs without data races). An addition `a += v` is a load into a temporary followed by a store. Data private to an iteration
(weights, local regression) are computed beforehand and appear as the values stored. Accesses inside the user's `ITelegram` are not modelled.
-/

namespace Verif.Model
open Verif Matrix Classical

variable {n k T : ℕ} {κ τ : Type}

/-- One access of a thread: reading a cell into the temporary that belongs to the statement, storing the temporary plus a value, storing a value. -/
inductive Access (κ : Type)
  | load (c : κ)
  | storeSum (c : κ) (v : ℝ)
  | store (c : κ) (v : ℝ)

/-- The cell. -/
def Access.cell : Access κ → κ
  | .load c => c
  | .storeSum c _ => c
  | .store c _ => c

/-- Whether the access writes. -/
def Access.writes : Access κ → Bool
  | .load _ => false
  | .storeSum _ _ => true
  | .store _ _ => true

/-- A statement on shared memory: `if (c)`, `c = v`, `c += v`. -/
inductive Stmt (κ : Type)
  | read (c : κ)
  | set (c : κ) (v : ℝ)
  | add (c : κ) (v : ℝ)

/-- The accesses of a statement. -/
def Stmt.accesses : Stmt κ → List (Access κ)
  | .read c => [.load c]
  | .set c v => [.store c v]
  | .add c v => [.load c, .storeSum c v]

/-- Shared memory and the temporaries of the threads. -/
structure Cells (τ κ : Type) where
  mem : κ → ℝ
  tmp : τ → κ → ℝ

/-- One access of thread `t`. -/
noncomputable def accessStep (s : Cells τ κ) (e : τ × Access κ) : Cells τ κ :=
  match e.2 with
  | .load c => { s with tmp := Function.update s.tmp e.1 (Function.update (s.tmp e.1) c (s.mem c)) }
  | .storeSum c v => { s with mem := Function.update s.mem c (s.tmp e.1 c + v) }
  | .store c v => { s with mem := Function.update s.mem c v }

/-- A run of single accesses. -/
noncomputable def accessRun (evs : List (τ × Access κ)) (s : Cells τ κ) : Cells τ κ := evs.foldl accessStep s

/-- The accesses of a thread that runs the given statements. -/
def accessesOf (l : List (Stmt κ)) : List (Access κ) := l.flatMap Stmt.accesses

/-! ## GWRBasic::fitCoreOmp -/

/-- GWRBasic.cpp:458-468: the shared variables of the loop. `s r l`, `c r j l`: row `r` of `mS`, slice `r` of `mC`. -/
inductive FitCell (n k T : ℕ)
  | success
  | except
  | beta (i : Fin n) (j : Fin k)
  | se (i : Fin n) (j : Fin k)
  | shat (t : Fin T) (m : Fin 2)
  | q (t : Fin T) (l : Fin n)
  | s (r : ℕ) (l : Fin n)
  | c (r : ℕ) (j : Fin k) (l : Fin n)

/-- GWRBasic.cpp:475-497: what thread `t` does to shared memory in an iteration whose regression has the solution `lf`. -/
noncomputable def fitStmts (first : ℕ) (storeS storeC : Bool) (t : Fin T) (i : Fin n) (lf : LocalFit n k) : List (Stmt (FitCell n k T)) :=
  [.read .success]
  ++ (List.finRange k).map (fun j => .set (.beta i j) (lf.beta j))
  ++ (List.finRange k).map (fun j => .set (.se i j) (seRow lf j))
  ++ (List.finRange 2).map (fun m => .add (.shat t m) (shatRow i lf m))
  ++ (List.finRange n).map (fun l => .add (.q t l) (qRow i lf l))
  ++ (List.finRange n).map (fun l => .set (.s (if storeS then i.val - first else 0) l) (lf.si l))
  ++ (List.finRange k).flatMap (fun j => (List.finRange n).map fun l => .set (.c (if storeC then i.val - first else 0) j l) (lf.ci j l))

/-- GWRBasic.cpp:475-505: the same for an iteration whose regression has no solution (`except = e; success = false;`; the exception object and
the flag are represented by numbers). -/
def failStmts : List (Stmt (FitCell n k T)) := [.read .success, .set .except 1, .set .success 0]

/-- The statements of thread `t` in `fitCoreOmp`, if it is given the iterations `l` in this order and finds `success` set whenever it looks. -/
noncomputable def fitProgram (x : Matrix (Fin n) (Fin k) ℝ) (y : Fin n → ℝ) (W : Fin n → Fin n → ℝ) (first : ℕ) (storeS storeC : Bool) (t : Fin T)
    (l : List (Fin n)) : List (Stmt (FitCell n k T)) :=
  l.flatMap fun i => match localFit x y (W i) (x i) with
    | .ok lf => fitStmts first storeS storeC t i lf
    | _ => failStmts

/-- GWRBasic.cpp:460-468: everything zero-filled, `success` set; temporaries hold anything. -/
def fitCells (tmp : Fin T → FitCell n k T → ℝ) : Cells (Fin T) (FitCell n k T) :=
  { mem := fun c => match c with
      | .success => 1
      | _ => 0
    tmp := tmp }

/-! ## GWRLocalCollinearity::fitOmp -/

/-- GWRLocalCollinearity.cpp:421-426, 466-467: the shared variables of the loop; `member m` are `mTrS` and `mTrStS`. -/
inductive LcrCell (n k T : ℕ)
  | beta (i : Fin n) (j : Fin k)
  | shat (t : Fin T) (m : Fin 2)
  | member (m : Fin 2)

/-- GWRLocalCollinearity.cpp:457-467: one iteration. `localcn(i)`, `locallambda(i)` belong to the iteration and are not used afterwards. -/
noncomputable def lcrStmts (t : Fin T) (i : Fin n) (r : (Fin k → ℝ) × (Fin n → ℝ)) : List (Stmt (LcrCell n k T)) :=
  (List.finRange k).map (fun j => .set (.beta i j) (r.1 j))
  ++ (List.finRange 2).map (fun m => .add (.shat t m) (lcrTraces i r.2 m))
  ++ (List.finRange 2).map (fun m => .add (.member m) (lcrTraces i r.2 m))

/-- The statements of thread `t` in `fitOmp`; an iteration that fails ends the program and has none. -/
noncomputable def lcrProgram (sv : Matrix (Fin n) (Fin k) ℝ → ℝ × ℝ) (cfg : LcrCfg) (x : Matrix (Fin n) (Fin k) ℝ) (y : Fin n → ℝ)
    (W : Fin n → Fin n → ℝ) (t : Fin T) (l : List (Fin n)) : List (Stmt (LcrCell n k T)) :=
  l.flatMap fun i => match lcrLocal sv cfg x y W i with
    | .ok r => lcrStmts t i r
    | _ => []

/-- Zero-filled results; the members hold what the last fit left. -/
def lcrCells (tr : Fin 2 → ℝ) (tmp : Fin T → LcrCell n k T → ℝ) : Cells (Fin T) (LcrCell n k T) :=
  { mem := fun c => match c with
      | .member m => tr m
      | _ => 0
    tmp := tmp }

end Verif.Model

import Verif.Core.Res
import Mathlib.Logic.Function.Basic
import Mathlib.Data.Nat.Notation
import Mathlib.Data.Nat.Init

/-!
# Model of the ownership of device memory in `cumat`, `custride` and `cubatched`

Device buffers are numbered in the order of allocation. `cudaFree` of a buffer that has been freed before is an error; the code
ignores the returned error code, the model counts the calls. Buffer contents are not modelled, sizes are. Allocation never fails.
-/

namespace Verif.Model
open Verif

/-- cumat.hpp:152-155, 321-324: `dMem`, `mIsRelease`, and `nbytes()` as given by the shape members. -/
structure CuObj where
  mem : Option ℕ
  rel : Bool
  nb : ℕ
  deriving DecidableEq

/-- Device memory and the live objects. -/
structure CuHeap where
  next : ℕ
  size : ℕ → ℕ
  frees : ℕ → ℕ
  objs : ℕ → Option CuObj

/-- Before anything has been constructed. -/
def CuHeap.empty : CuHeap := ⟨0, fun _ => 0, fun _ => 0, fun _ => none⟩

/-- `cudaMalloc`. -/
def CuHeap.alloc (h : CuHeap) (nb : ℕ) : CuHeap := { h with next := h.next + 1, size := Function.update h.size h.next nb }

/-- `cudaFree(p)`; freeing `nullptr` does nothing. -/
def CuHeap.free (h : CuHeap) : Option ℕ → CuHeap
  | none => h
  | some a => { h with frees := Function.update h.frees a (h.frees a + 1) }

/-- Bring an object to life or overwrite its members. -/
def CuHeap.set (h : CuHeap) (o : ℕ) (v : CuObj) : CuHeap := { h with objs := Function.update h.objs o (some v) }

/-- A device-to-device copy of `nb` bytes: undefined if one of the buffers has been freed or is too small. -/
def CuHeap.canCopy (h : CuHeap) (dst src : Option ℕ) (nb : ℕ) : Prop :=
  nb = 0 ∨ ∃ d s, dst = some d ∧ src = some s ∧ h.frees d = 0 ∧ h.frees s = 0 ∧ nb ≤ h.size d ∧ nb ≤ h.size s

/-- Operations of a program on `cumat` objects (names are numbers). -/
inductive CuOp
  | default (o : ℕ)
  | create (o nb : ℕ)
  | copy (o src : ℕ)
  | move (o src : ℕ)
  | view (o src : ℕ)
  | copyAssign (o src : ℕ)
  | moveAssign (o src : ℕ)
  | transAssign (o src : ℕ)
  | destroy (o : ℕ)

open Classical in
/-- One operation. Using a name that is not live, or constructing one that is, is not a C++ program: `.throw .logic`.

* `default`: cumat.hpp:187, 344. `create`: 101-113, 196-201, 208-211, 354-359, 366-373.
* `copy`: 218-221, 380-383. `move`: 231-236, 390-395. `view` (`as_stride`, `custride(const cumat&)`): 403-406.
* `copyAssign`: 263-277; `resize` does not update the shape or `mIsRelease`, and the copy takes the old size of the target.
* `moveAssign`: 279-287. `transAssign`: cumat.cpp:60-73. `destroy`: cumat.hpp:119-126. -/
noncomputable def CuHeap.step (h : CuHeap) : CuOp → Res CuHeap
  | .default o => if h.objs o = none then .ok (h.set o ⟨none, false, 0⟩) else .throw .logic
  | .create o nb => if h.objs o = none then .ok ((h.alloc nb).set o ⟨some h.next, true, nb⟩) else .throw .logic
  | .copy o src =>
    match h.objs o, h.objs src with
    | none, some s =>
      let h' := (h.alloc s.nb).set o ⟨some h.next, true, s.nb⟩
      if h'.canCopy (some h.next) s.mem s.nb then .ok h' else .ub
    | _, _ => .throw .logic
  | .move o src =>
    match h.objs o, h.objs src with
    | none, some s => .ok ((h.set o ⟨s.mem, true, s.nb⟩).set src { s with rel := false })
    | _, _ => .throw .logic
  | .view o src =>
    match h.objs o, h.objs src with
    | none, some s => .ok (h.set o ⟨s.mem, false, s.nb⟩)
    | _, _ => .throw .logic
  | .copyAssign o src =>
    match h.objs o, h.objs src with
    | some t, some s =>
      let h1 := if t.mem ≠ none ∧ t.rel = true then h.free t.mem else h
      let h2 := (h1.alloc s.nb).set o { t with mem := some h.next }
      let smem := if o = src then some h.next else s.mem
      if h2.canCopy (some h.next) smem t.nb then .ok h2 else .ub
    | _, _ => .throw .logic
  | .moveAssign o src =>
    match h.objs o, h.objs src with
    | some _, some s =>
      let h1 := h.set o ⟨s.mem, true, s.nb⟩
      match h1.objs src with
      | some s' => .ok (h1.set src { s' with rel := false })
      | none => .throw .logic
    | _, _ => .throw .logic
  | .transAssign o src =>
    match h.objs o, h.objs src with
    | some t, some s =>
      let h1 := h.free t.mem
      let h2 := (h1.alloc s.nb).set o { t with mem := some h.next, nb := s.nb }
      let smem := if o = src then some h.next else s.mem
      if h2.canCopy (some h.next) smem s.nb then .ok h2 else .ub
    | _, _ => .throw .logic
  | .destroy o =>
    match h.objs o with
    | some t =>
      let h1 := if t.rel = true ∧ t.mem ≠ none then h.free t.mem else h
      .ok { h1 with objs := Function.update h1.objs o none }
    | none => .throw .logic

/-- A program: a list of operations. -/
noncomputable def CuHeap.run (h : CuHeap) : List CuOp → Res CuHeap
  | [] => .ok h
  | op :: ops => (h.step op).bind fun h' => h'.run ops

/-! ## `cubatched` -/

/-- Operations on `cubatched` objects that do not own the matrices they point to. -/
inductive CbOp
  | create (o : ℕ)
  | move (o src : ℕ)
  | destroy (o : ℕ)

/-- cumat.hpp:491-495 construction allocates the pointer array; 520-524 the move constructor allocates one, forgets it, and takes the
source's, which the source keeps; 551-562 the destructor always frees it. -/
def CuHeap.batchedStep (h : CuHeap) : CbOp → Res CuHeap
  | .create o => .ok ((h.alloc 0).set o ⟨some h.next, true, 0⟩)
  | .move o src =>
    match h.objs src with
    | some s => .ok ((h.alloc 0).set o ⟨s.mem, true, 0⟩)
    | none => .throw .logic
  | .destroy o =>
    match h.objs o with
    | some t => .ok { h.free t.mem with objs := Function.update h.objs o none }
    | none => .throw .logic

/-- A program on `cubatched` objects. -/
def CuHeap.batchedRun (h : CuHeap) : List CbOp → Res CuHeap
  | [] => .ok h
  | op :: ops => (h.batchedStep op).bind fun h' => h'.batchedRun ops

end Verif.Model

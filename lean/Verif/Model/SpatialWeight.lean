import Verif.Core.Res
import Mathlib.Logic.Function.Basic
import Mathlib.Data.Nat.Notation
import Mathlib.Order.Basic

/-!
# Model of `SpatialWeight`: ownership of the weight and distance objects

The heap is a partial map from addresses to values; an address is never handed out twice. Deleting or dereferencing a null
pointer's target, a freed or a never allocated address is the outcome `ub`. `delete nullptr` is guarded in the code.
`V` is the type of the values of weight / distance objects and `cl` what their virtual `clone()` produces
(`BandwidthWeight::clone` copies all fields; the distance classes are modelled in `Verif.Model.Distance`).
-/

namespace Verif.Model
open Verif

/-- Which of the two owned pointers: `mWeight` or `mDistance` (SpatialWeight.h:417-418). -/
inductive Field
  | w | d
  deriving DecidableEq

/-- All memory relevant to a set of `SpatialWeight` objects. `ptr i k` is pointer member `k` of object `i` (`none`: null);
`alive i` says that object `i` is between construction and destruction; `ext a` that address `a` is an object of the
caller. -/
structure SWState (V : Type*) where
  cells : ℕ → Option V
  next : ℕ
  alive : ℕ → Bool
  ptr : ℕ → Field → Option ℕ
  ext : ℕ → Bool

namespace SWState
variable {V : Type*} (cl : V → V)

/-- Before any call. -/
def empty : SWState V := ⟨fun _ => none, 0, fun _ => false, fun _ _ => none, fun _ => false⟩

/-- `if (mX) delete mX;` where the member is overwritten or the object dies next (SpatialWeight.cpp:8-11, 17-18, 29-30;
SpatialWeight.h:172-173, 194, 213, 277-278, 299, 318). Simplification: the member is set to null here, instead of keeping the
dangling value until the following assignment; nothing reads the member in between. -/
def release (s : SWState V) (i : ℕ) (k : Field) : Res (SWState V) :=
  match s.ptr i k with
  | none => .ok s
  | some a =>
    match s.cells a with
    | none => .ub
    | some _ => .ok { s with
        cells := Function.update s.cells a none
        ptr := Function.update s.ptr i (Function.update (s.ptr i) k none) }

/-- `mX = p->clone();` for the object at address `p`. -/
def assignClone (s : SWState V) (i : ℕ) (k : Field) (p : Option ℕ) : Res (SWState V) :=
  match p with
  | none => .ub
  | some a =>
    match s.cells a with
    | none => .ub
    | some v => .ok { s with
        cells := Function.update s.cells s.next (some (cl v))
        next := s.next + 1
        ptr := Function.update s.ptr i (Function.update (s.ptr i) k (some s.next)) }

/-- `mX = other.mX; other.mX = nullptr;` (SpatialWeight.h:121-125, SpatialWeight.cpp:19-22; the two pairs of assignments are
reordered, they touch different members). -/
def take (s : SWState V) (i j : ℕ) (k : Field) : SWState V :=
  let p := s.ptr j k
  let s1 := { s with ptr := Function.update s.ptr j (Function.update (s.ptr j) k none) }
  { s1 with ptr := Function.update s1.ptr i (Function.update (s1.ptr i) k p) }

/-- SpatialWeight.h:57 default constructor, both members null (h:417-418). -/
def construct (s : SWState V) (i : ℕ) : SWState V :=
  { s with alive := Function.update s.alive i true, ptr := Function.update s.ptr i (fun _ => none) }

/-- SpatialWeight.h:72-76 and 90-94 constructors from pointers or references. -/
def constructFrom (s : SWState V) (i : ℕ) (pw pd : Option ℕ) : Res (SWState V) := do
  let s1 ← (s.construct i).assignClone cl i .w pw
  s1.assignClone cl i .d pd

/-- SpatialWeight.h:106-110 copy constructor. -/
def copyConstruct (s : SWState V) (i j : ℕ) : Res (SWState V) := do
  let s1 ← (s.construct i).assignClone cl i .w (s.ptr j .w)
  s1.assignClone cl i .d (s1.ptr j .d)

/-- SpatialWeight.h:119-126 move constructor. -/
def moveConstruct (s : SWState V) (i j : ℕ) : SWState V :=
  ((s.construct i).take i j .w).take i j .d

/-- SpatialWeight.cpp:6-12 destructor. -/
def destroy (s : SWState V) (i : ℕ) : Res (SWState V) := do
  let s1 ← s.release i .w
  let s2 ← s1.release i .d
  .ok { s2 with alive := Function.update s2.alive i false }

/-- SpatialWeight.cpp:26-34 copy assignment. -/
def copyAssign (s : SWState V) (i j : ℕ) : Res (SWState V) :=
  if i = j then .ok s
  else do
    let s1 ← s.release i .w
    let s2 ← s1.release i .d
    let s3 ← s2.assignClone cl i .w (s2.ptr j .w)
    s3.assignClone cl i .d (s3.ptr j .d)

/-- SpatialWeight.cpp:14-24 move assignment. -/
def moveAssign (s : SWState V) (i j : ℕ) : Res (SWState V) :=
  if i = j then .ok s
  else do
    let s1 ← s.release i .w
    let s2 ← s1.release i .d
    .ok ((s2.take i j .w).take i j .d)

/-- SpatialWeight.h:168-175 `setWeight(Weight*)` and 273-280 `setDistance(Distance*)`. -/
def setPtr (s : SWState V) (i : ℕ) (k : Field) (p : Option ℕ) : Res (SWState V) :=
  if p ≠ none ∧ p ≠ s.ptr i k then do
    let s1 ← s.release i k
    s1.assignClone cl i k p
  else .ok s

/-- SpatialWeight.h:192-196, 211-215 `setWeight(Weight&)`, `(Weight&&)` and 297-301, 316-320 for the distance. -/
def setRef (s : SWState V) (i : ℕ) (k : Field) (a : ℕ) : Res (SWState V) := do
  let s1 ← s.release i k
  s1.assignClone cl i k (some a)

/-- Writing through the pointer returned by `weight()` / `distance()` (SpatialWeight.h:147-150, 252-255). -/
def write (s : SWState V) (i : ℕ) (k : Field) (v : V) : Res (SWState V) :=
  match s.ptr i k with
  | none => .ub
  | some a =>
    match s.cells a with
    | none => .ub
    | some _ => .ok { s with cells := Function.update s.cells a (some v) }

/-- SpatialWeight.h:380-383 `weightVector` dereferences both members. -/
def use (s : SWState V) (i : ℕ) : Res (SWState V) :=
  match s.ptr i .d, s.ptr i .w with
  | some a, some b => if s.cells a = none then .ub else if s.cells b = none then .ub else .ok s
  | _, _ => .ub

/-- The caller creates an object of its own holding `v`. -/
def extNew (s : SWState V) (v : V) : SWState V :=
  { s with cells := Function.update s.cells s.next (some v), next := s.next + 1,
           ext := Function.update s.ext s.next true }

/-- The caller changes an object of its own. -/
def extWrite (s : SWState V) (a : ℕ) (v : V) : Res (SWState V) :=
  match s.cells a with
  | none => .ub
  | some _ => .ok { s with cells := Function.update s.cells a (some v) }

/-- The caller destroys an object of its own. -/
def extDelete (s : SWState V) (a : ℕ) : Res (SWState V) :=
  match s.cells a with
  | none => .ub
  | some _ => .ok { s with cells := Function.update s.cells a none, ext := Function.update s.ext a false }

end SWState

/-- The public operations. Pointer arguments are addresses. -/
inductive SWOp (V : Type*)
  | construct (i : ℕ) | constructFrom (i : ℕ) (pw pd : Option ℕ)
  | copyConstruct (i j : ℕ) | moveConstruct (i j : ℕ) | destroy (i : ℕ)
  | copyAssign (i j : ℕ) | moveAssign (i j : ℕ)
  | setPtr (i : ℕ) (k : Field) (p : Option ℕ) | setRef (i : ℕ) (k : Field) (a : ℕ)
  | write (i : ℕ) (k : Field) (v : V) | use (i : ℕ)
  | extNew (v : V) | extWrite (a : ℕ) (v : V) | extDelete (a : ℕ)

/-- One public operation. -/
def SWOp.step {V : Type*} (cl : V → V) (s : SWState V) : SWOp V → Res (SWState V)
  | .construct i => .ok (s.construct i)
  | .constructFrom i pw pd => s.constructFrom cl i pw pd
  | .copyConstruct i j => s.copyConstruct cl i j
  | .moveConstruct i j => .ok (s.moveConstruct i j)
  | .destroy i => s.destroy i
  | .copyAssign i j => s.copyAssign cl i j
  | .moveAssign i j => s.moveAssign i j
  | .setPtr i k p => s.setPtr cl i k p
  | .setRef i k a => s.setRef cl i k a
  | .write i k v => s.write i k v
  | .use i => s.use i
  | .extNew v => .ok (s.extNew v)
  | .extWrite a v => s.extWrite a v
  | .extDelete a => s.extDelete a

end Verif.Model

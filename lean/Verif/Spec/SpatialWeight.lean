import Verif.Model.SpatialWeight

/-! What a correct caller may do with spatial weights, and what it may observe. -/

namespace Verif.Spec
open Verif Verif.Model

variable {V : Type*}

/-- Address `a` holds a live object. -/
def Live (s : SWState V) (a : ℕ) : Prop := s.cells a ≠ none

/-- Object `i` is valid (`isValid()`): it has both a weight and a distance. -/
def Valid (s : SWState V) (i : ℕ) : Prop := s.ptr i .w ≠ none ∧ s.ptr i .d ≠ none

/-- The caller's side of the contract. It only constructs fresh objects, uses constructed ones, passes pointers and references
to live objects, deletes and writes only its own objects, copies only from valid (not empty or moved-from) spatial weights, and
does not hand a spatial weight a reference to the very object it owns already. -/
def Allowed (s : SWState V) : SWOp V → Prop
  | .construct i => s.alive i = false
  | .constructFrom i pw pd => s.alive i = false ∧ (∃ a, pw = some a ∧ Live s a) ∧ (∃ a, pd = some a ∧ Live s a)
  | .copyConstruct i j => s.alive i = false ∧ s.alive j = true ∧ Valid s j
  | .moveConstruct i j => s.alive i = false ∧ s.alive j = true
  | .destroy i => s.alive i = true
  | .copyAssign i j => s.alive i = true ∧ s.alive j = true ∧ Valid s j
  | .moveAssign i j => s.alive i = true ∧ s.alive j = true
  | .setPtr i _ p => s.alive i = true ∧ ∀ a, p = some a → Live s a
  | .setRef i k a => s.alive i = true ∧ Live s a ∧ s.ptr i k ≠ some a
  | .write i k _ => s.alive i = true ∧ s.ptr i k ≠ none
  | .use i => s.alive i = true ∧ Valid s i
  | .extNew _ => True
  | .extWrite a _ => s.ext a = true
  | .extDelete a => s.ext a = true

/-- The value seen through member `k` of object `i`. -/
def seen (s : SWState V) (i : ℕ) (k : Field) : Option V := (s.ptr i k).bind s.cells

/-- A history the contract allows, from state to state. -/
inductive History (cl : V → V) : SWState V → List (SWOp V) → SWState V → Prop
  | nil (s) : History cl s [] s
  | snoc {s t u ops op} : History cl s ops t → Allowed t op → op.step cl t = .ok u → History cl s (ops ++ [op]) u

/-- The spatial weights an operation is about. -/
def touches : SWOp V → ℕ → Prop
  | .construct i, n => n = i
  | .constructFrom i _ _, n => n = i
  | .copyConstruct i _, n => n = i
  | .moveConstruct i j, n => n = i ∨ n = j
  | .destroy i, n => n = i
  | .copyAssign i _, n => n = i
  | .moveAssign i j, n => n = i ∨ n = j
  | .setPtr i _ _, n => n = i
  | .setRef i _ _, n => n = i
  | .write i _ _, n => n = i
  | .use _, _ => False
  | .extNew _, _ => False
  | .extWrite _ _, _ => False
  | .extDelete _, _ => False

/-- Value semantics: what must be seen through member `k` of spatial weight `n` after an operation, in terms of what was seen, and
of the values of the objects passed in, before it. Every copy is a clone of the value. -/
def seenAfter (cl : V → V) (s : SWState V) (op : SWOp V) (n : ℕ) (k : Field) : Option V :=
  match op with
  | .construct i => if n = i then none else seen s n k
  | .constructFrom i pw pd =>
    if n = i then (match k with | .w => (pw.bind s.cells).map cl | .d => (pd.bind s.cells).map cl) else seen s n k
  | .copyConstruct i j => if n = i then (seen s j k).map cl else seen s n k
  | .moveConstruct i j => if n = i then seen s j k else if n = j then none else seen s n k
  | .destroy i => if n = i then none else seen s n k
  | .copyAssign i j => if n = i ∧ i ≠ j then (seen s j k).map cl else seen s n k
  | .moveAssign i j => if i = j then seen s n k else if n = i then seen s j k else if n = j then none else seen s n k
  | .setPtr i k' p => if n = i ∧ k = k' ∧ p ≠ none ∧ p ≠ s.ptr i k' then (p.bind s.cells).map cl else seen s n k
  | .setRef i k' a => if n = i ∧ k = k' then (s.cells a).map cl else seen s n k
  | .write i k' v => if n = i ∧ k = k' then some v else seen s n k
  | .use _ | .extNew _ | .extWrite _ _ | .extDelete _ => seen s n k

end Verif.Spec

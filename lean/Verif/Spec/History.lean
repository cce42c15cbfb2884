import Mathlib.Data.List.Basic

/-!
# Specification of configuration by setter calls

`written` says which calls write a value and what they write. After a sequence of calls the value is the one written last, or the initial
one.
-/

namespace Verif.Spec

/-- The value written by the last call that writes it, or the initial value. -/
def lastWrite {Op α : Type*} (written : Op → Option α) (initial : α) (calls : List Op) : α := (calls.filterMap written).getLastD initial

end Verif.Spec

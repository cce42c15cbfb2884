import Verif.Model.Distance

/-! Specification vocabulary for the distance classes. -/

namespace Verif.Spec
open Verif.Model

/-- What a caller's argument list deserves from a planar / geographic distance object: acceptance, rejection (wrong number of
arguments or wrong number of columns), or a type error that leaves the object as it was. -/
inductive Verdict (α : Type*)
  | accept (a : α) | reject | typeError

/-- Two matrices of two columns each are a valid parameter. -/
def crsVerdict : List DistParam → Verdict (DynMat × DynMat)
  | [.mat fp, .mat dp] => if fp.nCols = 2 ∧ dp.nCols = 2 then .accept (fp, dp) else .reject
  | [_, _] => .typeError
  | _ => .reject

/-- Two vectors are a valid parameter of the one-dimensional distance. -/
def oneDimVerdict : List DistParam → Verdict (List ℝ × List ℝ)
  | [.vec fp, .vec dp] => .accept (fp, dp)
  | [_, _] => .typeError
  | _ => .reject

/-- The parameter in force after a sequence of calls: that of the last call which was not a type error, if accepted. -/
def inForce {α : Type*} (verdict : List DistParam → Verdict α) : List (List DistParam) → Option α
  | [] => none
  | calls => go calls.reverse
where
  go : List (List DistParam) → Option α
  | [] => none
  | c :: earlier =>
    match verdict c with
    | .accept a => some a
    | .reject => none
    | .typeError => go earlier

/-- The `L_p` distance in the plane. -/
noncomputable def lpDist (p : ℝ) (a b : ℕ → ℝ) : ℝ := (|b 0 - a 0| ^ p + |b 1 - a 1| ^ p) ^ (1 / p)

/-- A rigid motion of the plane: rotation by `θ` followed by a translation, on rows `(x, y)`. -/
noncomputable def rigid (θ tx ty : ℝ) (c : ℕ → ℝ) : ℕ → ℝ := fun k =>
  if k = 0 then c 0 * Real.cos θ - c 1 * Real.sin θ + tx else c 0 * Real.sin θ + c 1 * Real.cos θ + ty

end Verif.Spec

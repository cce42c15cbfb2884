import Mathlib.Analysis.SpecialFunctions.Sqrt
import Mathlib.Order.Bounds.Basic
import Mathlib.Algebra.Order.Round

/-!
# Specification of the range in which a bandwidth is searched
-/

namespace Verif.Spec

/-- The default range of a bandwidth search: from 20 to the number of observations for a number of neighbours, from 0 to the largest distance between
observations for a distance. -/
def DefaultRange {n : ℕ} (adaptive : Bool) (dist : Fin n → Fin n → ℝ) (l u : ℝ) : Prop :=
  if adaptive = true then l = 20 ∧ u = n else l = 0 ∧ IsGreatest (Set.range fun p : Fin n × Fin n => dist p.1 p.2) u

/-- A search that starts by dividing the range from `l` to `u` by the golden section, from below and from above. Numbers of neighbours are
rounded, the first one down, the second one to the nearest whole number. -/
def StartsInRange (adaptive : Bool) (l u : ℝ) (tried : List ℝ) : Prop :=
  ∃ a b rest, tried = a :: b :: rest ∧
    (let p := l + (√5 - 1) / 2 * (u - l)
     let q := u - (√5 - 1) / 2 * (u - l)
     if adaptive = true then a = ⌊p⌋ ∧ |b - q| ≤ 1 / 2 ∧ ∃ z : ℤ, b = z else a = p ∧ b = q)

end Verif.Spec

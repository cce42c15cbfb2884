import Verif.Model.Accesses

/-! # Interleavings and data races -/

namespace Verif.Spec
open Verif Verif.Model Classical

variable {τ κ : Type}

/-- A run in which every thread makes the accesses of its program, in this order, interleaved with those of the others in any way. -/
def Interleaves (prog : τ → List (Access κ)) (evs : List (τ × Access κ)) : Prop :=
  ∀ t, (evs.filter fun e => e.1 = t).map Prod.snd = prog t

/-- A data race on cell `c` (C++ [intro.races]; there is no synchronisation inside the loops): two threads access it, one of them writes. -/
def RaceOn (prog : τ → List (Access κ)) (c : κ) : Prop :=
  ∃ t t', t ≠ t' ∧ ∃ a ∈ prog t, ∃ b ∈ prog t', a.cell = c ∧ b.cell = c ∧ a.writes = true

end Verif.Spec

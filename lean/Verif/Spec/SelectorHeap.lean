import Verif.Model.SelectorHeap
import Mathlib.Data.Finset.Card
import Mathlib.Data.Finset.Range

/-! Memory of bandwidth searches, seen from outside: how many objects there are, and what each spatial weight holds. -/

namespace Verif.Spec
open Verif Verif.Model Classical

/-- The number of bandwidth objects that exist. -/
noncomputable def BwHeap.live (h : BwHeap) : ℕ := ((Finset.range h.next).filter fun a => h.cells a ≠ none).card

/-- Nothing exists at addresses not handed out yet. -/
def BwHeap.WellFormed (h : BwHeap) : Prop := ∀ a, h.next ≤ a → h.cells a = none

/-- How a search on values ended, as far as memory matters. -/
inductive SearchEnd
  /-- The first or second call of the criterion reported a stop request. -/
  | stoppedAtStart
  /-- The criterion had no value at both starting points. -/
  | threw
  /-- A later call reported a stop request. -/
  | stoppedLater
  | completed
  deriving DecidableEq

/-- Read off the answers of the criterion and the outcome. -/
noncomputable def searchEnd (r : SearchResult) : SearchEnd :=
  if ∃ e ∈ r.evals.take 2, e.success = false then .stoppedAtStart
  else if ∃ e, r.out = .throw e then .threw
  else if ∃ e ∈ r.evals, e.success = false then .stoppedLater
  else .completed

/-- Objects that nothing can reach any more after a search that ended so. -/
def lostObjects : SearchEnd → ℕ
  | .stoppedAtStart => 2
  | .threw => 2
  | .stoppedLater => 0
  | .completed => 1

/-- The bandwidth a spatial weight has after a search: the one found, or the old one after an exception. -/
noncomputable def afterSearch (b : BandwidthWeight) (r : SearchResult) : BandwidthWeight := match r.out with
  | .ok b' => b'
  | _ => b

/-- Programs on values: what each spatial weight holds after a list of searches. -/
noncomputable def valueProgram {k : ℕ} (val : Fin k → BandwidthWeight) : List (SearchCall k) → (Fin k → BandwidthWeight)
  | [] => val
  | c :: cs => valueProgram (Function.update val c.who (afterSearch (val c.who) (optimize (val c.who) c.lower c.upper c.oracle []))) cs

/-- The objects lost by a program. -/
noncomputable def programLoss {k : ℕ} (val : Fin k → BandwidthWeight) : List (SearchCall k) → ℕ
  | [] => 0
  | c :: cs => lostObjects (searchEnd (optimize (val c.who) c.lower c.upper c.oracle [])) +
      programLoss (Function.update val c.who (afterSearch (val c.who) (optimize (val c.who) c.lower c.upper c.oracle []))) cs

end Verif.Spec

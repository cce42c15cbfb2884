import Verif.Core.Res
import Mathlib.Data.List.Basic
import Mathlib.Logic.Function.Basic
import Mathlib.Data.Nat.Notation
import Mathlib.Data.List.Nodup

/-!
# Loop schemes of the library

The algorithms share two loop schemes; both are modelled once here and instantiated by the models.

* `serialFor`: `for (i …) { GWM_LOG_STOP_BREAK(mStatus); try { … } catch (e) { throw e; } }`
  (e.g. GWRBasic.cpp:258-286, Algorithm.h `GWM_LOG_STOP_BREAK`).
* `ompRun`: `#pragma omp parallel for … { GWM_LOG_STOP_CONTINUE(mStatus); if (success) { try { … } catch (e) { success = false; } } }`
  (e.g. GWRBasic.cpp:470-505).

`stop p` is the answer to the `p`-th poll of the stop flag. `g i` is the part of the body that can fail, `upd` the writes it
makes when it does not fail. In the library every write follows the only call that can throw (`inv_sympd` and the like), so a
failing iteration writes nothing.
-/

namespace Verif

variable {ι : Type _} {ρ : Type _} {σ : Type _} {T : Type _}

/-- Serial loop. Result: final state and whether a stop request ended it. -/
def serialFor (g : ι → Res ρ) (upd : ι → ρ → σ → σ) (stop : ℕ → Bool) : List ι → ℕ → σ → Res (σ × Bool)
  | [], _, s => .ok (s, false)
  | i :: is, p, s =>
    if stop p = true then .ok (s, true)
    else (g i).bind fun r => serialFor g upd stop is (p + 1) (upd i r s)

/-- Events of a parallel loop. `start i`: the thread given iteration `i` polls the stop flag and reads `success`.
`finish t i`: thread `t` runs the body of iteration `i` and writes its results (or clears `success`). The body between the two
touches only private data. -/
inductive OmpEv (ι : Type _) (T : Type _)
  | start (i : ι)
  | finish (t : T) (i : ι)

/-- State of a parallel loop: shared data, the `success` flag, for each iteration whether it was let through at its start, the
number of polls so far and whether one of them saw a stop request. -/
structure OmpState (ι : Type _) (σ : Type _) where
  st : σ
  success : Bool
  run : ι → Bool
  polls : ℕ
  terminated : Bool

/-- One event. -/
def ompStep [DecidableEq ι] (g : ι → Res ρ) (upd : T → ι → ρ → σ → σ) (stop : ℕ → Bool) (s : OmpState ι σ) :
    OmpEv ι T → OmpState ι σ
  | .start i =>
    if stop s.polls = true then { s with polls := s.polls + 1, terminated := true, run := Function.update s.run i false }
    else { s with polls := s.polls + 1, run := Function.update s.run i s.success }
  | .finish t i =>
    if s.run i = true then
      match g i with
      | .ok r => { s with st := upd t i r s.st }
      | _ => { s with success := false }
    else s

/-- A whole parallel loop under a given sequence of events. -/
def ompRun [DecidableEq ι] (g : ι → Res ρ) (upd : T → ι → ρ → σ → σ) (stop : ℕ → Bool) (evs : List (OmpEv ι T)) (s : σ) :
    OmpState ι σ :=
  evs.foldl (ompStep g upd stop) ⟨s, true, fun _ => false, 0, false⟩

/-- The iterations started, in order. -/
def starts : List (OmpEv ι T) → List ι
  | [] => []
  | .start i :: es => i :: starts es
  | .finish _ _ :: es => starts es

/-- The iterations finished, with the thread, in order. -/
def finishes : List (OmpEv ι T) → List (T × ι)
  | [] => []
  | .start _ :: es => finishes es
  | .finish t i :: es => (t, i) :: finishes es

/-- A schedule of the iterations `iters`: each is started once and finished once by some thread, and started before it is
finished. Nothing is assumed about the order or the assignment to threads. -/
structure Schedule (iters : List ι) (evs : List (OmpEv ι T)) : Prop where
  starts : (starts evs).Perm iters
  finishes : ((finishes evs).map Prod.snd).Perm iters
  order : ∀ pre post t i, evs = pre ++ OmpEv.finish t i :: post → OmpEv.start i ∈ pre

end Verif

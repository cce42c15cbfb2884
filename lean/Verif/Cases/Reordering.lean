import Verif.Props.ReorderingMore
import Verif.Props.SpaceTimeAngle

/-! Concrete cases for the theorems on observations listed in another order and on copies of a space-time distance. -/

namespace Verif.Cases

open Verif Verif.Model Verif.Spec Verif.Props Matrix Classical

/-- `C143_ties_fails` with an actual sorting function, first serial and then multithreaded: the rank correlation changes when two observations are
exchanged. -/
example : ∃ t t' : Fin 2 → CorrRow 2 1,
    gwssCorrelationRun Tuple.sort ⟨false, none⟩ ⟨(2 : ℕ), false, .Boxcar⟩ (linePoints 2) tieX false .serial = .ok t ∧
    gwssCorrelationRun Tuple.sort ⟨false, none⟩ ⟨(2 : ℕ), false, .Boxcar⟩ (reorderedCoords (Equiv.swap (0 : Fin 2) 1) (linePoints 2))
      (fun i => tieX (Equiv.swap 0 1 i)) false (moreThreads 2) = .ok t' ∧
    ((t 0).cols 0).2.2 ≠ ((t' 1).cols 0).2.2 := by
  obtain ⟨t, t', v, h, h', hv, hd⟩ := C143_ties_fails Tuple.sort (fun x => Tuple.monotone_sort x) .serial (moreThreads 2) trivial moreThreads_valid
  refine ⟨t, t', h, h', ?_⟩
  rw [(hd 0 1).1, (hd 0 1).2]
  intro hc
  have := Option.some.inj hc
  rcases hv with rfl | rfl <;> norm_num at this

/-- `C10_st_clone_configured`: a distance with λ = 1/2 and angle 0 is copied, both are given the same two places and times, and both answer alike. -/
example : ∃ d' e e', (CRSSTDistance.newAngle ⟨false, none⟩ ⟨none⟩ (1 / 2) 0).clone = .ok d' ∧
    (CRSSTDistance.newAngle ⟨false, none⟩ ⟨none⟩ (1 / 2) 0).makeParameter
      [.mat angPlaces, .mat angPlaces, .vec (List.ofFn angTimes), .vec (List.ofFn angTimes)] = (e, .ok ()) ∧
    d'.makeParameter [.mat angPlaces, .mat angPlaces, .vec (List.ofFn angTimes), .vec (List.ofFn angTimes)] = (e', .ok ()) ∧
    e'.distance 0 = e.distance 0 := by
  have hm := st_make_ok (CRSSTDistance.newAngle ⟨false, none⟩ ⟨none⟩ (1 / 2) 0) false _ _ rfl rfl angPlaces angPlaces 2 angTimes angTimes rfl rfl rfl rfl
  have hcl : ∃ d', (CRSSTDistance.newAngle ⟨false, none⟩ ⟨none⟩ (1 / 2) 0).clone = .ok d' := by
    have hl : (0 : ℝ) ≤ 1 / 2 ∧ (1 / 2 : ℝ) ≤ 1 := by norm_num
    exact ⟨_, if_pos hl⟩
  obtain ⟨d', h1⟩ := hcl
  obtain ⟨e', h2, h3, -⟩ := C10_st_clone_configured _ _ _ h1 _ hm
  exact ⟨d', _, e', h1, hm, h2, h3 0⟩

end Verif.Cases

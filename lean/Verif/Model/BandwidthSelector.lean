import Verif.Model.KernelCuda
import Mathlib.Algebra.Order.Floor.Ring
import Mathlib.Analysis.Real.Sqrt
import Mathlib.Data.List.Sort

/-!
# Model of `BandwidthSelector`: golden-section bandwidth search
-/

namespace Verif.Model
open Verif Classical

/-- C `round`: half away from zero. -/
noncomputable def roundC (x : ℝ) : ℝ := if 0 ≤ x then (⌊x + 1 / 2⌋ : ℝ) else -(⌊-x + 1 / 2⌋ : ℝ)

/-- BandwidthSelector.cpp:13 `R`. -/
noncomputable def goldenR : ℝ := (√5 - 1) / 2

/-- One call of `IBandwidthSelectable::getCriterion`: bandwidth, whether the status was `Success`, and the value. -/
structure Eval where
  x : ℝ
  success : Bool
  f : ℝ

/-- The criterion oracle: what the `k`-th call of `getCriterion` answers for a weight. All implementations assign the
criterion (GWRBasic.h:428-432, GTWR.h:434-438, GWRMultiscale.h:577-581, ...), so the initial `DBL_MAX` is always overwritten. It
may depend on the call number because a stop request can arrive between calls. -/
abbrev Oracle := ℕ → BandwidthWeight → Bool × ℝ

/-- `mBandwidthCriterion[k] = v` on `std::unordered_map<double,double>`. -/
noncomputable def mapSet (k v : ℝ) (m : List (ℝ × ℝ)) : List (ℝ × ℝ) := (k, v) :: m.filter (fun p => p.1 ≠ k)

/-- The local variables of `optimize`, plus the ghost log of criterion calls. `d1 = f2 - f1` and
`xopt = f1 < f2 ? x1 : x2` are functions of these at every loop test and at the end. -/
structure GS where
  xL : ℝ
  xU : ℝ
  d : ℝ
  x1 : ℝ
  x2 : ℝ
  f1 : ℝ
  f2 : ℝ
  s1 : Bool
  s2 : Bool
  iter : ℕ
  evals : List Eval
  crit : List (ℝ × ℝ)

/-- BandwidthSelector.cpp:34, 66 `xopt`. -/
noncomputable def GS.xopt (s : GS) : ℝ := if s.f1 < s.f2 then s.x1 else s.x2

/-- BandwidthSelector.cpp:31, 50, 61: record a finite value. -/
noncomputable def record (x f : ℝ) (m : List (ℝ × ℝ)) : List (ℝ × ℝ) := if f < dblMax then mapSet x f m else m

/-- BandwidthSelector.cpp:8-22: starting points and their evaluation. -/
noncomputable def goldenInit (bw : BandwidthWeight) (lower upper : ℝ) (o : Oracle) (m : List (ℝ × ℝ)) : GS :=
  let d := goldenR * (upper - lower)
  let x1 := if bw.mAdaptive then (⌊lower + d⌋ : ℝ) else lower + d
  let x2 := if bw.mAdaptive then roundC (upper - d) else upper - d
  let r1 := o 0 { bw with mBandwidth := x1 }
  let r2 := o 1 { bw with mBandwidth := x2 }
  { xL := lower, xU := upper, d := d, x1 := x1, x2 := x2, f1 := r1.2, f2 := r2.2, s1 := r1.1, s2 := r2.1, iter := 0,
    evals := [⟨x1, r1.1, r1.2⟩, ⟨x2, r2.1, r2.2⟩], crit := m }

/-- BandwidthSelector.cpp:36 loop condition, `eps = 1e-4`, `ea = 100`. -/
def goldenCond (s : GS) : Prop :=
  s.s1 = true ∧ s.s2 = true ∧ |s.d| > 1e-4 ∧ |s.f2 - s.f1| > 1e-4 ∧ s.iter < 100

/-- BandwidthSelector.cpp:38-68 loop body. -/
noncomputable def goldenStep (bw : BandwidthWeight) (o : Oracle) (s : GS) : GS :=
  let d := goldenR * s.d
  if s.f1 < s.f2 then
    let x1 := if bw.mAdaptive then roundC (s.x2 + d) else s.x2 + d
    let r := o s.evals.length { bw with mBandwidth := x1 }
    { s with xL := s.x2, x2 := s.x1, x1 := x1, d := d, f2 := s.f1, f1 := r.2, s1 := r.1, iter := s.iter + 1,
             evals := s.evals ++ [⟨x1, r.1, r.2⟩], crit := record x1 r.2 s.crit }
  else
    let x2 := if bw.mAdaptive then (⌊s.x1 - d⌋ : ℝ) else s.x1 - d
    let r := o s.evals.length { bw with mBandwidth := x2 }
    { s with xU := s.x1, x1 := s.x2, x2 := x2, d := d, f1 := s.f2, f2 := r.2, s2 := r.1, iter := s.iter + 1,
             evals := s.evals ++ [⟨x2, r.1, r.2⟩], crit := record x2 r.2 s.crit }

theorem goldenStep_iter (bw : BandwidthWeight) (o : Oracle) (s : GS) : (goldenStep bw o s).iter = s.iter + 1 := by
  unfold goldenStep; dsimp only; split <;> rfl

/-- BandwidthSelector.cpp:36-69 the loop. -/
noncomputable def goldenLoop (bw : BandwidthWeight) (o : Oracle) (s : GS) : GS :=
  if goldenCond s then goldenLoop bw o (goldenStep bw o s) else s
termination_by 100 - s.iter
decreasing_by
  rename_i h
  have := h.2.2.2.2
  rw [goldenStep_iter]; omega

/-- What a caller sees of a search: the returned weight (or exception), the criterion calls made, and the map of recorded
criterion values. -/
structure SearchResult where
  out : Res BandwidthWeight
  evals : List Eval
  crit : List (ℝ × ℝ)

/-- BandwidthSelector.cpp:6-81 `optimize`. `m` is the content of `mBandwidthCriterion` left by earlier searches. The
objects behind the pointers are modelled in `Verif.Model.SelectorHeap`. -/
noncomputable def optimize (bw : BandwidthWeight) (lower upper : ℝ) (o : Oracle) (m : List (ℝ × ℝ)) : SearchResult :=
  let s0 := goldenInit bw lower upper o m
  if ¬ (s0.s1 = true ∧ s0.s2 = true) then ⟨.ok bw, s0.evals, s0.crit⟩
  else if s0.f1 = dblMax ∧ s0.f2 = dblMax then ⟨.throw .runtime, s0.evals, s0.crit⟩
  else
    let s0' := { s0 with crit := record s0.x2 s0.f2 (record s0.x1 s0.f1 s0.crit) }
    let s := goldenLoop bw o s0'
    if s.s1 = true ∧ s.s2 = true then
      ⟨.ok { mBandwidth := s.xopt, mAdaptive := bw.mAdaptive, mKernel := bw.mKernel }, s.evals, s.crit⟩
    else ⟨.ok bw, s.evals, s.crit⟩

/-- BandwidthSelector.cpp:83-95 `bandwidthCriterion`: the map's items, in whatever order iteration yields them, sorted by
bandwidth. -/
noncomputable def bandwidthCriterion (items : List (ℝ × ℝ)) : List (ℝ × ℝ) :=
  items.insertionSort (fun a b => a.1 ≤ b.1)

end Verif.Model

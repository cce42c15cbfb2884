import Verif.Model.BandwidthSelector

/-!
# Model of the memory of bandwidth searches

`BandwidthSelector::optimize` works on `BandwidthWeight` objects behind plain pointers, and the classes that call it hand the pointer it returns to
`SpatialWeight::setWeight`. Here is this code on a heap. Simplification: allocation never fails, and never hands out an address twice. The arithmetic and
the order of the calls are those of `Verif.Model.optimize`; the criterion reads the object it is given.
-/

namespace Verif.Model
open Verif Classical

/-- The bandwidth objects at the addresses handed out so far. -/
structure BwHeap where
  cells : ℕ → Option BandwidthWeight
  next : ℕ

namespace BwHeap

/-- `new BandwidthWeight(…)`. -/
def alloc (h : BwHeap) (b : BandwidthWeight) : BwHeap := ⟨Function.update h.cells h.next (some b), h.next + 1⟩

/-- Reading through a pointer. -/
def load (h : BwHeap) (a : ℕ) : Res BandwidthWeight := match h.cells a with
  | some b => .ok b
  | none => .ub

/-- `a->setBandwidth(x)` (BandwidthWeight.h:202-205). -/
def setBandwidth (h : BwHeap) (a : ℕ) (x : ℝ) : Res BwHeap := match h.cells a with
  | some b => .ok ⟨Function.update h.cells a (some { b with mBandwidth := x }), h.next⟩
  | none => .ub

/-- `delete a`. -/
def free (h : BwHeap) (a : ℕ) : Res BwHeap := match h.cells a with
  | some _ => .ok ⟨Function.update h.cells a none, h.next⟩
  | none => .ub

end BwHeap

/-- BandwidthSelector.cpp:38-68 loop body: the bandwidth is written to `w1` or `w2`, and the criterion gets this object. -/
noncomputable def ptrStep (adaptBw : Bool) (w1 w2 : ℕ) (o : Oracle) (h : BwHeap) (s : GS) : Res (BwHeap × GS) :=
  let d := goldenR * s.d
  if s.f1 < s.f2 then
    let x1 := if adaptBw then roundC (s.x2 + d) else s.x2 + d
    (h.setBandwidth w1 x1).bind fun h => (h.load w1).bind fun b =>
      let r := o s.evals.length b
      .ok (h, { s with xL := s.x2, x2 := s.x1, x1 := x1, d := d, f2 := s.f1, f1 := r.2, s1 := r.1, iter := s.iter + 1,
                       evals := s.evals ++ [⟨x1, r.1, r.2⟩], crit := record x1 r.2 s.crit })
  else
    let x2 := if adaptBw then (⌊s.x1 - d⌋ : ℝ) else s.x1 - d
    (h.setBandwidth w2 x2).bind fun h => (h.load w2).bind fun b =>
      let r := o s.evals.length b
      .ok (h, { s with xU := s.x1, x1 := s.x2, x2 := x2, d := d, f1 := s.f2, f2 := r.2, s2 := r.1, iter := s.iter + 1,
                       evals := s.evals ++ [⟨x2, r.1, r.2⟩], crit := record x2 r.2 s.crit })

/-- BandwidthSelector.cpp:36-69 the loop; `fuel` is the number of rounds left of the 100 that the test `iter < ea` allows. -/
noncomputable def ptrLoop (adaptBw : Bool) (w1 w2 : ℕ) (o : Oracle) : ℕ → BwHeap → GS → Res (BwHeap × GS)
  | 0, h, s => .ok (h, s)
  | fuel + 1, h, s =>
    if goldenCond s then (ptrStep adaptBw w1 w2 o h s).bind fun p => ptrLoop adaptBw w1 w2 o fuel p.1 p.2 else .ok (h, s)

/-- How a search ends: with a pointer, or with an exception. -/
inductive PtrEnd
  | ret (a : ℕ)
  | thrown (e : Err)

/-- BandwidthSelector.cpp:6-81 `optimize` for the object at `a` (`mBandwidth`). -/
noncomputable def ptrOptimize (h : BwHeap) (a : ℕ) (lower upper : ℝ) (o : Oracle) (m : List (ℝ × ℝ)) :
    Res (BwHeap × PtrEnd × List Eval × List (ℝ × ℝ)) :=
  (h.load a).bind fun c1 =>
  let w1 := h.next
  let h := h.alloc c1
  (h.load a).bind fun c2 =>
  let w2 := h.next
  let h := h.alloc c2
  (h.load a).bind fun c =>
  let adaptBw := c.mAdaptive
  let d := goldenR * (upper - lower)
  let x1 := if adaptBw then (⌊lower + d⌋ : ℝ) else lower + d
  let x2 := if adaptBw then roundC (upper - d) else upper - d
  (h.setBandwidth w1 x1).bind fun h => (h.setBandwidth w2 x2).bind fun h =>
  (h.load w1).bind fun b1 =>
  let r1 := o 0 b1
  (h.load w2).bind fun b2 =>
  let r2 := o 1 b2
  let evals : List Eval := [⟨x1, r1.1, r1.2⟩, ⟨x2, r2.1, r2.2⟩]
  if ¬ (r1.1 = true ∧ r2.1 = true) then .ok (h, .ret a, evals, m)
  else if r1.2 = dblMax ∧ r2.2 = dblMax then .ok (h, .thrown .runtime, evals, m)
  else
    let s : GS := { xL := lower, xU := upper, d := d, x1 := x1, x2 := x2, f1 := r1.2, f2 := r2.2, s1 := r1.1, s2 := r2.1, iter := 0, evals := evals,
                    crit := record x2 r2.2 (record x1 r1.2 m) }
    (ptrLoop adaptBw w1 w2 o 100 h s).bind fun p =>
    (p.1.free w1).bind fun h => (h.free w2).bind fun h =>
    if p.2.s1 = true ∧ p.2.s2 = true then
      (h.load a).bind fun c => .ok (h.alloc { mBandwidth := p.2.xopt, mAdaptive := c.mAdaptive, mKernel := c.mKernel }, .ret h.next, p.2.evals, p.2.crit)
    else .ok (h, .ret a, p.2.evals, p.2.crit)

/-- SpatialWeight.h:168-175 `setWeight(Weight*)` of a spatial weight whose member points to `p`; the new value of the member. The returned pointer is
never null. -/
def ptrSetWeight (h : BwHeap) (p w : ℕ) : Res (BwHeap × ℕ) :=
  if w ≠ p then (h.free p).bind fun h => (h.load w).bind fun b => .ok (h.alloc b, h.next)
  else .ok (h, p)

/-- The step "Bandwidth selection" of a fit: GWRBasic.cpp:135-157, GWRRobust.cpp:61-76, GWRGeneralized.cpp:34-50, GWRLocalCollinearity.cpp:49-64,
GTWR.cpp:36-51, and per variable GWRMultiscale.cpp:205-219 and 323-357. `p` is the member `mWeight` of the spatial weight. The result tells the heap, the
member, what was thrown, and what the search tried. -/
noncomputable def ptrSelect (h : BwHeap) (p : ℕ) (lower upper : ℝ) (o : Oracle) (m : List (ℝ × ℝ)) :
    Res (BwHeap × ℕ × Option Err × List Eval × List (ℝ × ℝ)) :=
  (ptrOptimize h p lower upper o m).bind fun r => match r.2.1 with
  | .thrown e => .ok (r.1, p, some e, r.2.2)
  | .ret w => (ptrSetWeight r.1 p w).bind fun q => .ok (q.1, q.2, none, r.2.2)

/-- One search in a program: of which spatial weight, between which bounds, with which answers of the criterion. -/
structure SearchCall (k : ℕ) where
  who : Fin k
  lower : ℝ
  upper : ℝ
  oracle : Oracle

/-- A program of searches on several spatial weights (`own i` is the member of the `i`-th); exceptions are caught and the program goes on. Every search
has a new `BandwidthSelector`, whose map is empty. -/
noncomputable def ptrProgram {k : ℕ} (h : BwHeap) (own : Fin k → ℕ) : List (SearchCall k) → Res (BwHeap × (Fin k → ℕ))
  | [] => .ok (h, own)
  | c :: cs => (ptrSelect h (own c.who) c.lower c.upper c.oracle []).bind fun r => ptrProgram r.1 (Function.update own c.who r.2.1) cs

end Verif.Model

import Verif.Props.BandwidthSelector
import Verif.Spec.SelectorHeap

/-! # C132: the memory of automatic bandwidth selection -/

namespace Verif.Props
open Verif Verif.Model Verif.Spec Classical

/-! ## Counting objects -/

theorem live_congr {h h' : BwHeap} (hn : h'.next = h.next) (hc : ∀ a, h'.cells a = none ↔ h.cells a = none) : BwHeap.live h' = BwHeap.live h := by
  unfold BwHeap.live
  rw [hn]
  congr 1
  ext a
  simp [hc]

theorem live_alloc {h : BwHeap} (b : BandwidthWeight) : BwHeap.live (h.alloc b) = BwHeap.live h + 1 := by
  unfold BwHeap.live BwHeap.alloc
  simp only [Finset.range_add_one, Finset.filter_insert, Function.update_self, ne_eq, reduceCtorEq, not_false_eq_true, if_true]
  rw [Finset.card_insert_of_notMem (by simp)]
  congr 2
  apply Finset.filter_congr
  intro a ha
  rw [Function.update_of_ne (Finset.mem_range.1 ha).ne]

theorem live_free {h h' : BwHeap} (hw : BwHeap.WellFormed h) {a : ℕ} (e : h.free a = .ok h') : BwHeap.live h = BwHeap.live h' + 1 := by
  unfold BwHeap.free at e
  split at e
  case h_2 => cases e
  case h_1 b hb =>
    cases e
    have ha : a < h.next := by
      by_contra hlt
      rw [hw a (not_lt.1 hlt)] at hb
      cases hb
    unfold BwHeap.live
    dsimp only
    have : (Finset.range h.next).filter (fun q => h.cells q ≠ none) =
        insert a ((Finset.range h.next).filter fun q => Function.update h.cells a none q ≠ none) := by
      ext q
      simp only [Finset.mem_filter, Finset.mem_range, Finset.mem_insert]
      by_cases hq : q = a
      · subst hq; simp [ha, hb]
      · simp [hq]
    rw [this, Finset.card_insert_of_notMem (by simp)]

theorem wf_alloc {h : BwHeap} (hw : BwHeap.WellFormed h) (b : BandwidthWeight) : BwHeap.WellFormed (h.alloc b) := by
  intro a ha
  have ha : h.next + 1 ≤ a := ha
  show Function.update h.cells _ _ a = none
  rw [Function.update_of_ne (by omega)]
  exact hw a (by omega)

theorem wf_lt {h : BwHeap} (hw : BwHeap.WellFormed h) {a : ℕ} {b : BandwidthWeight} (hb : h.cells a = some b) : a < h.next := by
  by_contra hlt
  rw [hw a (not_lt.1 hlt)] at hb
  cases hb

/-! ## The search on pointers and the search on values -/

/-- The heap `h` differs from `h0` only in the bandwidths of the two temporary objects, which exist. -/
structure TempOf (h0 h : BwHeap) (bw : BandwidthWeight) (w1 w2 : ℕ) : Prop where
  next : h.next = h0.next
  other : ∀ a, a ≠ w1 → a ≠ w2 → h.cells a = h0.cells a
  t1 : ∃ y, h.cells w1 = some { bw with mBandwidth := y }
  t2 : ∃ y, h.cells w2 = some { bw with mBandwidth := y }

theorem TempOf.set1 {h0 h : BwHeap} {bw : BandwidthWeight} {w1 w2 : ℕ} (t : TempOf h0 h bw w1 w2) (hne : w1 ≠ w2) (x : ℝ) :
    ∃ h', h.setBandwidth w1 x = .ok h' ∧ h'.load w1 = .ok { bw with mBandwidth := x } ∧ TempOf h0 h' bw w1 w2 ∧ h'.cells w2 = h.cells w2 := by
  obtain ⟨y, hy⟩ := t.t1
  refine ⟨⟨Function.update h.cells w1 (some { bw with mBandwidth := x }), h.next⟩, by simp [BwHeap.setBandwidth, hy], by simp [BwHeap.load], ⟨t.next, ?_, ?_, ?_⟩, ?_⟩
  · intro a h1 h2
    show Function.update _ _ _ a = _
    rw [Function.update_of_ne h1]; exact t.other a h1 h2
  · exact ⟨x, Function.update_self _ _ _⟩
  · obtain ⟨z, hz⟩ := t.t2
    exact ⟨z, (Function.update_of_ne hne.symm _ _).trans hz⟩
  · exact Function.update_of_ne hne.symm _ _

theorem TempOf.set2 {h0 h : BwHeap} {bw : BandwidthWeight} {w1 w2 : ℕ} (t : TempOf h0 h bw w1 w2) (hne : w1 ≠ w2) (x : ℝ) :
    ∃ h', h.setBandwidth w2 x = .ok h' ∧ h'.load w2 = .ok { bw with mBandwidth := x } ∧ TempOf h0 h' bw w1 w2 ∧ h'.cells w1 = h.cells w1 := by
  obtain ⟨y, hy⟩ := t.t2
  refine ⟨⟨Function.update h.cells w2 (some { bw with mBandwidth := x }), h.next⟩, by simp [BwHeap.setBandwidth, hy], by simp [BwHeap.load], ⟨t.next, ?_, ?_, ?_⟩, ?_⟩
  · intro a h1 h2
    show Function.update _ _ _ a = _
    rw [Function.update_of_ne h2]; exact t.other a h1 h2
  · obtain ⟨z, hz⟩ := t.t1
    exact ⟨z, (Function.update_of_ne hne _ _).trans hz⟩
  · exact ⟨x, Function.update_self _ _ _⟩
  · exact Function.update_of_ne hne _ _

theorem ptrStep_ok {h0 h : BwHeap} {bw : BandwidthWeight} {w1 w2 : ℕ} (t : TempOf h0 h bw w1 w2) (hne : w1 ≠ w2) (o : Oracle) (s : GS) :
    ∃ h', ptrStep bw.mAdaptive w1 w2 o h s = .ok (h', goldenStep bw o s) ∧ TempOf h0 h' bw w1 w2 := by
  unfold ptrStep goldenStep
  dsimp only
  split
  · obtain ⟨h', e1, e2, t', -⟩ := t.set1 hne (if bw.mAdaptive then roundC (s.x2 + goldenR * s.d) else s.x2 + goldenR * s.d)
    exact ⟨h', by rw [e1]; simp only [Res.bind, e2], t'⟩
  · obtain ⟨h', e1, e2, t', -⟩ := t.set2 hne (if bw.mAdaptive then (⌊s.x1 - goldenR * s.d⌋ : ℝ) else s.x1 - goldenR * s.d)
    exact ⟨h', by rw [e1]; simp only [Res.bind, e2], t'⟩

theorem ptrLoop_ok {h0 : BwHeap} {bw : BandwidthWeight} {w1 w2 : ℕ} (hne : w1 ≠ w2) (o : Oracle) (fuel : ℕ) :
    ∀ (h : BwHeap) (s : GS), TempOf h0 h bw w1 w2 → 100 ≤ s.iter + fuel →
      ∃ h', ptrLoop bw.mAdaptive w1 w2 o fuel h s = .ok (h', goldenLoop bw o s) ∧ TempOf h0 h' bw w1 w2 := by
  induction fuel with
  | zero =>
    intro h s t hf
    refine ⟨h, ?_, t⟩
    rw [goldenLoop, if_neg fun hc => by have := hc.2.2.2.2; omega]
    rfl
  | succ fuel ih =>
    intro h s t hf
    rw [goldenLoop]
    unfold ptrLoop
    by_cases hc : goldenCond s
    · rw [if_pos hc, if_pos hc]
      obtain ⟨h', e, t'⟩ := ptrStep_ok t hne o s
      obtain ⟨h'', e', t''⟩ := ih h' (goldenStep bw o s) t' (by rw [goldenStep_iter]; omega)
      exact ⟨h'', by rw [e]; exact e', t''⟩
    · rw [if_neg hc, if_neg hc]
      exact ⟨h, rfl, t⟩

/-- The answers of the criterion, from the first two on. -/
theorem golden_success {bw : BandwidthWeight} {o : Oracle} {s : GS} (e1 e2 : Eval) (he : s.evals = [e1, e2]) (h1 : e1.success = true) (h2 : e2.success = true)
    (hs : s.s1 = true ∧ s.s2 = true) :
    (goldenLoop bw o s).evals.take 2 = [e1, e2] ∧
      (((goldenLoop bw o s).s1 = true ∧ (goldenLoop bw o s).s2 = true) ↔ ∀ e ∈ (goldenLoop bw o s).evals, e.success = true) := by
  refine (goldenLoop_induct (P := fun s => s.evals.take 2 = [e1, e2] ∧ ((s.s1 = true ∧ s.s2 = true) ↔ ∀ e ∈ s.evals, e.success = true)) ?_ ?_).1
  · rintro s ⟨ht, hi⟩ hc
    have hall := hi.1 ⟨hc.1, hc.2.1⟩
    have hl : 2 ≤ s.evals.length := by
      have := congrArg List.length ht
      simp at this
      omega
    have key : ∀ e : Eval, (s.evals ++ [e]).take 2 = [e1, e2] := fun e => by
      rw [List.take_append_of_le_length hl, ht]
    have key2 : ∀ e : Eval, (∀ e' ∈ s.evals ++ [e], e'.success = true) ↔ e.success = true := fun e => by
      constructor
      · intro h; exact h e (by simp)
      · intro h e' he'
        rcases List.mem_append.1 he' with h' | h'
        · exact hall e' h'
        · rw [List.mem_singleton.1 h']; exact h
    unfold goldenStep
    dsimp only
    split
    · refine ⟨key _, ?_⟩
      rw [key2]
      simp [hc.2.1]
    · refine ⟨key _, ?_⟩
      rw [key2]
      simp [hc.1]
  · rw [he]
    refine ⟨rfl, ⟨fun _ => by simp [h1, h2], fun _ => hs⟩⟩

/-- **C132 (one selection).** The step "bandwidth selection" of a fit, for a spatial weight whose bandwidth object exists: no object is used after it was
deleted, none is deleted twice; the spatial weight ends with its own object holding exactly the bandwidth that the search yields; every other object of the
program is untouched; and the number of objects grows by `lostObjects`: two are lost if the search is stopped at its start or throws, one if it completes.
Missing: that nothing is lost, which is false (`C132_memory_is_lost`). -/
theorem C132_selection_partial (h : BwHeap) (hw : BwHeap.WellFormed h) (p : ℕ) (v : BandwidthWeight) (hp : h.cells p = some v) (l u : ℝ) (o : Oracle)
    (m : List (ℝ × ℝ)) :
    ∃ h' p' e, ptrSelect h p l u o m = .ok (h', p', e, (optimize v l u o m).evals, (optimize v l u o m).crit) ∧
      (∀ x, e = some x ↔ (optimize v l u o m).out = .throw x) ∧
      BwHeap.WellFormed h' ∧ h'.cells p' = some (afterSearch v (optimize v l u o m)) ∧ (p' = p ∨ h.next ≤ p') ∧
      (∀ a, a ≠ p → a < h.next → h'.cells a = h.cells a) ∧
      BwHeap.live h' = BwHeap.live h + lostObjects (searchEnd (optimize v l u o m)) := by
  have hpl := wf_lt hw hp
  -- the two temporary objects
  set g := (h.alloc v).alloc v with hg
  have gw : BwHeap.WellFormed g := wf_alloc (wf_alloc hw v) v
  have gn : g.next = h.next + 2 := rfl
  have gl : BwHeap.live g = BwHeap.live h + 2 := by rw [hg, live_alloc, live_alloc]
  have gc : ∀ a, a < h.next → g.cells a = h.cells a := fun a ha => by
    show Function.update (Function.update _ _ _) (h.next + 1) _ a = _
    rw [Function.update_of_ne (by omega), Function.update_of_ne (by omega)]
  have gp : g.cells p = some v := by rw [gc p hpl, hp]
  have g1 : g.cells h.next = some v := by
    show Function.update (Function.update _ _ _) (h.next + 1) _ h.next = _
    rw [Function.update_of_ne (by omega), Function.update_self]
  have g2 : g.cells (h.next + 1) = some v := by
    show Function.update (Function.update _ _ _) (h.next + 1) _ (h.next + 1) = _
    rw [Function.update_self]
  have t0 : TempOf g g v h.next (h.next + 1) := ⟨rfl, fun _ _ _ => rfl, ⟨v.mBandwidth, g1⟩, ⟨v.mBandwidth, g2⟩⟩
  have hne : h.next ≠ h.next + 1 := by omega
  set x1 := if v.mAdaptive then (⌊l + goldenR * (u - l)⌋ : ℝ) else l + goldenR * (u - l) with hx1
  set x2 := if v.mAdaptive then roundC (u - goldenR * (u - l)) else u - goldenR * (u - l) with hx2
  obtain ⟨ha, ea, la, ta, -⟩ := t0.set1 hne x1
  obtain ⟨hb, eb, lb, tb, cb⟩ := ta.set2 hne x2
  have lb1 : hb.load h.next = .ok { v with mBandwidth := x1 } := by
    unfold BwHeap.load at la ⊢
    rw [cb]; exact la
  -- the heap of the temporary objects has as many objects as `g`
  have hlive : ∀ {k : BwHeap}, TempOf g k v h.next (h.next + 1) → BwHeap.live k = BwHeap.live h + 2 ∧ BwHeap.WellFormed k ∧ k.next = h.next + 2 ∧
      (∀ a, a < h.next → k.cells a = h.cells a) := fun {k} t => by
    refine ⟨?_, fun a hka => ?_, t.next, fun a hka => ?_⟩
    · rw [← gl]
      refine live_congr t.next fun a => ?_
      by_cases e1 : a = h.next
      · obtain ⟨y, hy⟩ := t.t1; rw [e1, hy, g1]; simp
      · by_cases e2 : a = h.next + 1
        · obtain ⟨y, hy⟩ := t.t2; rw [e2, hy, g2]; simp
        · rw [t.other a e1 e2]
    · have hka : h.next + 2 ≤ a := by rw [t.next, gn] at hka; exact hka
      rw [t.other a (by omega) (by omega)]
      exact gw a hka
    · rw [t.other a (by omega) (by omega), gc a hka]
  have hstart : ∀ {α : Type} (f : BwHeap → BandwidthWeight → BandwidthWeight → Res α),
      ((g.setBandwidth h.next x1).bind fun k => (k.setBandwidth (h.next + 1) x2).bind fun k => (k.load h.next).bind fun b1 =>
        (k.load (h.next + 1)).bind fun b2 => f k b1 b2) = f hb { v with mBandwidth := x1 } { v with mBandwidth := x2 } := fun f => by
    rw [ea]; simp only [Res.bind, eb, lb1, lb]
  have l0 : h.load p = .ok v := by simp [BwHeap.load, hp]
  have l1 : (h.alloc v).load p = .ok v := by
    have : (h.alloc v).cells p = some v := by
      show Function.update _ _ _ p = _
      rw [Function.update_of_ne (by omega), hp]
    simp [BwHeap.load, this]
  have l2 : g.load p = .ok v := by simp [BwHeap.load, gp]
  set r1 := o 0 { v with mBandwidth := x1 } with hr1
  set r2 := o 1 { v with mBandwidth := x2 } with hr2
  have hopt : ptrOptimize h p l u o m =
      (if ¬ (r1.1 = true ∧ r2.1 = true) then .ok (hb, .ret p, [⟨x1, r1.1, r1.2⟩, ⟨x2, r2.1, r2.2⟩], m)
      else if r1.2 = dblMax ∧ r2.2 = dblMax then .ok (hb, .thrown .runtime, [⟨x1, r1.1, r1.2⟩, ⟨x2, r2.1, r2.2⟩], m)
      else
        (ptrLoop v.mAdaptive h.next (h.next + 1) o 100 hb { xL := l, xU := u, d := goldenR * (u - l), x1 := x1, x2 := x2, f1 := r1.2, f2 := r2.2,
                                                            s1 := r1.1, s2 := r2.1, iter := 0, evals := [⟨x1, r1.1, r1.2⟩, ⟨x2, r2.1, r2.2⟩],
                                                            crit := record x2 r2.2 (record x1 r1.2 m) }).bind fun q =>
        (q.1.free h.next).bind fun k => (k.free (h.next + 1)).bind fun k =>
        if q.2.s1 = true ∧ q.2.s2 = true then
          (k.load p).bind fun c => .ok (k.alloc { mBandwidth := q.2.xopt, mAdaptive := c.mAdaptive, mKernel := c.mKernel }, .ret k.next, q.2.evals, q.2.crit)
        else .ok (k, .ret p, q.2.evals, q.2.crit)) := by
    unfold ptrOptimize
    rw [l0]
    simp only [Res.bind, l1]
    rw [show ((h.alloc v).alloc v).load p = .ok v from l2]
    dsimp only
    exact hstart fun k b1 b2 => _
  set s0 : GS := { xL := l, xU := u, d := goldenR * (u - l), x1 := x1, x2 := x2, f1 := r1.2, f2 := r2.2,
                   s1 := r1.1, s2 := r2.1, iter := 0, evals := [⟨x1, r1.1, r1.2⟩, ⟨x2, r2.1, r2.2⟩],
                   crit := record x2 r2.2 (record x1 r1.2 m) } with hs0
  have hval : optimize v l u o m =
      (if ¬ (r1.1 = true ∧ r2.1 = true) then ⟨.ok v, [⟨x1, r1.1, r1.2⟩, ⟨x2, r2.1, r2.2⟩], m⟩
      else if r1.2 = dblMax ∧ r2.2 = dblMax then ⟨.throw .runtime, [⟨x1, r1.1, r1.2⟩, ⟨x2, r2.1, r2.2⟩], m⟩
      else if (goldenLoop v o s0).s1 = true ∧ (goldenLoop v o s0).s2 = true then
        ⟨.ok { mBandwidth := (goldenLoop v o s0).xopt, mAdaptive := v.mAdaptive, mKernel := v.mKernel }, (goldenLoop v o s0).evals, (goldenLoop v o s0).crit⟩
      else ⟨.ok v, (goldenLoop v o s0).evals, (goldenLoop v o s0).crit⟩) := rfl
  rw [hval]
  unfold ptrSelect
  rw [hopt]
  obtain ⟨lv, wf, nx, old⟩ := hlive tb
  by_cases c1 : r1.1 = true ∧ r2.1 = true
  swap
  · -- a stop request at the start
    rw [if_pos c1, if_pos c1]
    refine ⟨hb, p, none, by simp [Res.bind, ptrSetWeight], by simp, wf, by rw [old p hpl, hp]; rfl, .inl rfl, fun a _ h2 => old a h2, ?_⟩
    have : searchEnd ⟨.ok v, [⟨x1, r1.1, r1.2⟩, ⟨x2, r2.1, r2.2⟩], m⟩ = .stoppedAtStart := by
      refine if_pos ?_
      rw [not_and_or] at c1
      rcases c1 with c | c
      · exact ⟨⟨x1, r1.1, r1.2⟩, by simp, by simpa using c⟩
      · exact ⟨⟨x2, r2.1, r2.2⟩, by simp, by simpa using c⟩
    rw [this, lv]; rfl
  rw [if_neg (not_not.2 c1), if_neg (not_not.2 c1)]
  have hfirst : ¬ ∃ e ∈ ([⟨x1, r1.1, r1.2⟩, ⟨x2, r2.1, r2.2⟩] : List Eval), e.success = false := by
    rintro ⟨e, he, hf⟩
    rcases List.mem_cons.1 he with rfl | he
    · rw [c1.1] at hf; cases hf
    · rw [List.mem_singleton.1 he] at hf; rw [c1.2] at hf; cases hf
  by_cases c2 : r1.2 = dblMax ∧ r2.2 = dblMax
  · rw [if_pos c2, if_pos c2]
    refine ⟨hb, p, some .runtime, by simp [Res.bind], by simp, wf, by rw [old p hpl, hp]; rfl, .inl rfl, fun a _ h2 => old a h2, ?_⟩
    have : searchEnd ⟨.throw .runtime, [⟨x1, r1.1, r1.2⟩, ⟨x2, r2.1, r2.2⟩], m⟩ = .threw := by
      exact (if_neg hfirst).trans (if_pos ⟨Err.runtime, rfl⟩)
    rw [this, lv]; rfl
  rw [if_neg c2, if_neg c2]
  obtain ⟨hk, ek, tk⟩ := ptrLoop_ok hne o 100 hb s0 tb (by simp)
  obtain ⟨lk, wk, nk, ok'⟩ := hlive tk
  obtain ⟨ht2, hall⟩ := golden_success (bw := v) (o := o) (s := s0) ⟨x1, r1.1, r1.2⟩ ⟨x2, r2.1, r2.2⟩ rfl c1.1 c1.2 c1
  rw [ek]
  -- deleting the temporary objects
  obtain ⟨y1, hy1⟩ := tk.t1
  obtain ⟨y2, hy2⟩ := tk.t2
  set f1 : BwHeap := ⟨Function.update hk.cells h.next none, hk.next⟩ with hf1
  have ef1 : hk.free h.next = .ok f1 := by simp [BwHeap.free, hy1, hf1]
  have f1c : f1.cells (h.next + 1) = some { v with mBandwidth := y2 } := by
    show Function.update hk.cells h.next none _ = _
    rw [Function.update_of_ne hne.symm, hy2]
  set f2 : BwHeap := ⟨Function.update f1.cells (h.next + 1) none, hk.next⟩ with hf2
  have ef2 : f1.free (h.next + 1) = .ok f2 := by unfold BwHeap.free; rw [f1c]
  have f1w : BwHeap.WellFormed f1 := fun a h3 => by
    show Function.update hk.cells h.next none a = none
    by_cases e : a = h.next
    · rw [e, Function.update_self]
    · rw [Function.update_of_ne e]; exact wk a h3
  have f2w : BwHeap.WellFormed f2 := fun a h3 => by
    show Function.update f1.cells (h.next + 1) none a = none
    by_cases e : a = h.next + 1
    · rw [e, Function.update_self]
    · rw [Function.update_of_ne e]; exact f1w a h3
  have f2l : BwHeap.live f2 = BwHeap.live h := by
    have e1 := live_free wk ef1
    have e2 := live_free f1w ef2
    omega
  have f2n : f2.next = h.next + 2 := nk
  have f2o : ∀ a, a < h.next → f2.cells a = h.cells a := fun a h3 => by
    show Function.update (Function.update hk.cells h.next none) (h.next + 1) none a = _
    rw [Function.update_of_ne (by omega), Function.update_of_ne (by omega)]
    exact ok' a h3
  have f2p : f2.load p = .ok v := by simp [BwHeap.load, f2o p hpl, hp]
  simp only [Res.bind, ef1, ef2]
  have hfirst' : ¬ ∃ e ∈ (goldenLoop v o s0).evals.take 2, e.success = false := by rw [ht2]; exact hfirst
  by_cases c3 : (goldenLoop v o s0).s1 = true ∧ (goldenLoop v o s0).s2 = true
  swap
  · rw [if_neg c3, if_neg c3]
    refine ⟨f2, p, none, by simp [Res.bind, ptrSetWeight], by simp, f2w, by rw [f2o p hpl, hp]; rfl, .inl rfl, fun a _ h2 => f2o a h2, ?_⟩
    have : searchEnd ⟨.ok v, (goldenLoop v o s0).evals, (goldenLoop v o s0).crit⟩ = .stoppedLater := by
      unfold searchEnd
      rw [if_neg hfirst', if_neg (by simp), if_pos]
      rw [hall] at c3
      push Not at c3
      obtain ⟨e, he, hf⟩ := c3
      exact ⟨e, he, by simpa using hf⟩
    rw [this, f2l]; rfl
  rw [if_pos c3, if_pos c3]
  set b : BandwidthWeight := { mBandwidth := (goldenLoop v o s0).xopt, mAdaptive := v.mAdaptive, mKernel := v.mKernel } with hbv
  -- the returned object, and its clone in place of the old one
  set q1 := f2.alloc b with hq1
  have q1w : BwHeap.WellFormed q1 := wf_alloc f2w b
  have q1l : BwHeap.live q1 = BwHeap.live h + 1 := by rw [hq1, live_alloc, f2l]
  have q1n : q1.next = h.next + 3 := by show f2.next + 1 = _; rw [f2n]
  have q1c : q1.cells (h.next + 2) = some b := by
    show Function.update f2.cells f2.next (some b) (h.next + 2) = _
    rw [f2n, Function.update_self]
  have q1o : ∀ a, a < h.next → q1.cells a = h.cells a := fun a h3 => by
    show Function.update f2.cells f2.next (some b) a = _
    rw [f2n, Function.update_of_ne (by omega)]
    exact f2o a h3
  set q2 : BwHeap := ⟨Function.update q1.cells p none, q1.next⟩ with hq2
  have eq2 : q1.free p = .ok q2 := by simp [BwHeap.free, q1o p hpl, hp, hq2]
  have q2w : BwHeap.WellFormed q2 := fun a h3 => by
    show Function.update q1.cells p none a = none
    by_cases e : a = p
    · rw [e, Function.update_self]
    · rw [Function.update_of_ne e]; exact q1w a h3
  have q2l : BwHeap.live q2 = BwHeap.live h := by
    have := live_free q1w eq2
    omega
  have q2c : q2.load (h.next + 2) = .ok b := by
    have : q2.cells (h.next + 2) = some b := by
      show Function.update q1.cells p none _ = _
      rw [Function.update_of_ne (by omega), q1c]
    simp [BwHeap.load, this]
  refine ⟨q2.alloc b, h.next + 3, none, ?_, by simp, wf_alloc q2w b, ?_, .inr (by omega), fun a h1 h2 => ?_, ?_⟩
  · simp only [f2p]
    rw [f2n]
    unfold ptrSetWeight
    rw [if_pos (show h.next + 2 ≠ p by omega)]
    change ((q1.free p).bind _).bind _ = _
    rw [eq2]
    simp only [Res.bind, q2c]
    rw [show q2.next = h.next + 3 from q1n]
  · show Function.update q2.cells q2.next (some b) (h.next + 3) = _
    rw [show q2.next = h.next + 3 from q1n, Function.update_self]
    rfl
  · show Function.update q2.cells q2.next (some b) a = _
    rw [show q2.next = h.next + 3 from q1n, Function.update_of_ne (by omega)]
    show Function.update q1.cells p none a = _
    rw [Function.update_of_ne h1]
    exact q1o a h2
  · have : searchEnd ⟨.ok b, (goldenLoop v o s0).evals, (goldenLoop v o s0).crit⟩ = .completed := by
      unfold searchEnd
      rw [if_neg hfirst', if_neg (by simp), if_neg]
      rintro ⟨e, he, hf⟩
      rw [hall.1 c3 e he] at hf
      cases hf
    rw [this, live_alloc, q2l]; rfl

/-- **C132 (programs).** Any number of spatial weights with their own bandwidth objects, any sequence of automatic selections with any answers of the
criterion, any stop requests, exceptions caught: there is never a memory error, no two spatial weights ever share an object, each holds what the searches
give on values, and the exact number of lost objects is the sum over the searches. Missing: that this number is 0 (`C132_memory_is_lost`). -/
theorem C132_program_partial {k : ℕ} (calls : List (SearchCall k)) : ∀ (h : BwHeap) (own : Fin k → ℕ) (val : Fin k → BandwidthWeight), BwHeap.WellFormed h →
    Function.Injective own → (∀ i, h.cells (own i) = some (val i)) →
    ∃ h' own', ptrProgram h own calls = .ok (h', own') ∧ BwHeap.WellFormed h' ∧ Function.Injective own' ∧
      (∀ i, h'.cells (own' i) = some (valueProgram val calls i)) ∧ BwHeap.live h' = BwHeap.live h + programLoss val calls := by
  induction calls with
  | nil => exact fun h own val hw hi hc => ⟨h, own, rfl, hw, hi, hc, rfl⟩
  | cons c cs ih =>
    intro h own val hw hi hc
    obtain ⟨h1, p1, e, hrun, -, w1, c1, hp1, o1, l1⟩ := C132_selection_partial h hw (own c.who) (val c.who) (hc c.who) c.lower c.upper c.oracle []
    have hne : ∀ i, i ≠ c.who → own i ≠ p1 := fun i hic heq => by
      rcases hp1 with h2 | h2
      · exact hic (hi (heq.trans h2))
      · have := wf_lt hw (hc i)
        omega
    obtain ⟨h', own', hr, w', i', c', l'⟩ := ih h1 (Function.update own c.who p1)
      (Function.update val c.who (afterSearch (val c.who) (optimize (val c.who) c.lower c.upper c.oracle []))) w1 (fun i j hij => by
        by_cases ei : i = c.who <;> by_cases ej : j = c.who
        · rw [ei, ej]
        · rw [ei, Function.update_self, Function.update_of_ne ej] at hij
          exact absurd hij.symm (hne j ej)
        · rw [ej, Function.update_self, Function.update_of_ne ei] at hij
          exact absurd hij (hne i ei)
        · rw [Function.update_of_ne ei, Function.update_of_ne ej] at hij
          exact hi hij) (fun i => by
        by_cases ei : i = c.who
        · rw [ei, Function.update_self, Function.update_self, c1]
        · rw [Function.update_of_ne ei, Function.update_of_ne ei, o1 _ (fun h2 => ei (hi h2)) (wf_lt hw (hc i)), hc])
    refine ⟨h', own', ?_, w', i', c', ?_⟩
    · unfold ptrProgram
      rw [hrun]
      exact hr
    · rw [l', l1, programLoss, Nat.add_assoc]

/-- **C132, refuted.** Memory is not given back: if nothing asks for a stop, every automatic selection loses at least one object, so that the number of
objects grows without bound in a program that selects again and again. -/
theorem C132_memory_is_lost {k : ℕ} (calls : List (SearchCall k)) (hs : ∀ c ∈ calls, ∀ j b, (c.oracle j b).1 = true) (h : BwHeap) (own : Fin k → ℕ)
    (val : Fin k → BandwidthWeight) (hw : BwHeap.WellFormed h) (hi : Function.Injective own) (hc : ∀ i, h.cells (own i) = some (val i)) :
    ∃ h' own', ptrProgram h own calls = .ok (h', own') ∧ BwHeap.live h + calls.length ≤ BwHeap.live h' := by
  obtain ⟨h', own', hr, -, -, -, hl⟩ := C132_program_partial calls h own val hw hi hc
  refine ⟨h', own', hr, ?_⟩
  rw [hl]
  clear hl hr hc hi hw
  suffices ∀ val : Fin k → BandwidthWeight, calls.length ≤ programLoss val calls from Nat.add_le_add_left (this val) _
  induction calls with
  | nil => exact fun _ => le_rfl
  | cons c cs ih =>
    intro val
    have h1 := ih (fun c' hc' => hs c' (by simp [hc'])) (Function.update val c.who (afterSearch (val c.who) (optimize (val c.who) c.lower c.upper c.oracle [])))
    have h2 : 1 ≤ lostObjects (searchEnd (optimize (val c.who) c.lower c.upper c.oracle [])) := by
      unfold searchEnd
      have hev : ∀ e ∈ (optimize (val c.who) c.lower c.upper c.oracle []).evals, e.success = true := by
        have hinit : ∀ e ∈ (goldenInit (val c.who) c.lower c.upper c.oracle []).evals, e.success = true := by
          intro e he
          simp only [goldenInit, List.mem_cons, List.not_mem_nil, or_false] at he
          rcases he with rfl | rfl <;> exact hs c (by simp) _ _
        have hloop : ∀ e ∈ (goldenLoop (val c.who) c.oracle (goldenStart (val c.who) c.lower c.upper c.oracle [])).evals, e.success = true := by
          refine (goldenLoop_induct (P := fun s => ∀ e ∈ s.evals, e.success = true) ?_ ?_).1
          · intro s hP _
            unfold goldenStep
            dsimp only
            split <;> intro e he <;> rcases List.mem_append.1 he with h' | h'
            · exact hP e h'
            · rw [List.mem_singleton.1 h']; exact hs c (by simp) _ _
            · exact hP e h'
            · rw [List.mem_singleton.1 h']; exact hs c (by simp) _ _
          · exact hinit
        rcases optimize_cases (val c.who) c.lower c.upper c.oracle [] with ⟨-, e⟩ | ⟨-, -, -, -, e⟩ | ⟨-, -, -, -, -, e⟩ | ⟨-, -, -, -, e⟩ <;> rw [e]
        · exact hinit
        · exact hinit
        · exact hloop
        · exact hloop
      split
      · simp [lostObjects]
      split
      · simp [lostObjects]
      rw [if_neg (by rintro ⟨e, he, hf⟩; rw [hev e he] at hf; cases hf)]
      simp [lostObjects]
    rw [programLoss, List.length_cons]
    omega

/-- Two spatial weights, each with an object of its own. -/
def twoOwners : BwHeap := ⟨fun a => if a < 2 then some ⟨1, false, .Gaussian⟩ else none, 2⟩

theorem twoOwners_ok : BwHeap.WellFormed twoOwners ∧ Function.Injective (fun i : Fin 2 => i.val) ∧
    ∀ i : Fin 2, twoOwners.cells i.val = some ((fun _ => ⟨1, false, .Gaussian⟩ : Fin 2 → BandwidthWeight) i) :=
  ⟨fun a ha => if_neg (not_lt.2 ha), Fin.val_injective, fun i => if_pos i.isLt⟩

/-- A selection that completes, one stopped at its start, and one that throws. -/
noncomputable def threeCalls : List (SearchCall 2) := [⟨0, 0, 1, fun _ b => (true, b.mBandwidth)⟩, ⟨1, 0, 1, fun _ _ => (false, 0)⟩, ⟨0, 0, 1, fun _ _ => (true, dblMax)⟩]

example := C132_selection_partial twoOwners twoOwners_ok.1 0 ⟨1, false, .Gaussian⟩ rfl 0 1 (fun _ b => (true, b.mBandwidth)) []
example := C132_program_partial threeCalls twoOwners _ _ twoOwners_ok.1 twoOwners_ok.2.1 twoOwners_ok.2.2
example := C132_memory_is_lost [⟨0, 0, 1, fun _ b => (true, b.mBandwidth)⟩, ⟨1, 0, 1, fun _ _ => (true, dblMax)⟩] (by simp) twoOwners _ _ twoOwners_ok.1
  twoOwners_ok.2.1 twoOwners_ok.2.2

end Verif.Props

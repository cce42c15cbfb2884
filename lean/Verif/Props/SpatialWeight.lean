import Verif.Lemmas.SpatialWeight

/-! # C13: ownership of spatial weights -/

namespace Verif.Props
open Verif Verif.Model Verif.Spec

variable {V : Type*} (cl : V → V)

/-- **C13 (memory safety).** After any history of calls the contract allows, starting from nothing, the next allowed call
never dereferences or deletes a dead object (deleting twice would be such an outcome). -/
theorem C13_memory_safe (ops : List (SWOp V)) (s : SWState V) (h : History cl .empty ops s) (op : SWOp V)
    (hA : Allowed s op) : ∃ t, op.step cl s = .ok t := by
  obtain ⟨t, e, -⟩ := step_ok (cl := cl) (history_inv h SWInv.empty) op hA
  exact ⟨t, e⟩

/-- **C13 (no sharing).** No two spatial weights, and no spatial weight and the caller, own the same object; every owned
object is alive. -/
theorem C13_no_sharing (ops : List (SWOp V)) (s : SWState V) (h : History cl .empty ops s) :
    (∀ i k i' k' a, s.ptr i k = some a → s.ptr i' k' = some a → i = i' ∧ k = k') ∧
    (∀ i k a, s.ptr i k = some a → Live s a ∧ s.ext a = false) := by
  have hi := history_inv h SWInv.empty
  exact ⟨hi.uniq, fun i k a e => ⟨hi.live _ _ _ e, hi.notExt _ _ _ e⟩⟩

/-- **C13 (isolation).** A call changes nothing seen through the spatial weights it is not about; changing or deleting the
caller's own objects changes nothing seen through any spatial weight. -/
theorem C13_isolation (ops : List (SWOp V)) (s t : SWState V) (h : History cl .empty ops s) (op : SWOp V)
    (hA : Allowed s op) (hst : op.step cl s = .ok t) (n : ℕ) (hn : ¬ touches op n) (k : Field) :
    seen t n k = seen s n k := by
  obtain ⟨t', e, ok⟩ := step_ok (cl := cl) (history_inv h SWInv.empty) op hA
  rw [hst] at e
  rw [Res.ok.inj e]
  exact ok.other n k hn

/-- **C13 (deep copy).** Copying yields clones of the values of the source; assigning does too, unless it is self
assignment. -/
theorem C13_copy_values (ops : List (SWOp V)) (s t : SWState V) (h : History cl .empty ops s) (i j : ℕ)
    (hA : Allowed s (.copyConstruct i j)) (hst : (SWOp.copyConstruct i j).step cl s = .ok t) (k : Field) :
    seen t i k = (seen s j k).map cl := by
  have hs := history_inv h SWInv.empty
  obtain ⟨hd, haj, hvw, hvd⟩ := hA
  have hij : j ≠ i := by rintro rfl; rw [hd] at haj; cases haj
  obtain ⟨h1, h2, h3, h4, h5, h6⟩ := construct_spec hs i hd
  obtain ⟨a, va, pa, hva, sa⟩ := seen_some hs hvw
  obtain ⟨b, vb, pb, hvb, sb⟩ := seen_some hs hvd
  obtain ⟨t', u, e1, e2, iu, al, -, pt, -, so, sw, sd⟩ := two_clones (cl := cl) h1 i h2
    (by rw [h6]; exact hs.dead _ _ hd) (by rw [h6]; exact hs.dead _ _ hd) (a := a) (b := b)
    (by rw [h5]; exact hva) (by rw [h5]; exact hvb)
  simp only [SWOp.step, SWState.copyConstruct, pa, e1, Res.ok_bind, pt j .d hij, h6, pb, e2, Res.ok.injEq] at hst
  subst hst
  cases k
  · rw [sw, sa]; rfl
  · rw [sd, sb]; rfl

/-- **C13 (deep copy, assignment).** -/
theorem C13_assign_values (ops : List (SWOp V)) (s t : SWState V) (h : History cl .empty ops s) (i j : ℕ) (hij : i ≠ j)
    (hA : Allowed s (.copyAssign i j)) (hst : (SWOp.copyAssign i j).step cl s = .ok t) (k : Field) :
    seen t i k = (seen s j k).map cl ∧ seen t j k = seen s j k := by
  have hs := history_inv h SWInv.empty
  refine ⟨?_, C13_isolation cl ops s t h _ hA hst j (fun e => hij e.symm) k⟩
  obtain ⟨hai, haj, hvw, hvd⟩ := hA
  obtain ⟨t', u, e1, e2, iu, al, x, pn, po, co, so⟩ := two_releases hs i
  obtain ⟨a, va, pa, hva, sa⟩ := seen_some iu (i := j) (k := .w) (by rw [po j _ (Ne.symm hij)]; exact hvw)
  obtain ⟨b, vb, pb, hvb, sb⟩ := seen_some iu (i := j) (k := .d) (by rw [po j _ (Ne.symm hij)]; exact hvd)
  obtain ⟨t'', u', e1', e2', iu', al', -, pt', -, so', sw, sd⟩ := two_clones (cl := cl) iu i (by rw [al]; exact hai)
    (pn _) (pn _) hva hvb
  simp only [SWOp.step, SWState.copyAssign, if_neg hij, e1, Res.ok_bind, e2, pa, e1', pt' j .d (Ne.symm hij), pb, e2',
    Res.ok.injEq] at hst
  subst hst
  rw [← so j k (Ne.symm hij)]
  cases k
  · rw [sw, sa]; rfl
  · rw [sd, sb]; rfl

/-- **C13 (set).** Setting a member from an object of the caller stores a clone of its value; later changes of the caller's
object are invisible by `C13_isolation`. -/
theorem C13_set_values (ops : List (SWOp V)) (s t : SWState V) (h : History cl .empty ops s) (i : ℕ) (k : Field) (a : ℕ)
    (v : V) (hv : s.cells a = some v) (hA : Allowed s (.setRef i k a)) (hst : (SWOp.setRef i k a).step cl s = .ok t) :
    seen t i k = some (cl v) := by
  have hs := history_inv h SWInv.empty
  obtain ⟨hai, hl, hne⟩ := hA
  obtain ⟨t', e1, i1, al1, x1, -, p1, c1⟩ := release_spec hs i k
  have hv' : t'.cells a = some v := by rw [c1 a hne]; exact hv
  obtain ⟨u, e2, i2, al2, x2, p2, c2, n2⟩ := assignClone_spec (cl := cl) i1 i k (by rw [al1]; exact hai)
    (by rw [p1]; simp) hv'
  simp only [SWOp.step, SWState.setRef, e1, Res.ok_bind, e2, Res.ok.injEq] at hst
  subst hst
  unfold seen
  rw [p2]; simp [n2]

/-- **C13 (moves).** A moved-from object is empty and the target sees what the source saw. -/
theorem C13_move_values (ops : List (SWOp V)) (s t : SWState V) (h : History cl .empty ops s) (i j : ℕ)
    (hA : Allowed s (.moveConstruct i j)) (hst : (SWOp.moveConstruct i j).step cl s = .ok t) (k : Field) :
    seen t i k = seen s j k ∧ t.ptr j k = none := by
  have hs := history_inv h SWInv.empty
  obtain ⟨hd, haj⟩ := hA
  have hij : i ≠ j := by rintro rfl; rw [hd] at haj; cases haj
  obtain ⟨h1, h2, h3, h4, h5, h6⟩ := construct_spec hs i hd
  obtain ⟨i1, al1, x1, c1, p1⟩ := take_spec h1 i j .w hij h2 (by rw [h6]; exact hs.dead _ _ hd)
  obtain ⟨i2, al2, x2, c2, p2⟩ := take_spec i1 i j .d hij (by rw [al1]; exact h2)
    (by rw [p1]; simp [h6, hs.dead _ _ hd])
  simp only [SWOp.step, Res.ok.injEq] at hst
  subst hst
  have hji : j ≠ i := Ne.symm hij
  simp only [SWState.moveConstruct, seen, p2, p1, c2, c1, h5, h6]
  cases k <;> simp [hij, hji]

/-- **C13 (value semantics).** After any history the contract allows, every further allowed call changes what is seen through the
members of all spatial weights exactly as the value semantics `seenAfter` says: copies hold clones of the copied values, moves carry
the values over and leave nothing behind, setting a member changes that member of that object only, and nothing else changes. -/
theorem C13_value_semantics (ops : List (SWOp V)) (s t : SWState V) (h : History cl .empty ops s) (op : SWOp V)
    (hA : Allowed s op) (hst : op.step cl s = .ok t) (n : ℕ) (k : Field) : seen t n k = seenAfter cl s op n k := by
  have hs := history_inv h SWInv.empty
  by_cases hn : ¬ touches op n
  · rw [C13_isolation cl ops s t h op hA hst n hn k]
    cases op <;> simp_all [touches, seenAfter]
  replace hn := not_not.1 hn
  cases op with
  | construct i =>
    obtain rfl : n = i := hn
    obtain ⟨h1, h2, h3, h4, h5, h6⟩ := construct_spec hs n hA
    have := Res.ok.inj hst
    subst this
    simp [seenAfter, seen, h6, hs.dead _ _ hA]
  | constructFrom i pw pd =>
    obtain rfl : n = i := hn
    obtain ⟨hd, ⟨a, rfl, hla⟩, b, rfl, hlb⟩ := hA
    obtain ⟨h1, h2, h3, h4, h5, h6⟩ := construct_spec hs n hd
    obtain ⟨va, hva⟩ := Option.ne_none_iff_exists'.1 hla
    obtain ⟨vb, hvb⟩ := Option.ne_none_iff_exists'.1 hlb
    obtain ⟨t', u, e1, e2, iu, al, -, pt, -, so, sw, sd⟩ := two_clones (cl := cl) h1 n h2
      (by rw [h6]; exact hs.dead _ _ hd) (by rw [h6]; exact hs.dead _ _ hd) (a := a) (b := b)
      (by rw [h5]; exact hva) (by rw [h5]; exact hvb)
    simp only [SWOp.step, SWState.constructFrom, e1, Res.ok_bind, e2, Res.ok.injEq] at hst
    subst hst
    cases k
    · simp [seenAfter, sw, hva]
    · simp [seenAfter, sd, hvb]
  | copyConstruct i j =>
    obtain rfl : n = i := hn
    rw [C13_copy_values cl ops s t h n j hA hst k]
    simp [seenAfter]
  | moveConstruct i j =>
    obtain ⟨e1, e2⟩ := C13_move_values cl ops s t h i j hA hst k
    have hij : i ≠ j := by rintro rfl; have := hA.1; rw [hA.2] at this; cases this
    rcases hn with rfl | rfl
    · simp [seenAfter, e1]
    · simp [seenAfter, Ne.symm hij, seen, e2]
  | destroy i =>
    obtain rfl : n = i := hn
    obtain ⟨t', u, e1, e2, iu, al, x, pn, po, co, so⟩ := two_releases hs n
    simp only [SWOp.step, SWState.destroy, e1, Res.ok_bind, e2, Res.ok.injEq] at hst
    subst hst
    simp [seenAfter, seen, pn]
  | copyAssign i j =>
    obtain rfl : n = i := hn
    by_cases hij : n = j
    · subst hij
      simp only [SWOp.step, SWState.copyAssign, if_true, Res.ok.injEq] at hst
      subst hst
      simp [seenAfter]
    · rw [(C13_assign_values cl ops s t h n j hij hA hst k).1]
      simp [seenAfter, hij]
  | moveAssign i j =>
    by_cases hij : i = j
    · subst hij
      simp only [SWOp.step, SWState.moveAssign, if_true, Res.ok.injEq] at hst
      subst hst
      simp [seenAfter]
    · obtain ⟨hai, haj⟩ := hA
      obtain ⟨t', u, e1, e2, iu, al, x, pn, po, co, so⟩ := two_releases hs i
      obtain ⟨i1, al1, x1, c1, p1⟩ := take_spec iu i j .w hij (by rw [al]; exact hai) (pn _)
      obtain ⟨i2, al2, x2, c2, p2⟩ := take_spec i1 i j .d hij (by rw [al1, al]; exact hai) (by rw [p1]; simp [pn])
      simp only [SWOp.step, SWState.moveAssign, if_neg hij, e1, Res.ok_bind, e2, Res.ok.injEq] at hst
      subst hst
      have hji : j ≠ i := Ne.symm hij
      rcases hn with rfl | rfl
      · have : seen ((u.take n j .w).take n j .d) n k = seen u j k := by
          simp only [seen, p2, p1, c2, c1]
          cases k <;> simp [hji]
        rw [this, so j k hji]
        simp [seenAfter, hij]
      · simp only [seen, p2, p1, c2, c1, seenAfter, if_neg hij]
        cases k <;> simp [hji]
  | setPtr i k' p =>
    obtain rfl : n = i := hn
    obtain ⟨hai, hl⟩ := hA
    by_cases hc : p ≠ none ∧ p ≠ s.ptr n k'
    · obtain ⟨a, rfl⟩ := Option.ne_none_iff_exists'.1 hc.1
      obtain ⟨v, hv⟩ := Option.ne_none_iff_exists'.1 (hl a rfl)
      obtain ⟨t', e1, i1, al1, x1, -, p1, c1⟩ := release_spec hs n k'
      have hv' : t'.cells a = some v := by rw [c1 a (fun e => hc.2 e.symm)]; exact hv
      obtain ⟨u, e2, i2, al2, x2, p2, c2, n2⟩ := assignClone_spec (cl := cl) i1 n k' (by rw [al1]; exact hai)
        (by rw [p1]; simp) hv'
      simp only [SWOp.step, SWState.setPtr, if_pos hc, e1, Res.ok_bind, e2, Res.ok.injEq] at hst
      subst hst
      by_cases hk : k = k'
      · subst hk
        simp only [seenAfter, true_and, if_pos hc]
        simp [seen, p2, n2, hv]
      · simp only [seenAfter, hk, false_and, and_false, if_false]
        refine seen_congr (by rw [p2, if_neg (fun e => hk e.2), p1, if_neg (fun e => hk e.2)]) fun b hb => ?_
        have hbn : s.ptr n k' ≠ some b := fun e => hk (hs.uniq _ _ _ _ _ hb e).2
        rw [c2 b (by rw [c1 b hbn]; exact hs.live _ _ _ hb), c1 b hbn]
    · simp only [SWOp.step, SWState.setPtr, if_neg hc, Res.ok.injEq] at hst
      subst hst
      simp only [seenAfter, true_and]
      rw [if_neg (fun e => hc e.2)]
  | setRef i k' a =>
    obtain rfl : n = i := hn
    obtain ⟨hai, hl, hne⟩ := hA
    obtain ⟨v, hv⟩ := Option.ne_none_iff_exists'.1 hl
    obtain ⟨t', e1, i1, al1, x1, -, p1, c1⟩ := release_spec hs n k'
    have hv' : t'.cells a = some v := by rw [c1 a hne]; exact hv
    obtain ⟨u, e2, i2, al2, x2, p2, c2, n2⟩ := assignClone_spec (cl := cl) i1 n k' (by rw [al1]; exact hai)
      (by rw [p1]; simp) hv'
    simp only [SWOp.step, SWState.setRef, e1, Res.ok_bind, e2, Res.ok.injEq] at hst
    subst hst
    by_cases hk : k = k'
    · subst hk
      simp [seenAfter, seen, p2, n2, hv]
    · simp only [seenAfter, hk, and_false, if_false]
      refine seen_congr (by rw [p2, if_neg (fun e => hk e.2), p1, if_neg (fun e => hk e.2)]) fun b hb => ?_
      have hbn : s.ptr n k' ≠ some b := fun e => hk (hs.uniq _ _ _ _ _ hb e).2
      rw [c2 b (by rw [c1 b hbn]; exact hs.live _ _ _ hb), c1 b hbn]
  | write i k' v =>
    obtain rfl : n = i := hn
    obtain ⟨hai, hp⟩ := hA
    obtain ⟨a, va, pa, hva, sa⟩ := seen_some hs hp
    simp only [SWOp.step, SWState.write, pa, hva, Res.ok.injEq] at hst
    subst hst
    by_cases hk : k = k'
    · subst hk
      simp [seenAfter, seen, pa]
    · simp only [seenAfter, hk, and_false, if_false]
      refine seen_congr rfl fun b hb => ?_
      have : b ≠ a := by
        rintro rfl
        exact hk (hs.uniq _ _ _ _ _ hb pa).2
      simp [this]
  | use i => exact hn.elim
  | extNew v => exact hn.elim
  | extWrite a v => exact hn.elim
  | extDelete a => exact hn.elim

/-- **C13 (no leak).** When all spatial weights have been destroyed, every live object is the caller's. -/
theorem C13_no_leak (ops : List (SWOp V)) (s : SWState V) (h : History cl .empty ops s)
    (hdead : ∀ i, s.alive i = false) (a : ℕ) (ha : Live s a) : s.ext a = true := by
  have hi := history_inv h SWInv.empty
  rcases hi.noLeak a ha with e | ⟨i, k, e⟩
  · exact e
  · rw [hi.dead i k (hdead i)] at e; cases e

/-- The contract clause on copying is needed: copying a default-constructed (or moved-from) spatial weight dereferences a null
pointer. -/
theorem C13_copy_of_empty_ub :
    ∃ s : SWState ℕ, History id .empty [.construct 0] s ∧ (SWOp.copyConstruct 1 0).step id s = .ub :=
  ⟨_, History.snoc (ops := []) (History.nil _) (rfl : Allowed (V := ℕ) .empty (.construct 0)) rfl, rfl⟩

/-- The contract clause on references is needed: `sw.setWeight(*sw.weight())` reads the object it has just deleted. -/
theorem C13_self_reference_ub (s : SWState V) (hs : ∃ ops, History cl .empty ops s) (i : ℕ) (k : Field) (a : ℕ)
    (hp : s.ptr i k = some a) : (SWOp.setRef i k a).step cl s = .ub := by
  obtain ⟨ops, h⟩ := hs
  have hi := history_inv h SWInv.empty
  obtain ⟨v, hv⟩ := Option.ne_none_iff_exists'.1 (hi.live _ _ _ hp)
  simp [SWOp.step, SWState.setRef, SWState.release, SWState.assignClone, hp, hv]

/-- A non-trivial allowed history: the caller makes two objects, builds a spatial weight from them, copies it, changes the
copy's weight, and destroys the original. -/
example : ∃ s : SWState ℕ, History id .empty
    [.extNew 7, .extNew 8, .constructFrom 0 (some 0) (some 1), .copyConstruct 1 0, .write 1 .w 9, .destroy 0] s ∧
    seen s 1 .w = some 9 ∧ seen s 1 .d = some 8 := by
  have h0 := History.nil (cl := id) (V := ℕ) .empty
  have h1 := History.snoc (op := .extNew 7) h0 trivial rfl
  have h2 := History.snoc (op := .extNew 8) h1 trivial rfl
  have h3 := History.snoc (op := .constructFrom 0 (some 0) (some 1)) h2
    ⟨rfl, ⟨0, rfl, by simp [Live, SWState.extNew, SWState.empty]⟩, ⟨1, rfl, by
      simp [Live, SWState.extNew, SWState.empty]⟩⟩ rfl
  have h4 := History.snoc (op := .copyConstruct 1 0) h3 ⟨rfl, rfl, by simp [Valid]⟩ rfl
  have h5 := History.snoc (op := .write 1 .w 9) h4 ⟨rfl, by simp⟩ rfl
  exact ⟨_, History.snoc (op := .destroy 0) h5 rfl rfl, rfl, rfl⟩

end Verif.Props

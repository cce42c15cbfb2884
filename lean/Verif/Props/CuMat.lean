import Verif.Model.CuMat
import Mathlib.Tactic.Ring

/-! # C49: device buffers are freed once -/

namespace Verif.Props
open Verif Verif.Model

/-- The object owns a buffer: its destructor frees it. -/
def Owns (h : CuHeap) (o a : ℕ) : Prop := ∃ t, h.objs o = some t ∧ t.mem = some a ∧ t.rel = true

/-- The programs for which the claim holds. Objects are constructed, copied from objects whose buffer is still there, moved from and
assigned from *owning* objects; assignments by copy are between different objects of the same size, to an owner; assignments by move
go to an object that owns nothing. Views may be made and destroyed. -/
def Disciplined (h : CuHeap) : CuOp → Prop
  | .default o => h.objs o = none
  | .create o _ => h.objs o = none
  | .copy o src => h.objs o = none ∧ ∃ s a, h.objs src = some s ∧ s.mem = some a ∧ h.frees a = 0 ∧ s.nb ≤ h.size a ∧ a < h.next
  | .move o src => h.objs o = none ∧ ∃ a, Owns h src a
  | .view o src => h.objs o = none ∧ ∃ s, h.objs src = some s
  | .copyAssign o src => o ≠ src ∧ ∃ t a s b, h.objs o = some t ∧ t.mem = some a ∧ t.rel = true ∧ h.objs src = some s ∧ s.mem = some b ∧
      s.rel = true ∧ t.nb = s.nb ∧ s.nb ≤ h.size b
  | .moveAssign o src => o ≠ src ∧ (∃ t, h.objs o = some t ∧ t.rel = false) ∧ ∃ a, Owns h src a
  | .transAssign o src => o ≠ src ∧ ∃ t a s b, h.objs o = some t ∧ t.mem = some a ∧ t.rel = true ∧ h.objs src = some s ∧ s.mem = some b ∧
      s.rel = true ∧ s.nb ≤ h.size b
  | .destroy o => ∃ t, h.objs o = some t

/-- Every step of the program is disciplined in the state it is executed in. -/
def DisciplinedRun (h : CuHeap) : List CuOp → Prop
  | [] => True
  | op :: ops => Disciplined h op ∧ ∀ h', h.step op = .ok h' → DisciplinedRun h' ops

/-- Every buffer that has not been freed has exactly one owner, and no freed buffer has one. -/
structure OwnInv (h : CuHeap) : Prop where
  valid : ∀ o a, Owns h o a → a < h.next ∧ h.frees a = 0
  uniq : ∀ o o' a, Owns h o a → Owns h o' a → o = o'
  owned : ∀ a, a < h.next → h.frees a = 0 → ∃ o, Owns h o a
  once : ∀ a, h.frees a ≤ 1
  fresh : ∀ a, h.next ≤ a → h.frees a = 0

theorem ownInv_empty : OwnInv CuHeap.empty where
  valid := by rintro o a ⟨t, h, -⟩; simp [CuHeap.empty] at h
  uniq := by rintro o o' a ⟨t, h, -⟩; simp [CuHeap.empty] at h
  owned := by intro a h; simp [CuHeap.empty] at h
  once := by intro a; simp [CuHeap.empty]
  fresh := by intro a _; rfl

theorem owns_set {h : CuHeap} {o o' a : ℕ} {v : CuObj} : Owns (h.set o v) o' a ↔
    (o' = o ∧ v.mem = some a ∧ v.rel = true) ∨ (o' ≠ o ∧ Owns h o' a) := by
  unfold Owns CuHeap.set
  by_cases ho : o' = o
  · subst ho; simp
  · simp [ho, Function.update_of_ne ho]

theorem owns_alloc {h : CuHeap} {nb o a : ℕ} : Owns (h.alloc nb) o a ↔ Owns h o a := Iff.rfl

theorem owns_free {h : CuHeap} {m : Option ℕ} {o a : ℕ} : Owns (h.free m) o a ↔ Owns h o a := by
  cases m <;> exact Iff.rfl

@[simp] theorem frees_set (h : CuHeap) (o : ℕ) (v : CuObj) : (h.set o v).frees = h.frees := rfl
@[simp] theorem next_set (h : CuHeap) (o : ℕ) (v : CuObj) : (h.set o v).next = h.next := rfl
@[simp] theorem size_set (h : CuHeap) (o : ℕ) (v : CuObj) : (h.set o v).size = h.size := rfl
@[simp] theorem frees_alloc (h : CuHeap) (nb : ℕ) : (h.alloc nb).frees = h.frees := rfl
@[simp] theorem next_alloc (h : CuHeap) (nb : ℕ) : (h.alloc nb).next = h.next + 1 := rfl
@[simp] theorem next_free (h : CuHeap) (m : Option ℕ) : (h.free m).next = h.next := by cases m <;> rfl
@[simp] theorem size_free (h : CuHeap) (m : Option ℕ) : (h.free m).size = h.size := by cases m <;> rfl
@[simp] theorem objs_free (h : CuHeap) (m : Option ℕ) : (h.free m).objs = h.objs := by cases m <;> rfl

/-- A new owner of a new buffer. -/
theorem inv_new {h : CuHeap} (hi : OwnInv h) {o nb nb' : ℕ} (ho : ∀ a, ¬ Owns h o a) :
    OwnInv ((h.alloc nb).set o ⟨some h.next, true, nb'⟩) where
  valid := by
    intro o' a hown
    rcases owns_set.1 hown with ⟨-, hm, -⟩ | ⟨-, hown⟩
    · have : h.next = a := by simpa using hm
      subst this
      exact ⟨by simp, hi.fresh _ le_rfl⟩
    · have := hi.valid o' a hown
      exact ⟨by simp; omega, this.2⟩
  uniq := by
    intro o1 o2 a h1 h2
    rcases owns_set.1 h1 with ⟨rfl, hm, -⟩ | ⟨hne1, h1⟩ <;> rcases owns_set.1 h2 with ⟨e2, hm2, -⟩ | ⟨hne2, h2⟩
    · exact e2.symm
    · have : h.next = a := by simpa using hm
      have := (hi.valid _ _ h2).1; omega
    · have : h.next = a := by simpa using hm2
      have := (hi.valid _ _ h1).1; omega
    · exact hi.uniq _ _ _ h1 h2
  owned := by
    intro a ha hf
    by_cases hn : a = h.next
    · exact ⟨o, owns_set.2 (Or.inl ⟨rfl, by simp [hn], rfl⟩)⟩
    · obtain ⟨o', ho'⟩ := hi.owned a (by simp at ha; omega) hf
      refine ⟨o', owns_set.2 (Or.inr ⟨?_, ho'⟩)⟩
      rintro rfl
      exact ho a ho'
  once := hi.once
  fresh := by intro a ha; exact hi.fresh a (by simp at ha; omega)

/-- Changing an object that owns nothing to another that owns nothing. -/
theorem inv_nonowner {h : CuHeap} (hi : OwnInv h) {o : ℕ} {v : CuObj} (hv : v.rel = false) (ho : ∀ a, ¬ Owns h o a) :
    OwnInv (h.set o v) where
  valid := by
    intro o' a hown
    rcases owns_set.1 hown with ⟨-, -, hr⟩ | ⟨-, hown⟩
    · rw [hv] at hr; cases hr
    · exact hi.valid o' a hown
  uniq := by
    intro o1 o2 a h1 h2
    rcases owns_set.1 h1 with ⟨-, -, hr⟩ | ⟨-, h1⟩
    · rw [hv] at hr; cases hr
    · rcases owns_set.1 h2 with ⟨-, -, hr⟩ | ⟨-, h2⟩
      · rw [hv] at hr; cases hr
      · exact hi.uniq _ _ _ h1 h2
  owned := by
    intro a ha hf
    obtain ⟨o', ho'⟩ := hi.owned a ha hf
    refine ⟨o', owns_set.2 (Or.inr ⟨?_, ho'⟩)⟩
    rintro rfl
    exact ho a ho'
  once := hi.once
  fresh := hi.fresh

/-- Ownership of one buffer passes from `src` to `o`. -/
theorem inv_pass {h : CuHeap} (hi : OwnInv h) {o src a : ℕ} {v w : CuObj} (hne : o ≠ src) (ho : ∀ a, ¬ Owns h o a) (hs : Owns h src a)
    (hv : v.mem = some a) (hvr : v.rel = true) (hw : w.rel = false) : OwnInv ((h.set o v).set src w) := by
  have key : ∀ o' b, Owns ((h.set o v).set src w) o' b ↔ (o' = o ∧ b = a) ∨ (o' ≠ o ∧ o' ≠ src ∧ Owns h o' b) := by
    intro o' b
    rw [owns_set, owns_set]
    constructor
    · rintro (⟨-, -, hr⟩ | ⟨h1, ⟨h2, h3, -⟩ | ⟨h2, h3⟩⟩)
      · rw [hw] at hr; cases hr
      · exact Or.inl ⟨h2, by rw [hv] at h3; exact (Option.some.inj h3).symm⟩
      · exact Or.inr ⟨h2, h1, h3⟩
    · rintro (⟨rfl, rfl⟩ | ⟨h1, h2, h3⟩)
      · exact Or.inr ⟨hne, Or.inl ⟨rfl, hv, hvr⟩⟩
      · exact Or.inr ⟨h2, Or.inr ⟨h1, h3⟩⟩
  refine ⟨?_, ?_, ?_, hi.once, hi.fresh⟩
  · intro o' b hb
    rcases (key o' b).1 hb with ⟨-, rfl⟩ | ⟨-, -, hb⟩
    · exact hi.valid src b hs
    · exact hi.valid o' b hb
  · intro o1 o2 b h1 h2
    rcases (key o1 b).1 h1 with ⟨rfl, rfl⟩ | ⟨a1, a2, a3⟩ <;> rcases (key o2 b).1 h2 with ⟨e, e'⟩ | ⟨b1, b2, b3⟩
    · exact e.symm
    · exact absurd (hi.uniq _ _ _ b3 hs) b2
    · subst e'; exact absurd (hi.uniq _ _ _ a3 hs) a2
    · exact hi.uniq _ _ _ a3 b3
  · intro b hb hf
    obtain ⟨o', ho'⟩ := hi.owned b hb hf
    by_cases e : o' = src
    · subst e
      obtain ⟨t, ht, hm, hr⟩ := ho'
      obtain ⟨t', ht', hm', hr'⟩ := hs
      have : b = a := by
        rw [ht] at ht'; cases ht'; rw [hm] at hm'; exact Option.some.inj hm'
      exact ⟨o, (key o b).2 (Or.inl ⟨rfl, this⟩)⟩
    · refine ⟨o', (key o' b).2 (Or.inr ⟨?_, e, ho'⟩)⟩
      rintro rfl
      exact ho b ho'

theorem owns_mem {h : CuHeap} {o a b : ℕ} (h1 : Owns h o a) (h2 : Owns h o b) : a = b := by
  obtain ⟨t, ht, hm, -⟩ := h1
  obtain ⟨t', ht', hm', -⟩ := h2
  rw [ht] at ht'; cases ht'; rw [hm] at hm'; exact Option.some.inj hm'

/-- The owner of a buffer gives it back and gets a new one. -/
theorem inv_replace {h : CuHeap} (hi : OwnInv h) {o a nb nb' : ℕ} (ho : Owns h o a) :
    OwnInv (((h.free (some a)).alloc nb).set o ⟨some h.next, true, nb'⟩) := by
  have hval := hi.valid o a ho
  have hfr : ∀ b, (((h.free (some a)).alloc nb).set o ⟨some h.next, true, nb'⟩).frees b = if b = a then 1 else h.frees b := by
    intro b
    simp only [CuHeap.free, CuHeap.alloc, CuHeap.set]
    by_cases e : b = a
    · subst e; simp [hval.2]
    · simp [e]
  refine ⟨?_, ?_, ?_, ?_, ?_⟩
  · intro o' b hb
    rw [hfr]
    rcases owns_set.1 hb with ⟨-, hm, -⟩ | ⟨hne, hb⟩
    · have e : h.next = b := by simpa using hm
      subst e
      refine ⟨by simp, ?_⟩
      rw [if_neg (by omega)]; exact hi.fresh _ le_rfl
    · have hb' : Owns h o' b := hb
      have := hi.valid o' b hb'
      refine ⟨by simp; omega, ?_⟩
      rw [if_neg]
      · exact this.2
      · rintro rfl; exact hne (hi.uniq _ _ _ hb' ho)
  · intro o1 o2 b h1 h2
    rcases owns_set.1 h1 with ⟨rfl, hm, -⟩ | ⟨hne1, h1⟩ <;> rcases owns_set.1 h2 with ⟨e2, hm2, -⟩ | ⟨hne2, h2⟩
    · exact e2.symm
    · have : h.next = b := by simpa using hm
      have := (hi.valid _ _ (show Owns h o2 b from h2)).1; omega
    · have : h.next = b := by simpa using hm2
      have := (hi.valid _ _ (show Owns h o1 b from h1)).1; omega
    · exact hi.uniq _ _ _ (show Owns h o1 b from h1) h2
  · intro b hb hf
    rw [hfr] at hf
    by_cases hn : b = h.next
    · exact ⟨o, owns_set.2 (Or.inl ⟨rfl, by simp [hn], rfl⟩)⟩
    · have hba : b ≠ a := by rintro rfl; simp at hf
      rw [if_neg hba] at hf
      obtain ⟨o', ho'⟩ := hi.owned b (by simp at hb; omega) hf
      refine ⟨o', owns_set.2 (Or.inr ⟨?_, ho'⟩)⟩
      rintro rfl
      exact hba (owns_mem ho' ho)
  · intro b
    rw [hfr]
    split
    · exact le_rfl
    · exact hi.once b
  · intro b hb
    rw [hfr, if_neg (by simp at hb; omega)]
    exact hi.fresh b (by simp at hb; omega)

theorem owns_iff {h : CuHeap} {o a : ℕ} {t : CuObj} (ht : h.objs o = some t) : Owns h o a ↔ t.mem = some a ∧ t.rel = true := by
  unfold Owns
  constructor
  · rintro ⟨t', ht', hm⟩
    rw [ht] at ht'; cases ht'; exact hm
  · intro hm; exact ⟨t, ht, hm⟩

theorem not_owns_of_none {h : CuHeap} {o : ℕ} (ho : h.objs o = none) (a : ℕ) : ¬ Owns h o a := by
  rintro ⟨t, ht, -⟩; rw [ho] at ht; cases ht

/-- One disciplined step succeeds and keeps the invariant. -/
theorem step_inv {h : CuHeap} (hi : OwnInv h) (op : CuOp) (hd : Disciplined h op) : ∃ h', h.step op = .ok h' ∧ OwnInv h' := by
  cases op with
  | default o =>
    have hd' : h.objs o = none := hd
    exact ⟨h.set o ⟨none, false, 0⟩, by simp only [CuHeap.step]; rw [if_pos hd'], inv_nonowner hi rfl (not_owns_of_none hd)⟩
  | create o nb =>
    have hd' : h.objs o = none := hd
    exact ⟨(h.alloc nb).set o ⟨some h.next, true, nb⟩, by simp only [CuHeap.step]; rw [if_pos hd'], inv_new hi (not_owns_of_none hd)⟩
  | copy o src =>
    obtain ⟨ho, s, a, hs, hm, hf, hsz, hlt⟩ := hd
    refine ⟨_, by
      simp only [CuHeap.step, ho, hs]
      rw [if_pos]
      right
      refine ⟨h.next, a, rfl, hm, hi.fresh _ le_rfl, hf, ?_, ?_⟩
      · simp [CuHeap.alloc, CuHeap.set]
      · simp [CuHeap.alloc, CuHeap.set, Function.update_of_ne (show a ≠ h.next by omega), hsz], inv_new hi (not_owns_of_none ho)⟩
  | move o src =>
    obtain ⟨ho, a, s, hs, hm, hr⟩ := hd
    refine ⟨(h.set o ⟨s.mem, true, s.nb⟩).set src { s with rel := false }, by simp only [CuHeap.step, ho, hs], inv_pass hi ?_ (not_owns_of_none ho) ⟨s, hs, hm, hr⟩ hm rfl rfl⟩
    rintro rfl; rw [ho] at hs; cases hs
  | view o src =>
    obtain ⟨ho, s, hs⟩ := hd
    exact ⟨h.set o ⟨s.mem, false, s.nb⟩, by simp only [CuHeap.step, ho, hs], inv_nonowner hi rfl (not_owns_of_none ho)⟩
  | copyAssign o src =>
    obtain ⟨hne, t, a, s, b, ht, hm, hr, hs, hsm, hsr, hnb, hsz⟩ := hd
    have hoa : Owns h o a := ⟨t, ht, hm, hr⟩
    have hob : Owns h src b := ⟨s, hs, hsm, hsr⟩
    have hbv := hi.valid src b hob
    have hba : b ≠ a := by rintro rfl; exact hne (hi.uniq _ _ _ hoa hob)
    refine ⟨((h.free (some a)).alloc s.nb).set o ⟨some h.next, true, t.nb⟩, ?_, inv_replace hi hoa⟩
    simp only [CuHeap.step, ht, hs]
    have hc : t.mem ≠ none ∧ t.rel = true := ⟨by rw [hm]; simp, hr⟩
    have hh : (if t.mem ≠ none ∧ t.rel = true then h.free t.mem else h) = h.free (some a) := by rw [if_pos hc, hm]
    rw [hh, if_neg hne, hr, if_pos]
    right
    refine ⟨h.next, b, rfl, hsm, ?_, ?_, ?_, ?_⟩
    · have : h.next ≠ a := by have := (hi.valid o a hoa).1; omega
      simp [CuHeap.free, this, hi.fresh _ le_rfl]
    · simp [CuHeap.free, hba, hbv.2]
    · simp [CuHeap.alloc, CuHeap.set, hnb]
    · have : b ≠ h.next := by omega
      simp [CuHeap.alloc, CuHeap.set, CuHeap.free, this, hnb, hsz]
  | moveAssign o src =>
    obtain ⟨hne, ⟨t, ht, htr⟩, a, s, hs, hm, hr⟩ := hd
    have hset : (h.set o ⟨s.mem, true, s.nb⟩).objs src = some s := by
      simp [CuHeap.set, Function.update_of_ne (Ne.symm hne), hs]
    refine ⟨(h.set o ⟨s.mem, true, s.nb⟩).set src { s with rel := false }, by simp only [CuHeap.step, ht, hs, hset],
      inv_pass hi hne ?_ ⟨s, hs, hm, hr⟩ hm rfl rfl⟩
    intro b hb
    have := ((owns_iff ht).1 hb).2
    rw [htr] at this; cases this
  | transAssign o src =>
    obtain ⟨hne, t, a, s, b, ht, hm, hr, hs, hsm, hsr, hsz⟩ := hd
    have hoa : Owns h o a := ⟨t, ht, hm, hr⟩
    have hob : Owns h src b := ⟨s, hs, hsm, hsr⟩
    have hbv := hi.valid src b hob
    have hba : b ≠ a := by rintro rfl; exact hne (hi.uniq _ _ _ hoa hob)
    refine ⟨((h.free (some a)).alloc s.nb).set o ⟨some h.next, true, s.nb⟩, ?_, inv_replace hi hoa⟩
    simp only [CuHeap.step, ht, hs]
    rw [if_neg hne, hm, hr, if_pos]
    right
    refine ⟨h.next, b, rfl, hsm, ?_, ?_, ?_, ?_⟩
    · have : h.next ≠ a := by have := (hi.valid o a hoa).1; omega
      simp [CuHeap.free, this, hi.fresh _ le_rfl]
    · simp [CuHeap.free, hba, hbv.2]
    · simp [CuHeap.alloc, CuHeap.set]
    · have : b ≠ h.next := by omega
      simp [CuHeap.alloc, CuHeap.set, CuHeap.free, this, hsz]
  | destroy o =>
    obtain ⟨t, ht⟩ := hd
    refine ⟨{ (if t.rel = true ∧ t.mem ≠ none then h.free t.mem else h) with
      objs := Function.update (if t.rel = true ∧ t.mem ≠ none then h.free t.mem else h).objs o none }, by simp only [CuHeap.step, ht], ?_⟩
    have key : ∀ (g : CuHeap), g.objs = h.objs → ∀ o' b, Owns { g with objs := Function.update g.objs o none } o' b ↔
        (o' ≠ o ∧ Owns h o' b) := by
      intro g hg o' b
      unfold Owns
      by_cases e : o' = o
      · subst e; simp
      · simp [e, hg]
    by_cases hc : t.rel = true ∧ t.mem ≠ none
    · obtain ⟨a, ha⟩ := Option.ne_none_iff_exists'.1 hc.2
      have hoa : Owns h o a := ⟨t, ht, ha, hc.1⟩
      have hval := hi.valid o a hoa
      rw [if_pos hc, ha]
      have hk := key (h.free (some a)) rfl
      have hfr : ∀ b, (h.free (some a)).frees b = if b = a then 1 else h.frees b := by
        intro b
        simp only [CuHeap.free]
        by_cases e : b = a
        · subst e; simp [hval.2]
        · simp [e]
      refine ⟨?_, ?_, ?_, ?_, ?_⟩
      · intro o' b hb
        obtain ⟨e, hb'⟩ := (hk o' b).1 hb
        have := hi.valid o' b hb'
        refine ⟨this.1, ?_⟩
        show (h.free (some a)).frees b = 0
        rw [hfr, if_neg]
        · exact this.2
        · rintro rfl; exact e (hi.uniq _ _ _ hb' hoa)
      · intro o1 o2 b h1 h2
        exact hi.uniq _ _ _ ((hk o1 b).1 h1).2 ((hk o2 b).1 h2).2
      · intro b hb hf
        change (h.free (some a)).frees b = 0 at hf
        rw [hfr] at hf
        have hba : b ≠ a := by rintro rfl; simp at hf
        rw [if_neg hba] at hf
        obtain ⟨o', ho'⟩ := hi.owned b hb hf
        refine ⟨o', (hk o' b).2 ⟨?_, ho'⟩⟩
        rintro rfl
        exact hba (owns_mem ho' hoa)
      · intro b
        show (h.free (some a)).frees b ≤ 1
        rw [hfr]
        split
        · exact le_rfl
        · exact hi.once b
      · intro b hb
        show (h.free (some a)).frees b = 0
        have hb' : h.next ≤ b := hb
        rw [hfr, if_neg (by omega)]
        exact hi.fresh b hb'
    · rw [if_neg hc]
      have hk := key h rfl
      have hno : ∀ b, ¬ Owns h o b := by
        intro b hb
        have := (owns_iff ht).1 hb
        exact hc ⟨this.2, by rw [this.1]; simp⟩
      refine ⟨?_, ?_, ?_, hi.once, hi.fresh⟩
      · intro o' b hb; exact hi.valid o' b ((hk o' b).1 hb).2
      · intro o1 o2 b h1 h2; exact hi.uniq _ _ _ ((hk o1 b).1 h1).2 ((hk o2 b).1 h2).2
      · intro b hb hf
        obtain ⟨o', ho'⟩ := hi.owned b hb hf
        refine ⟨o', (hk o' b).2 ⟨?_, ho'⟩⟩
        rintro rfl
        exact hno b ho'

/-- **C49 (partial).** Every disciplined program, however long, runs without touching freed memory or copying out of bounds; no
buffer is ever freed twice; and once all objects have been destroyed every buffer that was allocated has been freed exactly once.
Missing: the programs excluded by `Disciplined`, for which the claim is false (the theorems below). -/
theorem C49_freed_once_partial (ops : List CuOp) (hd : DisciplinedRun CuHeap.empty ops) : ∃ h, CuHeap.empty.run ops = .ok h ∧
    (∀ a, h.frees a ≤ 1) ∧ ((∀ o, h.objs o = none) → ∀ a, a < h.next → h.frees a = 1) := by
  have key : ∀ (ops : List CuOp) (h : CuHeap), OwnInv h → DisciplinedRun h ops → ∃ h', h.run ops = .ok h' ∧ OwnInv h' := by
    intro ops
    induction ops with
    | nil => intro h hi _; exact ⟨h, rfl, hi⟩
    | cons op ops ih =>
      intro h hi hd
      obtain ⟨h', hs, hi'⟩ := step_inv hi op hd.1
      obtain ⟨h'', hr, hi''⟩ := ih h' hi' (hd.2 h' hs)
      exact ⟨h'', by simp only [CuHeap.run, hs, Res.bind, hr], hi''⟩
  obtain ⟨h, hr, hi⟩ := key ops _ ownInv_empty hd
  refine ⟨h, hr, hi.once, fun hall a ha => ?_⟩
  have h1 := hi.once a
  rcases Nat.eq_zero_or_pos (h.frees a) with h0 | h0
  · obtain ⟨o, t, ht, -⟩ := hi.owned a ha h0
    rw [hall o] at ht; cases ht
  · omega


/-- The claim of C49 for one program: it runs, nothing is freed twice, and nothing is left when all objects are gone. -/
def FreedOnce (ops : List CuOp) : Prop := ∃ h, CuHeap.empty.run ops = .ok h ∧ (∀ a, h.frees a ≤ 1) ∧
  ((∀ o, h.objs o = none) → ∀ a, a < h.next → h.frees a = 1)

/-- A disciplined program meets the hypotheses: two matrices, a copy, a move, both assignments, a view, and all are destroyed. -/
example : DisciplinedRun CuHeap.empty [.create 0 8, .copy 1 0, .move 2 0, .copyAssign 2 1, .moveAssign 0 1, .view 3 2, .destroy 3, .destroy 0,
    .destroy 1, .destroy 2] := by
  simp [DisciplinedRun, Disciplined, CuHeap.step, CuHeap.empty, CuHeap.alloc, CuHeap.set, CuHeap.free, CuHeap.canCopy, Owns,
    Function.update_apply]

/-- **C49 (refuted): assigning by move to a matrix that has a buffer loses that buffer.** -/
theorem C49_move_assignment_leaks : ¬ FreedOnce [.create 0 8, .create 1 8, .moveAssign 0 1, .destroy 0, .destroy 1] := by
  rintro ⟨h, hr, -, hf⟩
  simp [CuHeap.run, CuHeap.step, CuHeap.empty, CuHeap.alloc, CuHeap.set, CuHeap.free, Function.update_apply, Res.bind] at hr
  subst hr
  have := hf (by intro o; by_cases h0 : o = 0 <;> by_cases h1 : o = 1 <;> simp [Function.update_apply, h0, h1]) 0 (by simp)
  simp [Function.update_apply] at this

/-- **C49 (refuted): moving twice from one matrix makes two owners**, and the buffer is freed twice. -/
theorem C49_moved_from_twice : ¬ FreedOnce [.create 0 8, .move 1 0, .move 2 0, .destroy 0, .destroy 1, .destroy 2] := by
  rintro ⟨h, hr, h1, -⟩
  simp [CuHeap.run, CuHeap.step, CuHeap.empty, CuHeap.alloc, CuHeap.set, CuHeap.free, Function.update_apply, Res.bind] at hr
  subst hr
  have := h1 0
  simp [Function.update_apply] at this

/-- **C49 (refuted): moving a view makes it an owner**, and the buffer is freed twice. -/
theorem C49_moved_view : ¬ FreedOnce [.create 0 8, .view 1 0, .move 2 1, .destroy 2, .destroy 1, .destroy 0] := by
  rintro ⟨h, hr, h1, -⟩
  simp [CuHeap.run, CuHeap.step, CuHeap.empty, CuHeap.alloc, CuHeap.set, CuHeap.free, Function.update_apply, Res.bind] at hr
  subst hr
  have := h1 0
  simp [Function.update_apply] at this

/-- **C49 (refuted): assigning to a default-constructed matrix by copy** allocates a buffer that is never freed. -/
theorem C49_copy_to_default_leaks : ¬ FreedOnce [.create 0 8, .default 1, .copyAssign 1 0, .destroy 1, .destroy 0] := by
  rintro ⟨h, hr, -, hf⟩
  simp [CuHeap.run, CuHeap.step, CuHeap.empty, CuHeap.alloc, CuHeap.set, CuHeap.free, Function.update_apply, Res.bind,
    CuHeap.canCopy] at hr
  subst hr
  have := hf (by intro o; by_cases h0 : o = 0 <;> by_cases h1 : o = 1 <;> simp [Function.update_apply, h0, h1]) 1 (by simp)
  simp [Function.update_apply] at this

/-- **C49 (refuted): assigning a transpose to a matrix that has been moved from** frees the buffer of the matrix it was moved to. -/
theorem C49_transpose_to_moved_from : ¬ FreedOnce [.create 0 8, .move 1 0, .create 2 8, .transAssign 0 2, .destroy 0, .destroy 1,
    .destroy 2] := by
  rintro ⟨h, hr, h1, -⟩
  simp [CuHeap.run, CuHeap.step, CuHeap.empty, CuHeap.alloc, CuHeap.set, CuHeap.free, Function.update_apply, Res.bind,
    CuHeap.canCopy] at hr
  subst hr
  have := h1 0
  simp [Function.update_apply] at this

/-- **C49 (refuted): a matrix assigned to itself by move** is never freed. -/
theorem C49_self_move_leaks : ¬ FreedOnce [.create 0 8, .moveAssign 0 0, .destroy 0] := by
  rintro ⟨h, hr, -, hf⟩
  simp [CuHeap.run, CuHeap.step, CuHeap.empty, CuHeap.alloc, CuHeap.set, CuHeap.free, Function.update_apply, Res.bind] at hr
  subst hr
  have := hf (by intro o; by_cases h0 : o = 0 <;> by_cases h1 : o = 1 <;> simp [Function.update_apply, h0, h1]) 0 (by simp)
  simp at this

/-- **C49 (refuted): assigning a smaller matrix by copy** copies beyond the end of both buffers: the old size of the target is used. -/
theorem C49_copy_of_smaller_ub : CuHeap.empty.run [.create 0 16, .create 1 8, .copyAssign 0 1] = .ub := by
  simp [CuHeap.run, CuHeap.step, CuHeap.empty, CuHeap.alloc, CuHeap.set, CuHeap.free, Function.update_apply, Res.bind,
    CuHeap.canCopy]

/-- **C49 (refuted): moving a batch of matrices** frees its pointer array twice and another one never. -/
theorem C49_batched_move : ∃ h, CuHeap.empty.batchedRun [.create 0, .move 1 0, .destroy 0, .destroy 1] = .ok h ∧ h.frees 0 = 2 ∧
    1 < h.next ∧ h.frees 1 = 0 := by
  refine ⟨_, rfl, ?_, ?_, ?_⟩ <;> simp [CuHeap.free, CuHeap.alloc, CuHeap.set, CuHeap.empty]

end Verif.Props

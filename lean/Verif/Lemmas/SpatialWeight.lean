import Verif.Spec.SpatialWeight

namespace Verif.Model
open Verif Verif.Spec

variable {V : Type*} {cl : V → V}

/-- Ownership invariant. -/
structure SWInv (s : SWState V) : Prop where
  live : ∀ i k a, s.ptr i k = some a → s.cells a ≠ none
  notExt : ∀ i k a, s.ptr i k = some a → s.ext a = false
  uniq : ∀ i k i' k' a, s.ptr i k = some a → s.ptr i' k' = some a → i = i' ∧ k = k'
  bound : ∀ a, s.cells a ≠ none → a < s.next
  extLive : ∀ a, s.ext a = true → s.cells a ≠ none
  noLeak : ∀ a, s.cells a ≠ none → s.ext a = true ∨ ∃ i k, s.ptr i k = some a
  dead : ∀ i k, s.alive i = false → s.ptr i k = none

theorem SWInv.empty : SWInv (SWState.empty : SWState V) := by
  constructor <;> simp [SWState.empty]

@[simp] theorem upd2 (p : ℕ → Field → Option ℕ) (i : ℕ) (k : Field) (x : Option ℕ) (i' : ℕ) (k' : Field) :
    Function.update p i (Function.update (p i) k x) i' k' = if i' = i ∧ k' = k then x else p i' k' := by
  by_cases h : i' = i
  · subst h
    by_cases h2 : k' = k
    · subst h2; simp
    · simp [h2]
  · simp [h]

theorem release_spec {s : SWState V} (hs : SWInv s) (i : ℕ) (k : Field) :
    ∃ t, s.release i k = .ok t ∧ SWInv t ∧ t.alive = s.alive ∧ t.ext = s.ext ∧ t.next = s.next ∧
      (∀ i' k', t.ptr i' k' = if i' = i ∧ k' = k then none else s.ptr i' k') ∧
      (∀ a, s.ptr i k ≠ some a → t.cells a = s.cells a) := by
  cases hp : s.ptr i k with
  | none =>
    refine ⟨s, by simp [SWState.release, hp], hs, rfl, rfl, rfl, ?_, fun _ _ => rfl⟩
    intro i' k'
    split
    · rename_i h; rw [h.1, h.2, hp]
    · rfl
  | some a =>
    have hl := hs.live i k a hp
    cases hc : s.cells a with
    | none => exact absurd hc hl
    | some v =>
      refine ⟨{ s with
        cells := Function.update s.cells a none
        ptr := Function.update s.ptr i (Function.update (s.ptr i) k none) },
        by simp only [SWState.release, hp, hc], ?_, rfl, rfl, rfl, fun i' k' => by simp only [upd2], ?_⟩
      · constructor
        · intro i' k' b hb
          simp only [upd2] at hb
          split at hb
          · cases hb
          · rename_i hne
            have hba : b ≠ a := by
              rintro rfl; exact hne (hs.uniq _ _ _ _ _ hb hp)
            simp only [Function.update_of_ne hba]
            exact hs.live _ _ _ hb
        · intro i' k' b hb
          simp only [upd2] at hb
          split at hb
          · cases hb
          · exact hs.notExt _ _ _ hb
        · intro i1 k1 i2 k2 b h1 h2
          simp only [upd2] at h1 h2
          split at h1
          · cases h1
          · split at h2
            · cases h2
            · exact hs.uniq _ _ _ _ _ h1 h2
        · intro b hb
          by_cases hba : b = a
          · subst hba; simp at hb
          · simp only [Function.update_of_ne hba] at hb
            exact hs.bound b hb
        · intro b hb
          have hba : b ≠ a := by
            rintro rfl
            have := hs.notExt _ _ _ hp
            simp only at hb
            rw [this] at hb; cases hb
          simp only [Function.update_of_ne hba]
          exact hs.extLive b hb
        · intro b hb
          by_cases hba : b = a
          · subst hba; simp at hb
          · simp only [Function.update_of_ne hba] at hb
            rcases hs.noLeak b hb with h | ⟨i', k', h⟩
            · exact Or.inl h
            · refine Or.inr ⟨i', k', ?_⟩
              simp only [upd2]
              rw [if_neg]
              · exact h
              · rintro ⟨rfl, rfl⟩; rw [hp] at h; exact hba (Option.some.inj h).symm
        · intro i' k' hd
          simp only [upd2]
          split
          · rfl
          · exact hs.dead _ _ hd
      · intro b hb
        exact Function.update_of_ne (fun h => hb (by rw [h])) _ _

theorem assignClone_spec {s : SWState V} (hs : SWInv s) (i : ℕ) (k : Field) (ha : s.alive i = true)
    (hn : s.ptr i k = none) {a : ℕ} {v : V} (hv : s.cells a = some v) :
    ∃ t, s.assignClone cl i k (some a) = .ok t ∧ SWInv t ∧ t.alive = s.alive ∧ t.ext = s.ext ∧
      (∀ i' k', t.ptr i' k' = if i' = i ∧ k' = k then some s.next else s.ptr i' k') ∧
      (∀ b, s.cells b ≠ none → t.cells b = s.cells b) ∧ t.cells s.next = some (cl v) := by
  have hfresh : s.cells s.next = none := by
    by_contra h
    exact absurd (hs.bound _ h) (Nat.lt_irrefl _)
  have hne : ∀ b, s.cells b ≠ none → b ≠ s.next := by
    rintro b hb rfl; exact hb hfresh
  unfold SWState.assignClone
  simp only [hv]
  refine ⟨_, rfl, ?_, rfl, rfl, fun i' k' => by simp only [upd2], ?_, by simp⟩
  · constructor
    · intro i' k' b hb
      simp only [upd2] at hb
      split at hb
      · have := Option.some.inj hb; subst this; simp
      · have := hs.live _ _ _ hb
        simp only [Function.update_of_ne (hne b this)]
        exact this
    · intro i' k' b hb
      simp only [upd2] at hb
      split at hb
      · have := Option.some.inj hb; subst this
        cases he : s.ext s.next with
        | false => rfl
        | true => exact absurd hfresh (hs.extLive _ he)
      · exact hs.notExt _ _ _ hb
    · intro i1 k1 i2 k2 b h1 h2
      simp only [upd2] at h1 h2
      split at h1
      · rename_i e1
        split at h2
        · rename_i e2; exact ⟨e1.1.trans e2.1.symm, e1.2.trans e2.2.symm⟩
        · have := Option.some.inj h1; subst this
          exact absurd hfresh (hs.live _ _ _ h2)
      · split at h2
        · have := Option.some.inj h2; subst this
          exact absurd hfresh (hs.live _ _ _ h1)
        · exact hs.uniq _ _ _ _ _ h1 h2
    · intro b hb
      simp only at hb ⊢
      by_cases hbn : b = s.next
      · omega
      · rw [Function.update_of_ne hbn] at hb
        have := hs.bound b hb; omega
    · intro b hb
      have := hs.extLive b hb
      simp only [Function.update_of_ne (hne b this)]
      exact this
    · intro b hb
      simp only at hb
      by_cases hbn : b = s.next
      · right; exact ⟨i, k, by simp only [upd2]; simp [hbn]⟩
      · rw [Function.update_of_ne hbn] at hb
        rcases hs.noLeak b hb with h | ⟨i', k', h⟩
        · exact Or.inl h
        · refine Or.inr ⟨i', k', ?_⟩
          simp only [upd2]
          rw [if_neg]
          · exact h
          · rintro ⟨rfl, rfl⟩; rw [hn] at h; cases h
    · intro i' k' hd
      simp only [upd2]
      split
      · rename_i e; rw [e.1] at hd; simp only at hd; rw [ha] at hd; cases hd
      · exact hs.dead _ _ hd
  · intro b hb
    exact Function.update_of_ne (hne b hb) _ _

theorem take_spec {s : SWState V} (hs : SWInv s) (i j : ℕ) (k : Field) (hij : i ≠ j) (ha : s.alive i = true)
    (hn : s.ptr i k = none) :
    SWInv (s.take i j k) ∧ (s.take i j k).alive = s.alive ∧ (s.take i j k).ext = s.ext ∧
      (s.take i j k).cells = s.cells ∧
      (∀ i' k', (s.take i j k).ptr i' k' =
        if i' = i ∧ k' = k then s.ptr j k else if i' = j ∧ k' = k then none else s.ptr i' k') := by
  have hptr : ∀ i' k', (s.take i j k).ptr i' k' =
        if i' = i ∧ k' = k then s.ptr j k else if i' = j ∧ k' = k then none else s.ptr i' k' := by
    intro i' k'
    simp only [SWState.take]
    rw [upd2, upd2]
  refine ⟨?_, rfl, rfl, rfl, hptr⟩
  have back : ∀ i' k' a, (s.take i j k).ptr i' k' = some a →
      (i' = i ∧ k' = k ∧ s.ptr j k = some a) ∨
      (¬ (i' = i ∧ k' = k) ∧ ¬ (i' = j ∧ k' = k) ∧ s.ptr i' k' = some a) := by
    intro i' k' a h
    rw [hptr] at h
    split at h
    · rename_i e; exact Or.inl ⟨e.1, e.2, h⟩
    · split at h
      · cases h
      · exact Or.inr ⟨‹_›, ‹_›, h⟩
  constructor
  · intro i' k' a h
    rcases back _ _ _ h with ⟨-, -, h⟩ | ⟨-, -, h⟩ <;> exact hs.live _ _ _ h
  · intro i' k' a h
    rcases back _ _ _ h with ⟨-, -, h⟩ | ⟨-, -, h⟩ <;> exact hs.notExt _ _ _ h
  · intro i1 k1 i2 k2 a h1 h2
    rcases back _ _ _ h1 with ⟨e1, e1', h1⟩ | ⟨n1, m1, h1⟩ <;> rcases back _ _ _ h2 with ⟨e2, e2', h2⟩ | ⟨n2, m2, h2⟩
    · exact ⟨e1.trans e2.symm, e1'.trans e2'.symm⟩
    · exact absurd (hs.uniq _ _ _ _ _ h2 h1) m2
    · exact absurd (hs.uniq _ _ _ _ _ h1 h2) m1
    · exact hs.uniq _ _ _ _ _ h1 h2
  · exact hs.bound
  · exact hs.extLive
  · intro a hl
    rcases hs.noLeak a hl with h | ⟨i', k', h⟩
    · exact Or.inl h
    · right
      by_cases e : i' = j ∧ k' = k
      · refine ⟨i, k, ?_⟩
        rw [hptr, if_pos ⟨rfl, rfl⟩, ← e.1, ← e.2]; exact h
      · refine ⟨i', k', ?_⟩
        rw [hptr, if_neg, if_neg e]
        · exact h
        · rintro ⟨rfl, rfl⟩; rw [hn] at h; cases h
  · intro i' k' hd
    rw [hptr]
    split
    · rename_i e; rw [e.1] at hd
      change s.alive i = false at hd
      rw [ha] at hd; cases hd
    · split
      · rfl
      · exact hs.dead _ _ hd

theorem construct_spec {s : SWState V} (hs : SWInv s) (i : ℕ) (hd : s.alive i = false) :
    SWInv (s.construct i) ∧ (s.construct i).alive i = true ∧ (∀ n, n ≠ i → (s.construct i).alive n = s.alive n) ∧
    (s.construct i).ext = s.ext ∧ (s.construct i).cells = s.cells ∧ (s.construct i).ptr = s.ptr := by
  have hptr : (s.construct i).ptr = s.ptr := by
    funext i' k'
    simp only [SWState.construct]
    by_cases h : i' = i
    · subst h; rw [Function.update_self, hs.dead _ _ hd]
    · rw [Function.update_of_ne h]
  refine ⟨?_, by simp [SWState.construct], fun n hn => by simp [SWState.construct, hn], rfl, rfl, hptr⟩
  constructor
  · intro i' k' a h; rw [hptr] at h; exact hs.live _ _ _ h
  · intro i' k' a h; rw [hptr] at h; exact hs.notExt _ _ _ h
  · intro i1 k1 i2 k2 a h1 h2; rw [hptr] at h1 h2; exact hs.uniq _ _ _ _ _ h1 h2
  · exact hs.bound
  · exact hs.extLive
  · intro a h; rw [hptr]; exact hs.noLeak a h
  · intro i' k' h
    rw [hptr]
    by_cases e : i' = i
    · subst e; simp [SWState.construct] at h
    · simp only [SWState.construct, Function.update_of_ne e] at h
      exact hs.dead _ _ h

theorem seen_some {s : SWState V} (hs : SWInv s) {i k} (h : s.ptr i k ≠ none) : ∃ a v, s.ptr i k = some a ∧
    s.cells a = some v ∧ seen s i k = some v := by
  cases hp : s.ptr i k with
  | none => exact absurd hp h
  | some a =>
    cases hc : s.cells a with
    | none => exact absurd hc (hs.live _ _ _ hp)
    | some v => exact ⟨a, v, rfl, hc, by simp [seen, hp, hc]⟩

/-- Two states in which member `(n, k)` has the same pointer and the cell it points to is the same. -/
theorem seen_congr {s t : SWState V} {n k} (hp : t.ptr n k = s.ptr n k)
    (hc : ∀ a, s.ptr n k = some a → t.cells a = s.cells a) : seen t n k = seen s n k := by
  unfold seen
  rw [hp]
  cases h : s.ptr n k with
  | none => rfl
  | some a => simp [hc a h]

/-- Full specification of a successful allowed step. -/
structure StepOK (cl : V → V) (s : SWState V) (op : SWOp V) (t : SWState V) : Prop where
  inv : SWInv t
  other : ∀ n k, ¬ touches op n → seen t n k = seen s n k

/-- Copying the two members of `j` (or of given addresses) into the empty object `i`. -/
theorem two_clones {s : SWState V} (hs : SWInv s) (i : ℕ) (ha : s.alive i = true) (hw : s.ptr i .w = none)
    (hd : s.ptr i .d = none) {a b : ℕ} {va vb : V} (hva : s.cells a = some va) (hvb : s.cells b = some vb) :
    ∃ t u, s.assignClone cl i .w (some a) = .ok t ∧ t.assignClone cl i .d (some b) = .ok u ∧ SWInv u ∧
      u.alive = s.alive ∧ t.alive = s.alive ∧ (∀ n k, n ≠ i → t.ptr n k = s.ptr n k) ∧
      (∀ n k, n ≠ i → u.ptr n k = s.ptr n k) ∧
      (∀ n k, n ≠ i → seen u n k = seen s n k) ∧ seen u i .w = some (cl va) ∧ seen u i .d = some (cl vb) := by
  obtain ⟨t, e1, i1, al1, x1, p1, c1, n1⟩ := assignClone_spec (cl := cl) hs i .w ha hw hva
  have hvb' : t.cells b = some vb := by rw [c1 b (by rw [hvb]; simp), hvb]
  have hd' : t.ptr i .d = none := by rw [p1]; simp [hd]
  obtain ⟨u, e2, i2, al2, x2, p2, c2, n2⟩ := assignClone_spec (cl := cl) i1 i .d (by rw [al1]; exact ha) hd' hvb'
  have hpo : ∀ n k, n ≠ i → t.ptr n k = s.ptr n k := fun n k hn => by
    rw [p1]; rw [if_neg (fun h => hn h.1)]
  have hpo2 : ∀ n k, n ≠ i → u.ptr n k = s.ptr n k := fun n k hn => by
    rw [p2, if_neg (fun h => hn h.1)]; exact hpo n k hn
  refine ⟨t, u, e1, e2, i2, by rw [al2, al1], al1, hpo, hpo2, ?_, ?_, ?_⟩
  · intro n k hn
    apply seen_congr (hpo2 n k hn)
    intro x hx
    have h0 := hs.live _ _ _ hx
    rw [c2 x (by rw [c1 x h0]; exact h0), c1 x h0]
  · have hpw : u.ptr i .w = some s.next := by rw [p2]; simp [p1]
    unfold seen
    rw [hpw]
    simp only [Option.bind_some]
    rw [c2 _ (by rw [n1]; simp), n1]
  · have hpd : u.ptr i .d = some t.next := by rw [p2]; simp
    unfold seen
    rw [hpd]
    simp only [Option.bind_some]
    exact n2

/-- Releasing both members of `i`. -/
theorem two_releases {s : SWState V} (hs : SWInv s) (i : ℕ) :
    ∃ t u, s.release i .w = .ok t ∧ t.release i .d = .ok u ∧ SWInv u ∧ u.alive = s.alive ∧ u.ext = s.ext ∧
      (∀ k, u.ptr i k = none) ∧ (∀ n k, n ≠ i → u.ptr n k = s.ptr n k) ∧
      (∀ a, (∀ k, s.ptr i k ≠ some a) → u.cells a = s.cells a) ∧
      (∀ n k, n ≠ i → seen u n k = seen s n k) := by
  obtain ⟨t, e1, i1, al1, x1, -, p1, c1⟩ := release_spec hs i .w
  obtain ⟨u, e2, i2, al2, x2, -, p2, c2⟩ := release_spec i1 i .d
  have hpo : ∀ n k, n ≠ i → u.ptr n k = s.ptr n k := fun n k hn => by
    rw [p2, if_neg (fun h => hn h.1), p1, if_neg (fun h => hn h.1)]
  have hco : ∀ a, (∀ k, s.ptr i k ≠ some a) → u.cells a = s.cells a := fun a h => by
    rw [c2 a, c1 a (h .w)]
    rw [p1]; simpa using h .d
  refine ⟨t, u, e1, e2, i2, by rw [al2, al1], by rw [x2, x1], ?_, hpo, hco, ?_⟩
  · intro k
    cases k
    · rw [p2]; simp [p1]
    · rw [p2]; simp
  · intro n k hn
    apply seen_congr (hpo n k hn)
    intro a h
    apply hco
    intro k' h'
    exact hn (hs.uniq _ _ _ _ _ h h').1

theorem step_ok {s : SWState V} (hs : SWInv s) (op : SWOp V) (hA : Allowed s op) :
    ∃ t, op.step cl s = .ok t ∧ StepOK cl s op t := by
  cases op with
  | construct i =>
    obtain ⟨h1, h2, h3, h4, h5, h6⟩ := construct_spec hs i hA
    refine ⟨_, rfl, h1, fun n k _ => ?_⟩
    exact seen_congr (by rw [h6]) (fun a _ => by rw [h5])
  | constructFrom i pw pd =>
    obtain ⟨hd, ⟨a, rfl, hla⟩, b, rfl, hlb⟩ := hA
    obtain ⟨h1, h2, h3, h4, h5, h6⟩ := construct_spec hs i hd
    obtain ⟨va, hva⟩ := Option.ne_none_iff_exists'.1 hla
    obtain ⟨vb, hvb⟩ := Option.ne_none_iff_exists'.1 hlb
    obtain ⟨t, u, e1, e2, iu, al, -, -, -, so, -, -⟩ := two_clones (cl := cl) h1 i h2
      (by rw [h6]; exact hs.dead _ _ hd) (by rw [h6]; exact hs.dead _ _ hd) (a := a) (b := b)
      (by rw [h5]; exact hva) (by rw [h5]; exact hvb)
    refine ⟨u, ?_, iu, fun n k hn => ?_⟩
    · simp only [SWOp.step, SWState.constructFrom, e1, Res.ok_bind]; exact e2
    · rw [so n k hn]
      exact seen_congr (by rw [h6]) (fun a _ => by rw [h5])
  | copyConstruct i j =>
    obtain ⟨hd, haj, hvw, hvd⟩ := hA
    have hij : j ≠ i := by rintro rfl; rw [hd] at haj; cases haj
    obtain ⟨h1, h2, h3, h4, h5, h6⟩ := construct_spec hs i hd
    obtain ⟨a, va, pa, hva, -⟩ := seen_some hs hvw
    obtain ⟨b, vb, pb, hvb, -⟩ := seen_some hs hvd
    obtain ⟨t, u, e1, e2, iu, al, -, pt, -, so, -, -⟩ := two_clones (cl := cl) h1 i h2
      (by rw [h6]; exact hs.dead _ _ hd) (by rw [h6]; exact hs.dead _ _ hd) (a := a) (b := b)
      (by rw [h5]; exact hva) (by rw [h5]; exact hvb)
    refine ⟨u, ?_, iu, fun n k hn => ?_⟩
    · simp only [SWOp.step, SWState.copyConstruct, pa, e1, Res.ok_bind, pt j .d hij, h6, pb, e2]
    · rw [so n k hn]
      exact seen_congr (by rw [h6]) (fun a _ => by rw [h5])
  | moveConstruct i j =>
    obtain ⟨hd, haj⟩ := hA
    have hij : i ≠ j := by rintro rfl; rw [hd] at haj; cases haj
    obtain ⟨h1, h2, h3, h4, h5, h6⟩ := construct_spec hs i hd
    obtain ⟨i1, al1, x1, c1, p1⟩ := take_spec h1 i j .w hij h2 (by rw [h6]; exact hs.dead _ _ hd)
    obtain ⟨i2, al2, x2, c2, p2⟩ := take_spec i1 i j .d hij (by rw [al1]; exact h2)
      (by rw [p1]; simp [h6, hs.dead _ _ hd])
    refine ⟨_, rfl, i2, fun n k hn => ?_⟩
    simp only [touches, not_or] at hn
    apply seen_congr
    · rw [SWState.moveConstruct, p2, if_neg (fun h => hn.1 h.1), if_neg (fun h => hn.2 h.1), p1,
        if_neg (fun h => hn.1 h.1), if_neg (fun h => hn.2 h.1), h6]
    · intro a _; rw [SWState.moveConstruct, c2, c1, h5]
  | destroy i =>
    obtain ⟨t, u, e1, e2, iu, al, x, pn, po, co, so⟩ := two_releases hs i
    refine ⟨{ u with alive := Function.update u.alive i false },
      by simp only [SWOp.step, SWState.destroy, e1, Res.ok_bind, e2], ?_, fun n k hn => ?_⟩
    · exact ⟨iu.live, iu.notExt, iu.uniq, iu.bound, iu.extLive, iu.noLeak, fun n k h => by
        by_cases e : n = i
        · subst e; exact pn k
        · simp only [Function.update_of_ne e] at h
          exact iu.dead _ _ h⟩
    · exact (seen_congr rfl (fun _ _ => rfl)).trans (so n k hn)
  | copyAssign i j =>
    obtain ⟨hai, haj, hvw, hvd⟩ := hA
    simp only [SWOp.step, SWState.copyAssign]
    split
    · exact ⟨s, rfl, hs, fun _ _ _ => rfl⟩
    · rename_i hij
      obtain ⟨t, u, e1, e2, iu, al, x, pn, po, co, so⟩ := two_releases hs i
      obtain ⟨a, va, pa, hva, -⟩ := seen_some iu (i := j) (k := .w) (by rw [po j _ (Ne.symm hij)]; exact hvw)
      obtain ⟨b, vb, pb, hvb, -⟩ := seen_some iu (i := j) (k := .d) (by rw [po j _ (Ne.symm hij)]; exact hvd)
      obtain ⟨t', u', e1', e2', iu', al', -, pt', -, so', -, -⟩ := two_clones (cl := cl) iu i (by rw [al]; exact hai)
        (pn _) (pn _) hva hvb
      refine ⟨u', ?_, iu', fun n k hn => ?_⟩
      · simp only [e1, Res.ok_bind, e2, pa, e1', pt' j .d (Ne.symm hij), pb, e2']
      · rw [so' n k hn, so n k hn]
  | moveAssign i j =>
    obtain ⟨hai, haj⟩ := hA
    simp only [SWOp.step, SWState.moveAssign]
    split
    · exact ⟨s, rfl, hs, fun _ _ _ => rfl⟩
    · rename_i hij
      obtain ⟨t, u, e1, e2, iu, al, x, pn, po, co, so⟩ := two_releases hs i
      obtain ⟨i1, al1, x1, c1, p1⟩ := take_spec iu i j .w hij (by rw [al]; exact hai) (pn _)
      obtain ⟨i2, al2, x2, c2, p2⟩ := take_spec i1 i j .d hij (by rw [al1, al]; exact hai) (by rw [p1]; simp [pn])
      refine ⟨_, by simp only [e1, Res.ok_bind, e2], i2, fun n k hn => ?_⟩
      simp only [touches, not_or] at hn
      rw [← so n k hn.1]
      apply seen_congr
      · rw [p2, if_neg (fun h => hn.1 h.1), if_neg (fun h => hn.2 h.1), p1, if_neg (fun h => hn.1 h.1),
          if_neg (fun h => hn.2 h.1)]
      · intro a _; rw [c2, c1]
  | setPtr i k p =>
    obtain ⟨hai, hl⟩ := hA
    simp only [SWOp.step, SWState.setPtr]
    split
    · rename_i h
      obtain ⟨a, rfl⟩ := Option.ne_none_iff_exists'.1 h.1
      obtain ⟨t, e1, i1, al1, x1, -, p1, c1⟩ := release_spec hs i k
      obtain ⟨v, hv⟩ := Option.ne_none_iff_exists'.1 (hl a rfl)
      have hv' : t.cells a = some v := by rw [c1 a (Ne.symm h.2)]; exact hv
      obtain ⟨u, e2, i2, al2, x2, p2, c2, n2⟩ := assignClone_spec (cl := cl) i1 i k (by rw [al1]; exact hai)
        (by rw [p1]; simp) hv'
      refine ⟨u, by simp only [e1, Res.ok_bind, e2], i2, fun n k' hn => ?_⟩
      simp only [touches] at hn
      apply seen_congr
      · rw [p2, if_neg (fun h => hn h.1), p1, if_neg (fun h => hn h.1)]
      · intro b hb
        have hne : s.ptr i k ≠ some b := fun h' => hn (hs.uniq _ _ _ _ _ hb h').1
        rw [c2 b, c1 b hne]
        rw [c1 b hne]; exact hs.live _ _ _ hb
    · exact ⟨s, rfl, hs, fun _ _ _ => rfl⟩
  | setRef i k a =>
    obtain ⟨hai, hl, hne⟩ := hA
    simp only [SWOp.step, SWState.setRef]
    obtain ⟨t, e1, i1, al1, x1, -, p1, c1⟩ := release_spec hs i k
    obtain ⟨v, hv⟩ := Option.ne_none_iff_exists'.1 hl
    have hv' : t.cells a = some v := by rw [c1 a hne]; exact hv
    obtain ⟨u, e2, i2, al2, x2, p2, c2, n2⟩ := assignClone_spec (cl := cl) i1 i k (by rw [al1]; exact hai)
      (by rw [p1]; simp) hv'
    refine ⟨u, by simp only [e1, Res.ok_bind, e2], i2, fun n k' hn => ?_⟩
    simp only [touches] at hn
    apply seen_congr
    · rw [p2, if_neg (fun h => hn h.1), p1, if_neg (fun h => hn h.1)]
    · intro b hb
      have hne : s.ptr i k ≠ some b := fun h' => hn (hs.uniq _ _ _ _ _ hb h').1
      rw [c2 b, c1 b hne]
      rw [c1 b hne]; exact hs.live _ _ _ hb
  | write i k v =>
    obtain ⟨hai, hp⟩ := hA
    obtain ⟨a, va, pa, hva, -⟩ := seen_some hs hp
    refine ⟨_, by simp only [SWOp.step, SWState.write, pa, hva]; rfl, ?_, fun n k' hn => ?_⟩
    · have hiff : ∀ b, Function.update s.cells a (some v) b ≠ none ↔ s.cells b ≠ none := by
        intro b
        by_cases e : b = a
        · subst e; simp [hva]
        · rw [Function.update_of_ne e]
      exact ⟨fun i k b h => (hiff b).2 (hs.live i k b h), hs.notExt, hs.uniq, fun b h => hs.bound b ((hiff b).1 h),
        fun b h => (hiff b).2 (hs.extLive b h), fun b h => hs.noLeak b ((hiff b).1 h), hs.dead⟩
    · refine seen_congr (by rfl) ?_
      intro b hb
      exact Function.update_of_ne (by rintro rfl; exact hn (hs.uniq _ _ _ _ _ hb pa).1) _ _
  | use i =>
    obtain ⟨hai, hvw, hvd⟩ := hA
    obtain ⟨a, va, pa, hva, -⟩ := seen_some hs hvw
    obtain ⟨b, vb, pb, hvb, -⟩ := seen_some hs hvd
    exact ⟨s, by simp [SWOp.step, SWState.use, pa, pb, hva, hvb], hs, fun _ _ _ => rfl⟩
  | extNew v =>
    have hfresh : s.cells s.next = none := by
      by_contra h
      exact absurd (hs.bound _ h) (Nat.lt_irrefl _)
    have hne : ∀ b, s.cells b ≠ none → b ≠ s.next := by
      rintro b hb rfl; exact hb hfresh
    refine ⟨_, rfl, ?_, fun n k _ => ?_⟩
    · constructor
      · intro i k a h
        have h0 := hs.live i k a h
        simp only [SWState.extNew, Function.update_of_ne (hne a h0)]
        exact h0
      · intro i k a h
        simp only [SWState.extNew, Function.update_of_ne (hne a (hs.live i k a h))]
        exact hs.notExt i k a h
      · exact hs.uniq
      · intro a h
        simp only [SWState.extNew] at h ⊢
        by_cases e : a = s.next
        · omega
        · rw [Function.update_of_ne e] at h
          have := hs.bound a h; omega
      · intro a h
        simp only [SWState.extNew] at h ⊢
        by_cases e : a = s.next
        · subst e; simp
        · rw [Function.update_of_ne e] at h ⊢
          exact hs.extLive a h
      · intro a h
        simp only [SWState.extNew] at h ⊢
        by_cases e : a = s.next
        · left; subst e; simp
        · rw [Function.update_of_ne e] at h
          rw [Function.update_of_ne e]
          exact hs.noLeak a h
      · exact hs.dead
    · refine seen_congr (by rfl) ?_
      intro a h
      exact Function.update_of_ne (hne a (hs.live _ _ _ h)) _ _
  | extWrite a v =>
    obtain ⟨va, hva⟩ := Option.ne_none_iff_exists'.1 (hs.extLive a hA)
    refine ⟨_, by simp only [SWOp.step, SWState.extWrite, hva]; rfl, ?_, fun n k' _ => ?_⟩
    · have hiff : ∀ b, Function.update s.cells a (some v) b ≠ none ↔ s.cells b ≠ none := by
        intro b
        by_cases e : b = a
        · subst e; simp [hva]
        · rw [Function.update_of_ne e]
      exact ⟨fun i k b h => (hiff b).2 (hs.live i k b h), hs.notExt, hs.uniq, fun b h => hs.bound b ((hiff b).1 h),
        fun b h => (hiff b).2 (hs.extLive b h), fun b h => hs.noLeak b ((hiff b).1 h), hs.dead⟩
    · refine seen_congr (by rfl) ?_
      intro b hb
      refine Function.update_of_ne ?_ _ _
      rintro rfl
      have := hs.notExt _ _ _ hb
      simp only [Allowed] at hA
      rw [hA] at this; cases this
  | extDelete a =>
    simp only [Allowed] at hA
    obtain ⟨va, hva⟩ := Option.ne_none_iff_exists'.1 (hs.extLive a hA)
    have hptr : ∀ n k b, s.ptr n k = some b → b ≠ a := by
      rintro n k b hb rfl
      have := hs.notExt _ _ _ hb
      rw [hA] at this; cases this
    refine ⟨_, by simp only [SWOp.step, SWState.extDelete, hva]; rfl, ?_, fun n k' _ => ?_⟩
    · constructor
      · intro i k b h
        simp only [Function.update_of_ne (hptr _ _ _ h)]
        exact hs.live _ _ _ h
      · intro i k b h
        simp only [Function.update_of_ne (hptr _ _ _ h)]
        exact hs.notExt _ _ _ h
      · exact hs.uniq
      · intro b h
        by_cases e : b = a
        · subst e; simp at h
        · simp only [Function.update_of_ne e] at h
          exact hs.bound b h
      · intro b h
        by_cases e : b = a
        · subst e; simp at h
        · simp only [Function.update_of_ne e] at h ⊢
          exact hs.extLive b h
      · intro b h
        by_cases e : b = a
        · subst e; simp at h
        · simp only [Function.update_of_ne e] at h ⊢
          exact hs.noLeak b h
      · exact hs.dead
    · refine seen_congr (by rfl) ?_
      intro b hb
      exact Function.update_of_ne (hptr _ _ _ hb) _ _

theorem history_inv {s t : SWState V} {ops : List (SWOp V)} (h : History cl s ops t) (hs : SWInv s) : SWInv t := by
  induction h with
  | nil => exact hs
  | snoc h1 hA hst ih =>
    obtain ⟨t', e, ok⟩ := step_ok (cl := cl) ih _ hA
    rw [hst] at e
    rw [Res.ok.inj e]; exact ok.inv

end Verif.Model

import Verif.Spec.TaskHeap
import Verif.Props.GpuTask

/-!
# C129: several GPU tasks, copies, assignments, and memory
-/

namespace Verif.Props
open Verif Verif.Model Verif.Spec Matrix Classical

variable {n k m : ℕ}

/-! ## Diagnostics do not matter for calls -/

theorem sbd_refl (t : Task n k m) : SameButDiagnostics t t := rfl

theorem sbd_symm {t u : Task n k m} (h : SameButDiagnostics t u) : SameButDiagnostics u t := by
  unfold SameButDiagnostics at *
  rw [h]

theorem sbd_trans {t u v : Task n k m} (h : SameButDiagnostics t u) (h' : SameButDiagnostics u v) : SameButDiagnostics t v := by
  unfold SameButDiagnostics at *
  rw [h', h]

theorem sbd_set {t u : Task n k m} (h : SameButDiagnostics t u) : u.set = t.set := by rw [h]

theorem sbd_step {t u t' : Task n k m} (h : SameButDiagnostics t u) {op : TaskOp} {o : Outcome} (hs : taskStep t op = .ok (t', o)) :
    ∃ u', taskStep u op = .ok (u', o) ∧ SameButDiagnostics t' u' := by
  obtain ⟨s, ρ⟩ := t
  obtain ⟨s', ρ'⟩ := u
  obtain rfl : s' = s := sbd_set h
  have hρ : ρ' = { ρ with diagnostic := ρ'.diagnostic } := congrArg Task.res h
  generalize ρ'.diagnostic = δ at hρ
  subst hρ
  cases op <;> simp only [taskStep] at hs ⊢
  case setCoords i u v =>
    obtain ⟨q, e1, e2⟩ := Res.bind_eq_ok'.1 hs
    rw [e1]
    cases q <;> (cases Res.ok.inj e2; exact ⟨_, rfl, rfl⟩)
  case setPredictLocations i u v =>
    obtain ⟨q, e1, e2⟩ := Res.bind_eq_ok'.1 hs
    rw [e1]
    cases q <;> (cases Res.ok.inj e2; exact ⟨_, rfl, rfl⟩)
  all_goals first
    | (cases Res.ok.inj hs; exact ⟨_, rfl, rfl⟩)
    | (split at hs <;> first | (cases Res.ok.inj hs; exact ⟨_, rfl, rfl⟩) | cases hs)

/-! ## One task on the heap -/

/-- Both pointers are valid. -/
def ValidPointers (h : TaskMem) (T : HTask n k m) : Prop :=
  (∃ b a kn, h.mem T.weight = some (.weight b a kn)) ∧ ∃ p d, T.dist = some p ∧ h.mem p = some (.dist d)

theorem typed_view {h : TaskMem} {T : HTask n k m} (hT : ValidPointers h T) : ∃ b a kn p d, h.mem T.weight = some (.weight b a kn) ∧ T.dist = some p ∧
    h.mem p = some (.dist d) ∧ T.weight ≠ p ∧
    T.view h = .ok { T.own with set := { T.own.set with distance := some d, bandwidth := b, adaptive := a, kernel := kn } } := by
  obtain ⟨⟨b, a, kn, h1⟩, p, d, h2, h3⟩ := hT
  refine ⟨b, a, kn, p, d, h1, h2, h3, ?_, by simp only [HTask.view, h1, h2, h3]⟩
  rintro rfl
  rw [h1] at h3; cases h3

theorem view_congr {h h' : TaskMem} {T : HTask n k m} (hw : h'.mem T.weight = h.mem T.weight) (hd : ∀ p, T.dist = some p → h'.mem p = h.mem p) :
    T.view h' = T.view h := by
  unfold HTask.view
  rw [hw]
  cases hp : T.dist with
  | none => rfl
  | some p => simp only [hd p hp]

/-- The members reached through pointers. -/
def TaskOp.throughPointer : TaskOp → Bool
  | .setDistanceType _ => true
  | .setGeographic _ => true
  | .setPoly _ => true
  | .setTheta _ => true
  | .setBandwidthSize _ => true
  | .setBandwidthAdaptive _ => true
  | .setBandwidthKernel _ => true
  | _ => false

theorem step_direct {t t' : Task n k m} {op : TaskOp} {o : Outcome} (hop : TaskOp.throughPointer op = false) (h : taskStep t op = .ok (t', o)) :
    t'.set.distance = t.set.distance ∧ t'.set.bandwidth = t.set.bandwidth ∧ t'.set.adaptive = t.set.adaptive ∧ t'.set.kernel = t.set.kernel := by
  cases op <;> simp only [taskStep, TaskOp.throughPointer, Bool.true_eq_false] at h hop
  case setCoords i u v =>
    obtain ⟨q, e1, e2⟩ := Res.bind_eq_ok'.1 h
    cases q <;> (cases Res.ok.inj e2; exact ⟨rfl, rfl, rfl, rfl⟩)
  case setPredictLocations i u v =>
    obtain ⟨q, e1, e2⟩ := Res.bind_eq_ok'.1 h
    cases q <;> (cases Res.ok.inj e2; exact ⟨rfl, rfl, rfl, rfl⟩)
  all_goals first
    | (cases Res.ok.inj h; exact ⟨rfl, rfl, rfl, rfl⟩)
    | (split at h <;> first | (cases Res.ok.inj h; exact ⟨rfl, rfl, rfl, rfl⟩) | cases h)

/-- What a call does that is not `setDistanceType`: the pointers stay, other memory is not touched, and the value of the task is the one that `taskStep` gives. -/
def CallOk (h : TaskMem) (T : HTask n k m) (t' : Task n k m) (o : Outcome) (r : TaskMem × HTask n k m × Outcome) : Prop :=
  r.2.2 = o ∧ r.2.1.dist = T.dist ∧ r.2.1.weight = T.weight ∧ r.1.next = h.next ∧ (∀ a, a ≠ T.weight → T.dist ≠ some a → r.1.mem a = h.mem a) ∧
    ValidPointers r.1 r.2.1 ∧ r.2.1.view r.1 = .ok t'

theorem heapDist_sim {h : TaskMem} {T : HTask n k m} (hT : ValidPointers h T) {t : Task n k m} (ht : T.view h = .ok t) (f : TaskDistance → Option TaskDistance) :
    ∃ d, t.set.distance = some d ∧ (∀ d', f d = some d' →
      ∃ r, heapDist h T f = .ok r ∧ CallOk h T { t with set := { t.set with distance := some d' } } (.ret true) r) ∧
      (f d = none → heapDist h T f = .ub) := by
  obtain ⟨b, a, kn, p, d, h1, h2, h3, h4, h5⟩ := typed_view hT
  cases Res.ok.inj (h5.symm.trans ht)
  refine ⟨d, rfl, fun d' hd => ?_, fun hd => by simp only [heapDist, h2, h3, hd]⟩
  refine ⟨(h.write p (.dist d'), T, .ret true), by simp only [heapDist, h2, h3, hd], rfl, rfl, rfl, rfl, fun c _ hc => ?_, ?_, ?_⟩
  · have : c ≠ p := fun e => hc (by rw [h2, e])
    simp only [TaskMem.write, Function.update_of_ne this]
  · exact ⟨⟨b, a, kn, by simp only [TaskMem.write, Function.update_of_ne h4, h1]⟩, p, d', h2, by simp [TaskMem.write]⟩
  · simp only [HTask.view, TaskMem.write, Function.update_of_ne h4, h1, h2, Function.update_self]

theorem heapWeight_sim {h : TaskMem} {T : HTask n k m} (hT : ValidPointers h T) {t : Task n k m} (ht : T.view h = .ok t)
    (fb : Option ℝ → Option ℝ) (fa : Option Bool → Option Bool) (fk : Option KernelType → Option KernelType) :
    ∃ r, heapWeight h T (fun b a kn => .weight (fb b) (fa a) (fk kn)) = .ok r ∧
      CallOk h T { t with set := { t.set with bandwidth := fb t.set.bandwidth, adaptive := fa t.set.adaptive, kernel := fk t.set.kernel } } (.ret true) r := by
  obtain ⟨b, a, kn, p, d, h1, h2, h3, h4, h5⟩ := typed_view hT
  cases Res.ok.inj (h5.symm.trans ht)
  refine ⟨(h.write T.weight (.weight (fb b) (fa a) (fk kn)), T, .ret true), by simp only [heapWeight, h1], rfl, rfl, rfl, rfl, fun c hc _ => ?_, ?_, ?_⟩
  · simp only [TaskMem.write, Function.update_of_ne hc]
  · exact ⟨⟨fb b, fa a, fk kn, by simp only [TaskMem.write, Function.update_self]⟩, p, d, h2, by simp only [TaskMem.write, Function.update_of_ne (Ne.symm h4), h3]⟩
  · simp only [HTask.view, TaskMem.write, Function.update_self, h2, Function.update_of_ne (Ne.symm h4), h3]

theorem call_sim {h : TaskMem} {T : HTask n k m} (hT : ValidPointers h T) {t : Task n k m} (ht : T.view h = .ok t) (op : TaskOp)
    (hop : ∀ type, op ≠ .setDistanceType type) :
    (∀ t' o, taskStep t op = .ok (t', o) → ∃ r, heapCall h T op = .ok r ∧ CallOk h T t' o r) ∧
    ((∀ r, taskStep t op ≠ .ok r) → ∀ r, heapCall h T op ≠ .ok r) := by
  by_cases hp : TaskOp.throughPointer op = true
  · cases op <;> simp only [TaskOp.throughPointer, Bool.false_eq_true] at hp
    case setDistanceType type => exact absurd rfl (hop type)
    case setGeographic g =>
      obtain ⟨d, e1, e2, e3⟩ := heapDist_sim hT ht fun | .crs _ => some (.crs g) | .minkwoski _ p θ => some (.minkwoski g p θ)
      simp only [taskStep, e1, heapCall]
      rcases d with ⟨g'⟩ | ⟨g', p, θ⟩
      · exact ⟨fun t' o h => by cases Res.ok.inj h; exact e2 _ rfl, fun h => absurd rfl (h _)⟩
      · exact ⟨fun t' o h => by cases Res.ok.inj h; exact e2 _ rfl, fun h => absurd rfl (h _)⟩
    case setPoly q =>
      obtain ⟨d, e1, e2, e3⟩ := heapDist_sim hT ht fun | .minkwoski g _ θ => some (.minkwoski g q θ) | .crs _ => none
      simp only [taskStep, e1, heapCall]
      rcases d with ⟨g'⟩ | ⟨g', p, θ⟩
      · exact ⟨fun t' o h => (by cases h), fun _ r h => absurd ((e3 rfl).symm.trans h) (by simp)⟩
      · exact ⟨fun t' o h => by cases Res.ok.inj h; exact e2 _ rfl, fun h => absurd rfl (h _)⟩
    case setTheta q =>
      obtain ⟨d, e1, e2, e3⟩ := heapDist_sim hT ht fun | .minkwoski g p _ => some (.minkwoski g p q) | .crs _ => none
      simp only [taskStep, e1, heapCall]
      rcases d with ⟨g'⟩ | ⟨g', p, θ⟩
      · exact ⟨fun t' o h => (by cases h), fun _ r h => absurd ((e3 rfl).symm.trans h) (by simp)⟩
      · exact ⟨fun t' o h => by cases Res.ok.inj h; exact e2 _ rfl, fun h => absurd rfl (h _)⟩
    case setBandwidthSize b =>
      exact ⟨fun t' o h => by cases Res.ok.inj h; exact heapWeight_sim hT ht (fun _ => some b) id id, fun h => absurd rfl (h _)⟩
    case setBandwidthAdaptive b =>
      exact ⟨fun t' o h => by cases Res.ok.inj h; exact heapWeight_sim hT ht id (fun _ => some b) id, fun h => absurd rfl (h _)⟩
    case setBandwidthKernel i =>
      simp only [taskStep, heapCall]
      cases kernelOf i with
      | none => exact ⟨fun t' o h => (by cases h), fun _ r h => (by cases h)⟩
      | some kn => exact ⟨fun t' o h => by cases Res.ok.inj h; exact heapWeight_sim hT ht id id fun _ => some kn, fun h => absurd rfl (h _)⟩
  · have hp : TaskOp.throughPointer op = false := by simpa using hp
    have hcall : heapCall h T op = (taskStep t op).bind fun p => .ok (h, { T with own := p.1 }, p.2) := by
      cases op <;> simp only [TaskOp.throughPointer, Bool.true_eq_false] at hp <;> simp only [heapCall, ht, Res.bind]
    rw [hcall]
    constructor
    · intro t' o hs
      rw [hs]
      refine ⟨_, rfl, rfl, rfl, rfl, rfl, fun _ _ _ => rfl, hT, ?_⟩
      obtain ⟨b, a, kn, p, d, h1, h2, h3, h4, h5⟩ := typed_view hT
      cases Res.ok.inj (h5.symm.trans ht)
      obtain ⟨s1, s2, s3, s4⟩ := step_direct hp hs
      simp only [HTask.view, h1, h2, h3]
      dsimp only at s1 s2 s3 s4
      rw [← s1, ← s2, ← s3, ← s4]
    · intro hs r hr
      obtain ⟨q, hq, -⟩ := Res.bind_eq_ok'.1 hr
      exact hs q hq

/-! ## Ownership -/

/-- An existing task owns an address. -/
def OwnsAddress (o : Option (HTask n k m)) (a : ℕ) : Prop := ∃ T, o = some T ∧ (T.weight = a ∨ T.dist = some a)

/-- Every object belongs to exactly one task or is lost. -/
structure OwnedMemory (w : TaskWorld n k m) (L : Finset ℕ) : Prop where
  typed : ∀ i T, w.tasks i = some T → ValidPointers w.heap T
  single : ∀ i j a, OwnsAddress (w.tasks i) a → OwnsAddress (w.tasks j) a → i = j
  notLost : ∀ i a, OwnsAddress (w.tasks i) a → a ∉ L
  cover : ∀ a, w.heap.mem a ≠ none → a ∈ L ∨ ∃ i, OwnsAddress (w.tasks i) a
  there : ∀ a ∈ L, w.heap.mem a ≠ none
  bound : ∀ a, w.heap.mem a ≠ none → a < w.heap.next

theorem owns_there {h : TaskMem} {o : Option (HTask n k m)} (ht : ∀ T, o = some T → ValidPointers h T) {a : ℕ} (ha : OwnsAddress o a) : h.mem a ≠ none := by
  obtain ⟨T, rfl, hT⟩ := ha
  obtain ⟨b, a', kn, p, d, h1, h2, h3, -, -⟩ := typed_view (ht T rfl)
  rcases hT with rfl | hT
  · rw [h1]; simp
  · rw [h2] at hT; cases hT; rw [h3]; simp

theorem ownedMemory_step {w : TaskWorld n k m} {L : Finset ℕ} (hI : OwnedMemory w L) (i : ℕ) (o' : Option (HTask n k m)) (h' : TaskMem) (L' : Finset ℕ)
    (frame : ∀ a < w.heap.next, ¬ OwnsAddress (w.tasks i) a → h'.mem a = w.heap.mem a) (typed : ∀ T, o' = some T → ValidPointers h' T)
    (fresh : ∀ a, OwnsAddress o' a → w.heap.next ≤ a ∨ OwnsAddress (w.tasks i) a) (sub : L ⊆ L')
    (new : ∀ a ∈ L', a ∈ L ∨ (OwnsAddress (w.tasks i) a ∧ ¬ OwnsAddress o' a ∧ h'.mem a ≠ none))
    (cover : ∀ a, h'.mem a ≠ none → a < h'.next ∧ (a ∈ L' ∨ OwnsAddress o' a ∨ (a < w.heap.next ∧ ¬ OwnsAddress (w.tasks i) a))) :
    OwnedMemory ⟨h', Function.update w.tasks i o'⟩ L' := by
  have lt : ∀ j a, OwnsAddress (w.tasks j) a → a < w.heap.next := fun j a ha => hI.bound a (owns_there (hI.typed j) ha)
  have other : ∀ j, j ≠ i → Function.update w.tasks i o' j = w.tasks j := fun j hj => Function.update_of_ne hj _ _
  have keep : ∀ j, j ≠ i → ∀ a, OwnsAddress (w.tasks j) a → h'.mem a = w.heap.mem a := fun j hj a ha =>
    frame a (lt j a ha) fun hi => hj (hI.single j i a ha hi)
  have apart : ∀ j, j ≠ i → ∀ a, OwnsAddress o' a → OwnsAddress (w.tasks j) a → False := fun j hj a h1 h2 => by
    rcases fresh a h1 with h | h
    · exact absurd (lt j a h2) (by omega)
    · exact hj (hI.single j i a h2 h)
  refine ⟨fun j T hj => ?_, fun j j' a hj hj' => ?_, fun j a hj ha => ?_, fun a ha => ?_, fun a ha => ?_, fun a ha => (cover a ha).1⟩
  · dsimp only at hj ⊢
    by_cases hij : j = i
    · subst hij; rw [Function.update_self] at hj; exact typed T hj
    · rw [other j hij] at hj
      obtain ⟨⟨b, a, kn, h1⟩, p, d, h2, h3⟩ := hI.typed j T hj
      exact ⟨⟨b, a, kn, by rw [keep j hij _ ⟨T, hj, Or.inl rfl⟩, h1]⟩, p, d, h2, by rw [keep j hij _ ⟨T, hj, Or.inr h2⟩, h3]⟩
  · dsimp only at hj hj'
    by_cases h1 : j = i <;> by_cases h2 : j' = i
    · rw [h1, h2]
    · subst h1; rw [Function.update_self] at hj; rw [other j' h2] at hj'
      exact (apart j' h2 a hj hj').elim
    · subst h2; rw [Function.update_self] at hj'; rw [other j h1] at hj
      exact (apart j h1 a hj' hj).elim
    · rw [other j h1] at hj; rw [other j' h2] at hj'
      exact hI.single j j' a hj hj'
  · dsimp only at hj
    by_cases h1 : j = i
    · subst h1; rw [Function.update_self] at hj
      rcases new a ha with h | ⟨-, h, -⟩
      · rcases fresh a hj with h3 | h3
        · exact absurd (hI.bound a (hI.there a h)) (by omega)
        · exact hI.notLost j a h3 h
      · exact h hj
    · rw [other j h1] at hj
      rcases new a ha with h | ⟨h, -, -⟩
      · exact hI.notLost j a hj h
      · exact h1 (hI.single j i a hj h)
  · dsimp only at ha ⊢
    obtain ⟨-, h | h | ⟨h1, h2⟩⟩ := cover a ha
    · exact Or.inl h
    · exact Or.inr ⟨i, by rw [Function.update_self]; exact h⟩
    · rw [frame a h1 h2] at ha
      rcases hI.cover a ha with h | ⟨j, hj⟩
      · exact Or.inl (sub h)
      · refine Or.inr ⟨j, ?_⟩
        rw [other j fun e => h2 (e ▸ hj)]; exact hj
  · dsimp only
    rcases new a ha with h | ⟨-, -, h⟩
    · rw [frame a (hI.bound a (hI.there a h)) fun ho => hI.notLost i a ho h]
      exact hI.there a h
    · exact h

/-- The tasks on the heap are the tasks as values, but for diagnostics. -/
def Represents (w : TaskWorld n k m) (v : Tasks n k m) : Prop :=
  ∀ i, (w.tasks i = none → v i = none) ∧ ∀ T, w.tasks i = some T → ∃ t u, T.view w.heap = .ok t ∧ v i = some u ∧ SameButDiagnostics t u

theorem represents_step {w : TaskWorld n k m} {L : Finset ℕ} (hI : OwnedMemory w L) {v : Tasks n k m} (hR : Represents w v) (i : ℕ)
    (o' : Option (HTask n k m)) (ou : Option (Task n k m)) (h' : TaskMem)
    (frame : ∀ a < w.heap.next, ¬ OwnsAddress (w.tasks i) a → h'.mem a = w.heap.mem a)
    (ho : (o' = none → ou = none) ∧ ∀ T, o' = some T → ∃ t u, T.view h' = .ok t ∧ ou = some u ∧ SameButDiagnostics t u) :
    Represents ⟨h', Function.update w.tasks i o'⟩ (Function.update v i ou) := by
  intro j
  dsimp only
  by_cases hij : j = i
  · subst hij; rw [Function.update_self, Function.update_self]; exact ho
  · rw [Function.update_of_ne hij, Function.update_of_ne hij]
    refine ⟨(hR j).1, fun T hT => ?_⟩
    obtain ⟨t, u, h1, h2, h3⟩ := (hR j).2 T hT
    have keep : ∀ a, OwnsAddress (w.tasks j) a → h'.mem a = w.heap.mem a := fun a ha =>
      frame a (hI.bound a (owns_there (hI.typed j) ha)) fun hi => hij (hI.single j i a ha hi)
    exact ⟨t, u, by rw [view_congr (keep _ ⟨T, hT, Or.inl rfl⟩) fun p hp => keep _ ⟨T, hT, Or.inr hp⟩, h1], h2, h3⟩

/-! ## Steps -/

/-- The code and the values agree about a step. -/
def StepAgrees (w : TaskWorld n k m) (v : Tasks n k m) (L : Finset ℕ) (a : TaskAct n k m) : Prop :=
  (∃ w' v' o L', worldStep w a = .ok (w', o) ∧ idealStep v a = .ok (v', o) ∧ OwnedMemory w' L' ∧ Represents w' v' ∧ L'.card = L.card + lost a) ∨
  ((∀ r, worldStep w a ≠ .ok r) ∧ ∀ r, idealStep v a ≠ .ok r)

theorem new_pair {w : TaskWorld n k m} {L : Finset ℕ} (hI : OwnedMemory w L) (d : TaskDistance) (b : Option ℝ) (a : Option Bool) (kn : Option KernelType) :
    let h' := (w.heap.alloc (.dist d)).alloc (.weight b a kn)
    h'.mem w.heap.next = some (.dist d) ∧ h'.mem (w.heap.next + 1) = some (.weight b a kn) ∧ h'.next = w.heap.next + 2 ∧
      (∀ c, c < w.heap.next → h'.mem c = w.heap.mem c) ∧
      ∀ c, h'.mem c ≠ none → c = w.heap.next ∨ c = w.heap.next + 1 ∨ (c < w.heap.next ∧ w.heap.mem c ≠ none) := by
  intro h'
  have e : ∀ c, h'.mem c = if c = w.heap.next + 1 then some (.weight b a kn) else if c = w.heap.next then some (.dist d) else w.heap.mem c := fun c => by
    simp only [h', TaskMem.alloc, Function.update_apply]
  refine ⟨by rw [e, if_neg (by omega), if_pos rfl], by rw [e, if_pos rfl], rfl, fun c hc => by rw [e, if_neg (by omega), if_neg (by omega)], fun c hc => ?_⟩
  rw [e] at hc
  by_cases h1 : c = w.heap.next + 1
  · exact Or.inr (Or.inl h1)
  · by_cases h2 : c = w.heap.next
    · exact Or.inl h2
    · rw [if_neg h1, if_neg h2] at hc
      exact Or.inr (Or.inr ⟨hI.bound c hc, hc⟩)

/-- A task with two new objects takes the place `i`; the objects that a task had there are lost. -/
theorem place_pair {w : TaskWorld n k m} {L : Finset ℕ} (hI : OwnedMemory w L) {v : Tasks n k m} (hR : Represents w v) (i : ℕ) (t u : Task n k m) (d : TaskDistance)
    (b : Option ℝ) (a : Option Bool) (kn : Option KernelType)
    (hu : SameButDiagnostics { t with set := { t.set with distance := some d, bandwidth := b, adaptive := a, kernel := kn } } u) :
    ∃ L', OwnedMemory ⟨(w.heap.alloc (.dist d)).alloc (.weight b a kn), Function.update w.tasks i (some ⟨t, some w.heap.next, w.heap.next + 1⟩)⟩ L' ∧
      Represents ⟨(w.heap.alloc (.dist d)).alloc (.weight b a kn), Function.update w.tasks i (some ⟨t, some w.heap.next, w.heap.next + 1⟩)⟩
        (Function.update v i (some u)) ∧ L'.card = L.card + if w.tasks i = none then 0 else 2 := by
  obtain ⟨n1, n2, n3, n4, n5⟩ := new_pair hI d b a kn
  set h' := (w.heap.alloc (.dist d)).alloc (.weight b a kn) with hh
  set T : HTask n k m := ⟨t, some w.heap.next, w.heap.next + 1⟩ with hTdef
  have typed : ValidPointers h' T := ⟨⟨b, a, kn, n2⟩, _, d, rfl, n1⟩
  have ownT : ∀ c, OwnsAddress (some T) c ↔ c = w.heap.next ∨ c = w.heap.next + 1 := fun c => by
    constructor
    · rintro ⟨T', e, h⟩
      cases e
      rcases h with h | h
      · exact Or.inr h.symm
      · exact Or.inl (Option.some.inj h).symm
    · rintro (rfl | rfl)
      · exact ⟨T, rfl, Or.inr rfl⟩
      · exact ⟨T, rfl, Or.inl rfl⟩
  have rep := represents_step hI hR i (some T) (some u) h' (fun c hc _ => n4 c hc)
    ⟨fun e => (by cases e), fun T' e => by
      cases e
      exact ⟨_, u, by simp only [HTask.view, hTdef, n1, n2], rfl, hu⟩⟩
  cases hi : w.tasks i with
  | none =>
    have no : ∀ c, ¬ OwnsAddress (w.tasks i) c := fun c ⟨T', e, _⟩ => by rw [hi] at e; cases e
    refine ⟨L, ownedMemory_step hI i (some T) h' L (fun c hc _ => n4 c hc) (fun T' e => by cases e; exact typed) (fun c hc => Or.inl ?_) (Finset.Subset.refl _)
      (fun c hc => Or.inl hc) fun c hc => ?_, rep, by simp⟩
    · rcases (ownT c).1 hc with rfl | rfl <;> omega
    · rcases n5 c hc with rfl | rfl | ⟨h1, h2⟩
      · exact ⟨by omega, Or.inr (Or.inl ((ownT _).2 (Or.inl rfl)))⟩
      · exact ⟨by omega, Or.inr (Or.inl ((ownT _).2 (Or.inr rfl)))⟩
      · exact ⟨by omega, Or.inr (Or.inr ⟨h1, no c⟩)⟩
  | some S =>
    obtain ⟨b', a', kn', p, d', s1, s2, s3, s4, -⟩ := typed_view (hI.typed i S hi)
    have ownS : ∀ c, OwnsAddress (w.tasks i) c ↔ c = S.weight ∨ c = p := fun c => by
      constructor
      · rintro ⟨T', e, h⟩
        rw [hi] at e; cases e
        rcases h with h | h
        · exact Or.inl h.symm
        · rw [s2] at h; exact Or.inr (Option.some.inj h).symm
      · rintro (rfl | rfl)
        · exact ⟨S, hi, Or.inl rfl⟩
        · exact ⟨S, hi, Or.inr s2⟩
    have b1 : S.weight < w.heap.next := hI.bound _ (by rw [s1]; simp)
    have b2 : p < w.heap.next := hI.bound _ (by rw [s3]; simp)
    have f1 : S.weight ∉ L := hI.notLost i _ ((ownS _).2 (Or.inl rfl))
    have f2 : p ∉ L := hI.notLost i _ ((ownS _).2 (Or.inr rfl))
    refine ⟨insert S.weight (insert p L), ownedMemory_step hI i (some T) h' _ (fun c hc _ => n4 c hc) (fun T' e => by cases e; exact typed)
      (fun c hc => Or.inl ?_) (fun c hc => by simp [hc]) (fun c hc => ?_) fun c hc => ?_, rep, ?_⟩
    · rcases (ownT c).1 hc with rfl | rfl <;> omega
    · rw [Finset.mem_insert, Finset.mem_insert] at hc
      rcases hc with rfl | rfl | hc
      · exact Or.inr ⟨(ownS _).2 (Or.inl rfl), fun h => by rcases (ownT _).1 h with h | h <;> omega, by rw [n4 _ b1, s1]; simp⟩
      · exact Or.inr ⟨(ownS _).2 (Or.inr rfl), fun h => by rcases (ownT _).1 h with h | h <;> omega, by rw [n4 _ b2, s3]; simp⟩
      · exact Or.inl hc
    · rcases n5 c hc with rfl | rfl | ⟨h1, h2⟩
      · exact ⟨by omega, Or.inr (Or.inl ((ownT _).2 (Or.inl rfl)))⟩
      · exact ⟨by omega, Or.inr (Or.inl ((ownT _).2 (Or.inr rfl)))⟩
      · refine ⟨by omega, ?_⟩
        by_cases ho : OwnsAddress (w.tasks i) c
        · exact Or.inl (by rcases (ownS c).1 ho with rfl | rfl <;> simp)
        · exact Or.inr (Or.inr ⟨h1, ho⟩)
    · rw [Finset.card_insert_of_notMem (by simp [f1, s4]), Finset.card_insert_of_notMem f2]; simp

theorem clone_ok {h : TaskMem} {S : HTask n k m} (hS : ValidPointers h S) : ∃ b a kn d,
    heapClone h S = .ok ((h.alloc (.dist d)).alloc (.weight b a kn), h.next, h.next + 1) ∧
    S.view h = .ok { S.own with set := { S.own.set with distance := some d, bandwidth := b, adaptive := a, kernel := kn } } := by
  obtain ⟨b, a, kn, p, d, h1, h2, h3, -, h5⟩ := typed_view hS
  exact ⟨b, a, kn, d, by simp only [heapClone, h2, h3, h1], h5⟩

theorem step_agrees {w : TaskWorld n k m} {L : Finset ℕ} (hI : OwnedMemory w L) {v : Tasks n k m} (hR : Represents w v) (a : TaskAct n k m)
    (ha : ∀ name x y c l type, a = .create name x y c l type → type < 2) : StepAgrees w v L a := by
  cases a with
  | create name x y c l type =>
    cases hn : w.tasks name with
    | some T =>
      obtain ⟨t, u, -, hu, -⟩ := (hR name).2 T hn
      exact Or.inr ⟨fun r h => (by simp only [worldStep, hn] at h; cases h), fun r h => (by simp only [idealStep, hu] at h; cases h)⟩
    | none =>
      have hv := (hR name).1 hn
      obtain ⟨d, hd⟩ : ∃ d, newDistance type = some d := by
        have := ha name x y c l type rfl
        unfold newDistance
        by_cases h0 : type = 0
        · exact ⟨_, if_pos h0⟩
        · exact ⟨_, by rw [if_neg h0, if_pos (by omega)]⟩
      obtain ⟨L', e1, e2, e3⟩ := place_pair hI hR name (Task.create x y c l type) (Task.create x y c l type) d none none none
        (by simp only [SameButDiagnostics, Task.create, hd])
      refine Or.inl ⟨_, _, none, L', ?_, ?_, e1, e2, by simpa [hn, lost] using e3⟩
      · simp only [worldStep, hn, heapCreate, Task.create, hd]
      · simp only [idealStep, hv]
  | copy source name =>
    cases hs : w.tasks source with
    | none =>
      exact Or.inr ⟨fun r h => (by simp only [worldStep, hs] at h; cases h), fun r h => (by simp only [idealStep, (hR source).1 hs] at h; cases h)⟩
    | some S =>
    obtain ⟨s, us, hs1, hs2, hs3⟩ := (hR source).2 S hs
    cases hn : w.tasks name with
    | some T =>
      obtain ⟨t, u, -, hu, -⟩ := (hR name).2 T hn
      exact Or.inr ⟨fun r h => (by simp only [worldStep, hs, hn] at h; cases h), fun r h => (by simp only [idealStep, hs2, hu] at h; cases h)⟩
    | none =>
      obtain ⟨b, a, kn, d, c1, c2⟩ := clone_ok (hI.typed source S hs)
      cases Res.ok.inj (c2.symm.trans hs1)
      obtain ⟨L', e1, e2, e3⟩ := place_pair hI hR name { S.own with res := { S.own.res with diagnostic := zeroDiagnostic } } us d b a kn
        (by unfold SameButDiagnostics at hs3 ⊢; rw [hs3])
      refine Or.inl ⟨_, _, none, L', ?_, ?_, e1, e2, by simpa [hn, lost] using e3⟩
      · simp only [worldStep, hs, hn, heapCopy, c1, Res.bind]
      · simp only [idealStep, hs2, (hR name).1 hn]
  | assign target source =>
    cases ht : w.tasks target with
    | none =>
      exact Or.inr ⟨fun r h => (by simp only [worldStep, ht] at h; cases h), fun r h => (by simp only [idealStep, (hR target).1 ht] at h; cases h)⟩
    | some T =>
    obtain ⟨t, ut, ht1, ht2, ht3⟩ := (hR target).2 T ht
    cases hs : w.tasks source with
    | none =>
      exact Or.inr ⟨fun r h => (by simp only [worldStep, ht, hs] at h; cases h), fun r h => (by simp only [idealStep, ht2, (hR source).1 hs] at h; cases h)⟩
    | some S =>
      obtain ⟨s, us, hs1, hs2, hs3⟩ := (hR source).2 S hs
      obtain ⟨b, a, kn, d, c1, c2⟩ := clone_ok (hI.typed source S hs)
      cases Res.ok.inj (c2.symm.trans hs1)
      obtain ⟨L', e1, e2, e3⟩ := place_pair hI hR target { S.own with res := { S.own.res with diagnostic := T.own.res.diagnostic } } us d b a kn
        (by unfold SameButDiagnostics at hs3 ⊢; rw [hs3])
      refine Or.inl ⟨_, _, none, L', ?_, ?_, e1, e2, by simpa [ht, lost] using e3⟩
      · simp only [worldStep, ht, hs, heapAssign, c1, Res.bind]
      · simp only [idealStep, ht2, hs2]
  | call name op =>
    cases hn : w.tasks name with
    | none =>
      exact Or.inr ⟨fun r h => (by simp only [worldStep, hn] at h; cases h), fun r h => (by simp only [idealStep, (hR name).1 hn] at h; cases h)⟩
    | some T =>
    obtain ⟨t, u, ht1, ht2, ht3⟩ := (hR name).2 T hn
    have hT := hI.typed name T hn
    obtain ⟨b, a, kn, p, d, s1, s2, s3, s4, s5⟩ := typed_view hT
    have own : ∀ c, OwnsAddress (w.tasks name) c ↔ c = T.weight ∨ c = p := fun c => by
      constructor
      · rintro ⟨T', e, h⟩
        rw [hn] at e; cases e
        rcases h with h | h
        · exact Or.inl h.symm
        · rw [s2] at h; exact Or.inr (Option.some.inj h).symm
      · rintro (rfl | rfl)
        · exact ⟨T, hn, Or.inl rfl⟩
        · exact ⟨T, hn, Or.inr s2⟩
    by_cases hop : ∃ type, op = .setDistanceType type
    · obtain ⟨type, rfl⟩ := hop
      cases hd : newDistance type with
      | none =>
        have hl : lost (TaskAct.call name (.setDistanceType type) : TaskAct n k m) = 0 := by
          simp only [lost]
          rw [if_neg]
          intro h2
          unfold newDistance at hd
          by_cases h0 : type = 0
          · rw [if_pos h0] at hd; cases hd
          · rw [if_neg h0, if_pos (by omega)] at hd; cases hd
        refine Or.inl ⟨w, v, some (.ret true), L, ?_, ?_, hI, hR, by rw [hl]; rfl⟩
        · simp only [worldStep, hn, heapCall, hd, Res.bind]
          rw [← hn, Function.update_eq_self]
        · simp only [idealStep, ht2, taskStep, hd, Res.bind]
          rw [← ht2, Function.update_eq_self]
      | some d' =>
        have hl : lost (TaskAct.call name (.setDistanceType type) : TaskAct n k m) = 1 := by
          simp only [lost]
          rw [if_pos]
          unfold newDistance at hd
          by_contra h2
          rw [if_neg (by omega), if_neg (by omega)] at hd; cases hd
        have bw : T.weight < w.heap.next := hI.bound _ (by rw [s1]; simp)
        have bp : p < w.heap.next := hI.bound _ (by rw [s3]; simp)
        have e : ∀ c, (w.heap.alloc (.dist d')).mem c = if c = w.heap.next then some (.dist d') else w.heap.mem c := fun c => by
          simp only [TaskMem.alloc, Function.update_apply]
        have old : ∀ c, c < w.heap.next → (w.heap.alloc (.dist d')).mem c = w.heap.mem c := fun c hc => by rw [e, if_neg (by omega)]
        have own' : ∀ c, OwnsAddress (some ({ T with dist := some w.heap.next } : HTask n k m)) c ↔ c = T.weight ∨ c = w.heap.next := fun c => by
          constructor
          · rintro ⟨T', e, h⟩
            cases e
            rcases h with h | h
            · exact Or.inl h.symm
            · exact Or.inr (Option.some.inj h).symm
          · rintro (rfl | rfl)
            · exact ⟨_, rfl, Or.inl rfl⟩
            · exact ⟨_, rfl, Or.inr rfl⟩
        cases Res.ok.inj (s5.symm.trans ht1)
        refine Or.inl ⟨⟨w.heap.alloc (.dist d'), Function.update w.tasks name (some { T with dist := some w.heap.next })⟩,
          Function.update v name (some { u with set := { u.set with distance := some d' } }), some (.ret true), insert p L, ?_, ?_, ?_, ?_, ?_⟩
        · simp only [worldStep, hn, heapCall, hd, Res.bind]
        · simp only [idealStep, ht2, taskStep, hd, Res.bind]
        · refine ownedMemory_step hI name _ _ _ (fun c hc _ => old c hc) (fun T' e' => ?_) (fun c hc => ?_) (fun c hc => by simp [hc]) (fun c hc => ?_) fun c hc => ?_
          · cases e'
            exact ⟨⟨b, a, kn, by rw [old _ bw, s1]⟩, _, d', rfl, by rw [e, if_pos rfl]⟩
          · rcases (own' c).1 hc with rfl | rfl
            · exact Or.inr ((own _).2 (Or.inl rfl))
            · exact Or.inl (le_refl _)
          · rw [Finset.mem_insert] at hc
            rcases hc with rfl | hc
            · refine Or.inr ⟨(own _).2 (Or.inr rfl), fun h => ?_, by rw [old _ bp, s3]; simp⟩
              rcases (own' _).1 h with h | h
              · exact s4 h.symm
              · omega
            · exact Or.inl hc
          · rw [e] at hc
            have hlt : c < w.heap.next + 1 := by
              by_cases h0 : c = w.heap.next
              · omega
              · rw [if_neg h0] at hc; have := hI.bound c hc; omega
            refine ⟨hlt, ?_⟩
            by_cases h0 : c = w.heap.next
            · exact Or.inr (Or.inl ((own' c).2 (Or.inr h0)))
            · by_cases ho : OwnsAddress (w.tasks name) c
              · rcases (own c).1 ho with rfl | rfl
                · exact Or.inr (Or.inl ((own' _).2 (Or.inl rfl)))
                · exact Or.inl (by simp)
              · exact Or.inr (Or.inr ⟨by omega, ho⟩)
        · refine represents_step hI hR name _ _ _ (fun c hc _ => old c hc) ⟨fun h => (by cases h), fun T' e' => ?_⟩
          cases e'
          refine ⟨{ T.own with set := { T.own.set with distance := some d', bandwidth := b, adaptive := a, kernel := kn } }, _, ?_, rfl, ?_⟩
          · simp only [HTask.view, old _ bw, s1, e, if_true]
          · have := ht3
            unfold SameButDiagnostics at this ⊢
            rw [this]
        · rw [hl, Finset.card_insert_of_notMem (hI.notLost name p ((own _).2 (Or.inr rfl)))]
    · have hop' : ∀ type, op ≠ .setDistanceType type := fun type e => hop ⟨type, e⟩
      have hl : lost (TaskAct.call name op : TaskAct n k m) = 0 := by
        cases op <;> first | rfl | exact absurd rfl (hop' _)
      obtain ⟨c1, c2⟩ := call_sim hT ht1 op hop'
      by_cases hs : ∃ r, taskStep t op = .ok r
      · obtain ⟨⟨t', o⟩, hs⟩ := hs
        obtain ⟨u', hu1, hu2⟩ := sbd_step ht3 hs
        obtain ⟨⟨h', T', o'⟩, f1, f2, f3, f4, f5, f6, f7, f8⟩ := c1 t' o hs
        dsimp only at f2 f3 f4 f5 f6 f7 f8
        subst f2
        have own' : ∀ c, OwnsAddress (some T') c ↔ OwnsAddress (w.tasks name) c := fun c => by
          unfold OwnsAddress
          rw [hn]
          constructor
          · rintro ⟨T1, e, h⟩; cases e; exact ⟨T, rfl, by rw [f3, f4] at h; exact h⟩
          · rintro ⟨T1, e, h⟩; cases e; exact ⟨T', rfl, by rw [f3, f4]; exact h⟩
        have frame : ∀ c, ¬ OwnsAddress (w.tasks name) c → h'.mem c = w.heap.mem c := fun c hc =>
          f6 c (fun e => hc ((own c).2 (Or.inl e))) fun e => hc ⟨T, hn, Or.inr e⟩
        refine Or.inl ⟨⟨h', Function.update w.tasks name (some T')⟩, Function.update v name (some u'), some o', L, ?_, ?_, ?_, ?_, by rw [hl]; rfl⟩
        · simp only [worldStep, hn, f1, Res.bind]
        · simp only [idealStep, ht2, hu1, Res.bind]
        · refine ownedMemory_step hI name _ _ _ (fun c _ hc => frame c hc) (fun T1 e => by cases e; exact f7) (fun c hc => Or.inr ((own' c).1 hc))
            (Finset.Subset.refl _) (fun c hc => Or.inl hc) fun c hc => ?_
          by_cases ho : OwnsAddress (w.tasks name) c
          · exact ⟨by rw [f5]; exact hI.bound c (owns_there (hI.typed name) ho), Or.inr (Or.inl ((own' c).2 ho))⟩
          · rw [frame c ho] at hc
            have := hI.bound c hc
            exact ⟨by rw [f5]; exact this, Or.inr (Or.inr ⟨this, ho⟩)⟩
        · refine represents_step hI hR name _ _ _ (fun c _ hc => frame c hc) ⟨fun h => (by cases h), fun T1 e => ?_⟩
          cases e
          exact ⟨t', u', f8, rfl, hu2⟩
      · refine Or.inr ⟨fun r h => ?_, fun r h => ?_⟩
        · simp only [worldStep, hn] at h
          obtain ⟨q, hq, -⟩ := Res.bind_eq_ok'.1 h
          exact c2 (fun r hr => hs ⟨r, hr⟩) q hq
        · simp only [idealStep, ht2] at h
          obtain ⟨⟨q, o⟩, hq, -⟩ := Res.bind_eq_ok'.1 h
          obtain ⟨t', e, -⟩ := sbd_step (sbd_symm ht3) hq
          exact hs ⟨_, e⟩
  | destroy name =>
    cases hn : w.tasks name with
    | none =>
      exact Or.inr ⟨fun r h => (by simp only [worldStep, hn] at h; cases h), fun r h => (by simp only [idealStep, (hR name).1 hn] at h; cases h)⟩
    | some T =>
      obtain ⟨t, u, ht1, ht2, ht3⟩ := (hR name).2 T hn
      obtain ⟨b, a, kn, p, d, s1, s2, s3, s4, s5⟩ := typed_view (hI.typed name T hn)
      have own : ∀ c, OwnsAddress (w.tasks name) c ↔ c = T.weight ∨ c = p := fun c => by
        constructor
        · rintro ⟨T', e, h⟩
          rw [hn] at e; cases e
          rcases h with h | h
          · exact Or.inl h.symm
          · rw [s2] at h; exact Or.inr (Option.some.inj h).symm
        · rintro (rfl | rfl)
          · exact ⟨T, hn, Or.inl rfl⟩
          · exact ⟨T, hn, Or.inr s2⟩
      have e : ∀ c, (Function.update (Function.update w.heap.mem p none) T.weight none) c = if c = T.weight ∨ c = p then none else w.heap.mem c := fun c => by
        simp only [Function.update_apply]
        by_cases h1 : c = T.weight <;> by_cases h2 : c = p <;> simp [h1, h2]
      have hdes : heapDestroy w.heap T = .ok ⟨Function.update (Function.update w.heap.mem p none) T.weight none, w.heap.next⟩ := by
        simp only [heapDestroy, s2, TaskMem.free, s3, Res.bind, Function.update_of_ne s4, s1]
      have no : ∀ c, ¬ OwnsAddress (none : Option (HTask n k m)) c := fun c ⟨T', e, _⟩ => by cases e
      refine Or.inl ⟨⟨⟨Function.update (Function.update w.heap.mem p none) T.weight none, w.heap.next⟩, Function.update w.tasks name none⟩,
        Function.update v name none, none, L, ?_, ?_, ?_, ?_, rfl⟩
      · simp only [worldStep, hn, hdes, Res.bind]
      · simp only [idealStep, ht2]
      · refine ownedMemory_step hI name _ _ _ (fun c _ hc => ?_) (fun T1 e => by cases e) (fun c hc => absurd hc (no c)) (Finset.Subset.refl _)
          (fun c hc => Or.inl hc) fun c hc => ?_
        · dsimp only
          rw [e, if_neg fun h => hc ((own c).2 h)]
        · dsimp only at hc ⊢
          rw [e] at hc
          by_cases h1 : c = T.weight ∨ c = p
          · rw [if_pos h1] at hc; exact absurd rfl hc
          · rw [if_neg h1] at hc
            have := hI.bound c hc
            exact ⟨this, Or.inr (Or.inr ⟨this, fun h => h1 ((own c).1 h)⟩)⟩
      · refine represents_step hI hR name _ _ _ (fun c _ hc => ?_) ⟨fun _ => rfl, fun T1 e => by cases e⟩
        dsimp only
        rw [e, if_neg fun h => hc ((own c).2 h)]

/-- A whole program. -/
theorem run_agrees : ∀ (as : List (TaskAct n k m)) (w : TaskWorld n k m) (v : Tasks n k m) (L : Finset ℕ), OwnedMemory w L → Represents w v → TypesExist as →
    (∃ w' v' outs L', worldRun w as = .ok (w', outs) ∧ idealRun v as = .ok (v', outs) ∧ OwnedMemory w' L' ∧ Represents w' v' ∧ L'.card = L.card + (as.map lost).sum) ∨
    ((∀ r, worldRun w as ≠ .ok r) ∧ ∀ r, idealRun v as ≠ .ok r)
  | [], w, v, L, hI, hR, _ => Or.inl ⟨w, v, [], L, rfl, rfl, hI, hR, by simp⟩
  | a :: as, w, v, L, hI, hR, hT => by
    rcases step_agrees hI hR a (fun name x y c l type e => hT name x y c l type (by simp [e])) with ⟨w1, v1, o, L1, h1, h2, h3, h4, h5⟩ | ⟨h1, h2⟩
    · rcases run_agrees as w1 v1 L1 h3 h4 (fun name x y c l type e => hT name x y c l type (by simp [e])) with
        ⟨w2, v2, outs, L2, g1, g2, g3, g4, g5⟩ | ⟨g1, g2⟩
      · refine Or.inl ⟨w2, v2, o :: outs, L2, ?_, ?_, g3, g4, by rw [g5, h5, List.map_cons, List.sum_cons]; omega⟩
        · simp only [worldRun, h1, Res.bind, g1]
        · simp only [idealRun, h2, Res.bind, g2]
      · refine Or.inr ⟨fun r h => ?_, fun r h => ?_⟩
        · simp only [worldRun, h1, Res.bind] at h
          obtain ⟨q, hq, -⟩ := Res.bind_eq_ok'.1 h
          exact g1 q hq
        · simp only [idealRun, h2, Res.bind] at h
          obtain ⟨q, hq, -⟩ := Res.bind_eq_ok'.1 h
          exact g2 q hq
    · refine Or.inr ⟨fun r h => ?_, fun r h => ?_⟩
      · obtain ⟨q, hq, -⟩ := Res.bind_eq_ok'.1 h
        exact h1 q hq
      · obtain ⟨q, hq, -⟩ := Res.bind_eq_ok'.1 h
        exact h2 q hq

theorem owned_empty : OwnedMemory (emptyWorld : TaskWorld n k m) ∅ :=
  ⟨fun i T h => (by cases h), fun i j a ⟨T, h, _⟩ => (by cases h), fun i a ⟨T, h, _⟩ => (by cases h), fun a h => absurd rfl h, fun a h => (by simp at h),
    fun a h => absurd rfl h⟩

theorem represents_empty : Represents (emptyWorld : TaskWorld n k m) fun _ => none := fun i => ⟨fun _ => rfl, fun T h => (by cases h)⟩

/-- **C129 (copies).** Programs that create tasks with the two distances of the interface, copy, assign (also to themselves), call and destroy them in any order: the
program runs without memory errors exactly if it uses only tasks that exist and no call itself is undefined; all calls then end as if tasks were values,
copies independent of their originals, and at the end everything that can be read from any task is the same, except perhaps the diagnostics. -/
theorem C129_copies_are_values_partial (as : List (TaskAct n k m)) (h : TypesExist as) :
    (∀ w outs, worldRun emptyWorld as = .ok (w, outs) → ∃ v, idealRun (fun _ => none) as = .ok (v, outs) ∧
      ∀ i, (w.tasks i = none ↔ v i = none) ∧ ∀ T, w.tasks i = some T → ∃ t u, T.view w.heap = .ok t ∧ v i = some u ∧ SameButDiagnostics t u) ∧
    (∀ v outs, idealRun (fun _ => none) as = .ok (v, outs) → ∃ w, worldRun emptyWorld as = .ok (w, outs)) := by
  rcases run_agrees as emptyWorld _ ∅ owned_empty represents_empty h with ⟨w', v', outs', L', h1, h2, h3, h4, h5⟩ | ⟨h1, h2⟩
  · constructor
    · intro w outs e
      cases Res.ok.inj (h1.symm.trans e)
      refine ⟨v', h2, fun i => ⟨⟨(h4 i).1, fun hv => ?_⟩, (h4 i).2⟩⟩
      cases hT : w'.tasks i with
      | none => rfl
      | some T =>
        obtain ⟨t, u, -, hu, -⟩ := (h4 i).2 T hT
        rw [hv] at hu; cases hu
    · intro v outs e
      cases Res.ok.inj (h2.symm.trans e)
      exact ⟨w', h1⟩
  · exact ⟨fun w outs e => absurd e (h1 _), fun v outs e => absurd e (h2 _)⟩

/-- **C129 (memory).** After any such program that destroyed all its tasks, the objects still in memory are as many as the calls that chose one of the two types of distance
plus twice the number of assignments: a program without these loses nothing, every other program loses memory. -/
theorem C129_memory_lost (as : List (TaskAct n k m)) (h : TypesExist as) (w : TaskWorld n k m) (outs : List (Option Outcome))
    (hr : worldRun emptyWorld as = .ok (w, outs)) (hd : ∀ i, w.tasks i = none) : {a | w.heap.mem a ≠ none}.ncard = (as.map lost).sum := by
  rcases run_agrees as emptyWorld _ ∅ owned_empty represents_empty h with ⟨w', v', outs', L', h1, h2, h3, h4, h5⟩ | ⟨h1, h2⟩
  · cases Res.ok.inj (h1.symm.trans hr)
    have : {a | w.heap.mem a ≠ none} = ↑L' := by
      ext a
      constructor
      · intro ha
        rcases h3.cover a ha with h | ⟨i, T, hT, -⟩
        · exact h
        · rw [hd i] at hT; cases hT
      · exact fun ha => h3.there a ha
    rw [this, Set.ncard_coe_finset, h5, Finset.card_empty, zero_add]
  · exact absurd hr (h1 _)

/-- **C129 (diagnostics of copies), refuted.** A copy of a task has all diagnostics 0, whatever those of the original are; after an assignment the target keeps its own
diagnostics, next to the coefficients of the source. -/
theorem C129_copies_lose_diagnostics (w w' : TaskWorld n k m) (o : Option Outcome) :
    (∀ source name, worldStep w (.copy source name) = .ok (w', o) → ∀ T, w'.tasks name = some T → ∀ t, T.view w'.heap = .ok t →
      t.res.diagnostic = zeroDiagnostic) ∧
    (∀ target source T0, worldStep w (.assign target source) = .ok (w', o) → w.tasks target = some T0 → ∀ t0, T0.view w.heap = .ok t0 →
      ∀ T, w'.tasks target = some T → ∀ t, T.view w'.heap = .ok t → t.res.diagnostic = t0.res.diagnostic) := by
  have vd : ∀ (h : TaskMem) (T : HTask n k m) t, T.view h = .ok t → t.res = T.own.res := by
    intro h T t ht
    unfold HTask.view at ht
    split at ht
    · split at ht
      · cases Res.ok.inj ht; rfl
      · split at ht
        · cases Res.ok.inj ht; rfl
        · cases ht
    · cases ht
  constructor
  · intro source name h T hT t ht
    simp only [worldStep] at h
    split at h
    · obtain ⟨r, h1, h2⟩ := Res.bind_eq_ok'.1 h
      cases Res.ok.inj h2
      obtain ⟨c, -, h3⟩ := Res.bind_eq_ok'.1 h1
      cases Res.ok.inj h3
      simp only [Function.update_self, Option.some.injEq] at hT
      rw [vd _ _ _ ht, ← hT]
    · cases h
  · intro target source T0 h h0 t0 ht0 T hT t ht
    simp only [worldStep, h0] at h
    split at h
    · rename_i T1 S1 e1 e2
      cases e1
      obtain ⟨r, h1, h2⟩ := Res.bind_eq_ok'.1 h
      cases Res.ok.inj h2
      obtain ⟨c, -, h3⟩ := Res.bind_eq_ok'.1 h1
      cases Res.ok.inj h3
      simp only [Function.update_self, Option.some.injEq] at hT
      rw [vd _ _ _ ht, ← hT, vd _ _ _ ht0]
    · cases h

/-- The diagnostics of a fit are not all 0, so those of a copy are never those of its fitted original. -/
theorem C129_fit_diagnostics_not_zero {x : Matrix (Fin n) (Fin k) ℝ} {y : Fin n → ℝ} {w : Fin n → Fin n → ℝ} {sS sC : Bool} {g : GWRReport n k}
    {C : Fin n → Fin k → Fin n → ℝ} (hn : 0 < n) (h : IsGWRReport x y w sS sC g C) : g.diagnostic ≠ zeroDiagnostic := by
  intro e
  have h1 := h.reports.enp
  have h2 := h.reports.edf
  rw [e] at h1 h2
  simp only [zeroDiagnostic] at h1 h2
  rw [← h2] at h1
  have : (n : ℝ) = 0 := by linarith
  exact hn.ne' (by exact_mod_cast this)

/-- **C129 (other types), refuted.** A task made with another number than 0 and 1 for the type of the distance cannot be copied: the null pointer is followed. -/
theorem C129_copy_without_distance (x : Matrix (Fin n) (Fin k) ℝ) (y : Fin n → ℝ) (c : Matrix (Fin n) (Fin 2) ℝ) (l : Matrix (Fin m) (Fin 2) ℝ)
    (type : ℕ) (ht : 2 ≤ type) : worldRun emptyWorld [.create 0 x y c l type, .copy 0 1] = .ub := by
  have hd : newDistance type = none := by
    unfold newDistance
    rw [if_neg (by omega), if_neg (by omega)]
  simp [worldRun, worldStep, emptyWorld, heapCreate, Task.create, hd, Res.bind, heapCopy, heapClone, Function.update]

/-- A program in which a copy goes its own way: its setting does not reach the original, and one object is lost when the original changes its type of distance. -/
example (x : Matrix (Fin n) (Fin k) ℝ) (y : Fin n → ℝ) (c : Matrix (Fin n) (Fin 2) ℝ) (l : Matrix (Fin m) (Fin 2) ℝ) :
    let as : List (TaskAct n k m) := [.create 0 x y c l 1, .copy 0 1, .call 1 (.setBandwidthSize 5), .call 0 (.setDistanceType 0), .assign 1 0,
      .destroy 0, .destroy 1]
    TypesExist as ∧ (∃ v outs, idealRun (fun _ => none) as = .ok (v, outs)) ∧ (as.map lost).sum = 3 := by
  intro as
  refine ⟨fun name x y c l type h => ?_, ?_, by simp [as, lost]⟩
  · simp [as] at h
    omega
  · simp [as, idealRun, idealStep, taskStep, Res.bind, newDistance, Function.update]

end Verif.Props

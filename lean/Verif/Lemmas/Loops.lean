import Verif.Core.Loops
import Mathlib.Tactic.Linarith
import Mathlib.Algebra.BigOperators.Fin
import Mathlib.Data.Real.Basic

namespace Verif

variable {ι : Type _} {ρ : Type _} {σ : Type _} {T : Type _}

/-- A serial loop that is not stopped and does not fail applies the updates in order. -/
theorem serialFor_ok {g : ι → Res ρ} {upd : ι → ρ → σ → σ} {stop : ℕ → Bool} (r : ι → ρ) :
    ∀ (is : List ι) (p : ℕ) (s : σ), (∀ q, p ≤ q → stop q = false) → (∀ i ∈ is, g i = .ok (r i)) →
      serialFor g upd stop is p s = .ok (is.foldl (fun s i => upd i (r i) s) s, false)
  | [], p, s, _, _ => rfl
  | i :: is, p, s, hs, hg => by
    simp only [serialFor, hs p le_rfl, Bool.false_eq_true, if_false, hg i (List.mem_cons_self), Res.bind, List.foldl_cons]
    exact serialFor_ok r is (p + 1) _ (fun q hq => hs q (by omega)) (fun j hj => hg j (List.mem_cons_of_mem _ hj))

/-- A serial loop that completes without being stopped did not fail anywhere. -/
theorem serialFor_complete {g : ι → Res ρ} {upd : ι → ρ → σ → σ} {stop : ℕ → Bool} :
    ∀ (is : List ι) (p : ℕ) (s s' : σ), serialFor g upd stop is p s = .ok (s', false) → ∀ i ∈ is, ∃ r, g i = .ok r
  | [], p, s, s', _ => by simp
  | i :: is, p, s, s', h => by
    simp only [serialFor] at h
    split at h
    · simp at h
    · rw [Res.bind_eq_ok'] at h
      obtain ⟨r, h1, h2⟩ := h
      intro j hj
      rcases List.mem_cons.1 hj with rfl | hj
      · exact ⟨r, h1⟩
      · exact serialFor_complete is _ _ _ h2 j hj

/-- A serial loop that is not stopped fails iff some iteration fails (only exceptions considered). -/
theorem serialFor_fail {g : ι → Res ρ} {upd : ι → ρ → σ → σ} {stop : ℕ → Bool} {e : Err}
    (hg : ∀ i, (∃ r, g i = .ok r) ∨ g i = .throw e) :
    ∀ (is : List ι) (p : ℕ) (s : σ), (∀ q, p ≤ q → stop q = false) → (∃ i ∈ is, g i = .throw e) →
      serialFor g upd stop is p s = .throw e
  | [], p, s, _, h => by simp at h
  | i :: is, p, s, hs, h => by
    simp only [serialFor, hs p le_rfl, Bool.false_eq_true, if_false]
    rcases hg i with ⟨r, hr⟩ | hr
    · rw [hr]
      simp only [Res.bind]
      apply serialFor_fail hg is _ _ (fun q hq => hs q (by omega))
      obtain ⟨j, hj, hje⟩ := h
      rcases List.mem_cons.1 hj with rfl | hj
      · rw [hr] at hje; cases hje
      · exact ⟨j, hj, hje⟩
    · rw [hr]; rfl

section omp
variable [DecidableEq ι]

theorem ompStep_success_false {g : ι → Res ρ} {upd : T → ι → ρ → σ → σ} {stop : ℕ → Bool} (s : OmpState ι σ)
    (h : s.success = false) (e : OmpEv ι T) : (ompStep g upd stop s e).success = false := by
  cases e with
  | start i => simp only [ompStep]; split <;> exact h
  | finish t i =>
    simp only [ompStep]
    split
    · cases g i <;> simp_all
    · exact h

theorem foldl_success_false {g : ι → Res ρ} {upd : T → ι → ρ → σ → σ} {stop : ℕ → Bool} :
    ∀ (es : List (OmpEv ι T)) (s : OmpState ι σ), s.success = false → (es.foldl (ompStep g upd stop) s).success = false
  | [], _, h => h
  | e :: es, s, h => foldl_success_false es _ (ompStep_success_false s h e)

theorem mem_starts {evs : List (OmpEv ι T)} {i : ι} : i ∈ starts evs ↔ OmpEv.start i ∈ evs := by
  induction evs with
  | nil => simp [starts]
  | cons e es ih => cases e <;> simp [starts, ih]

theorem mem_finishes {evs : List (OmpEv ι T)} {t : T} {i : ι} : (t, i) ∈ finishes evs ↔ OmpEv.finish t i ∈ evs := by
  induction evs with
  | nil => simp [finishes]
  | cons e es ih => cases e <;> simp [finishes, ih]

theorem starts_append (a b : List (OmpEv ι T)) : starts (a ++ b) = starts a ++ starts b := by
  induction a with
  | nil => rfl
  | cons e es ih => cases e <;> simp [starts, ih]

theorem finishes_append (a b : List (OmpEv ι T)) : finishes (a ++ b) = finishes a ++ finishes b := by
  induction a with
  | nil => rfl
  | cons e es ih => cases e <;> simp [finishes, ih]

/-- Without failures and stop requests every started iteration is let through. -/
theorem omp_ok_aux {g : ι → Res ρ} {upd : T → ι → ρ → σ → σ} {stop : ℕ → Bool} (hstop : ∀ q, stop q = false) (r : ι → ρ)
    (st : σ) : ∀ (evs : List (OmpEv ι T)), (∀ t i, OmpEv.finish t i ∈ evs → g i = .ok (r i)) →
      (∀ pre post t i, evs = pre ++ OmpEv.finish t i :: post → OmpEv.start i ∈ pre) →
      let s := ompRun g upd stop evs st
      s.success = true ∧ s.terminated = false ∧ (∀ i, OmpEv.start i ∈ evs → s.run i = true) ∧
        s.st = (finishes evs).foldl (fun s ti => upd ti.1 ti.2 (r ti.2) s) st := by
  intro evs
  induction evs using List.reverseRecOn with
  | nil => intro _ _; exact ⟨rfl, rfl, by simp, rfl⟩
  | append_singleton es e ih =>
    intro hg hord
    obtain ⟨h1, h2, h3, h4⟩ := ih (fun t i h => hg t i (List.mem_append_left _ h))
      (fun pre post t i h => hord pre (post ++ [e]) t i (by rw [h]; simp))
    have hrun : ompRun g upd stop (es ++ [e]) st = ompStep g upd stop (ompRun g upd stop es st) e := by
      simp [ompRun, List.foldl_append]
    rw [hrun]
    cases e with
    | start i =>
      simp only [ompStep, hstop, Bool.false_eq_true, if_false]
      refine ⟨h1, h2, ?_, ?_⟩
      · intro j hj
        by_cases hji : j = i
        · subst hji; simp [h1]
        · rw [Function.update_of_ne hji]
          apply h3
          simpa [hji] using hj
      · rw [finishes_append]; simp [finishes, h4]
    | finish t i =>
      have hs := hord es [] t i rfl
      simp only [ompStep, h3 i hs, if_true, hg t i (by simp)]
      refine ⟨h1, h2, ?_, ?_⟩
      · intro j hj; apply h3; simpa using hj
      · rw [finishes_append]; simp [finishes, List.foldl_append, h4]

/-- A parallel loop in which no iteration fails, under any schedule: it succeeds, and its state is the result of applying the
updates in the order in which iterations finish. -/
theorem omp_ok {g : ι → Res ρ} {upd : T → ι → ρ → σ → σ} {stop : ℕ → Bool} (hstop : ∀ q, stop q = false) (r : ι → ρ)
    (st : σ) {iters : List ι} {evs : List (OmpEv ι T)} (hsch : Schedule iters evs) (hg : ∀ i ∈ iters, g i = .ok (r i)) :
    (ompRun g upd stop evs st).success = true ∧ (ompRun g upd stop evs st).terminated = false ∧
      (ompRun g upd stop evs st).st = (finishes evs).foldl (fun s ti => upd ti.1 ti.2 (r ti.2) s) st := by
  obtain ⟨h1, h2, -, h4⟩ := omp_ok_aux (upd := upd) hstop r st evs (fun t i h => hg i (by
    rw [← hsch.finishes.mem_iff]
    exact List.mem_map.2 ⟨(t, i), mem_finishes.2 h, rfl⟩)) hsch.order
  exact ⟨h1, h2, h4⟩

/-- The `run` flag of an iteration only changes when it starts. -/
theorem foldl_run {g : ι → Res ρ} {upd : T → ι → ρ → σ → σ} {stop : ℕ → Bool} (i : ι) :
    ∀ (es : List (OmpEv ι T)) (s : OmpState ι σ), OmpEv.start i ∉ es →
      (es.foldl (ompStep g upd stop) s).run i = s.run i
  | [], _, _ => rfl
  | e :: es, s, h => by
    rw [List.foldl_cons, foldl_run i es _ (fun h' => h (List.mem_cons_of_mem _ h'))]
    cases e with
    | start j =>
      have : i ≠ j := fun hij => h (by rw [hij]; exact List.mem_cons_self)
      simp only [ompStep]
      split <;> simp [Function.update_of_ne this]
    | finish t j =>
      simp only [ompStep]
      split
      · cases g j <;> rfl
      · rfl

/-- A parallel loop in which some iteration fails, under any schedule: it ends with `success` cleared. -/
theorem omp_fail {g : ι → Res ρ} {upd : T → ι → ρ → σ → σ} {stop : ℕ → Bool} (hstop : ∀ q, stop q = false)
    (st : σ) {iters : List ι} (hnd : iters.Nodup) {evs : List (OmpEv ι T)} (hsch : Schedule iters evs) (i : ι) (hi : i ∈ iters)
    (hg : ∀ r, g i ≠ .ok r) : (ompRun g upd stop evs st).success = false := by
  have : i ∈ (finishes evs).map Prod.snd := hsch.finishes.mem_iff.2 hi
  obtain ⟨⟨t, j⟩, ht, rfl⟩ := List.mem_map.1 this
  simp only at hi hg ⊢
  obtain ⟨pre, post, hev⟩ := List.append_of_mem (mem_finishes.1 ht)
  obtain ⟨p1, p2, hp⟩ := List.append_of_mem (hsch.order pre post t j hev)
  have hnd' : (starts evs).Nodup := hsch.starts.nodup_iff.2 hnd
  have hnot : OmpEv.start j ∉ p2 := by
    intro h
    rw [hev, starts_append, hp, starts_append] at hnd'
    have h1 := (List.nodup_append.1 hnd').1
    have h2 := (List.nodup_append.1 h1).2.1
    simp only [starts, List.nodup_cons] at h2
    exact h2.1 (mem_starts.2 h)
  unfold ompRun
  rw [hev, hp, List.foldl_append, List.foldl_append, List.foldl_cons, List.foldl_cons]
  apply foldl_success_false
  set s1 := List.foldl (ompStep g upd stop) ⟨st, true, fun _ => false, 0, false⟩ p1 with hs1
  set s2 := List.foldl (ompStep g upd stop) (ompStep g upd stop s1 (OmpEv.start j)) p2 with hs2
  by_cases hsucc : s2.success = false
  · exact ompStep_success_false _ hsucc _
  · have h1 : s1.success = true := by
      by_contra hf
      simp only [Bool.not_eq_true] at hf
      exact hsucc (foldl_success_false p2 _ (ompStep_success_false s1 hf _))
    have hrun : s2.run j = true := by
      rw [hs2, foldl_run j p2 _ hnot]
      simp [ompStep, hstop, h1]
    simp only [ompStep, hrun, if_true]

end omp

/-! ### Folds that write a slot per iteration or add to accumulators -/

/-- Writing one slot per iteration: each slot holds its own value, whatever the order. -/
theorem foldl_update {κ : Type _} [DecidableEq κ] {α : Type _} (slot : ι → κ) (v : ι → α) :
    ∀ (l : List ι) (f : κ → α), (l.map slot).Nodup → ∀ i ∈ l,
      (l.foldl (fun f i => Function.update f (slot i) (v i)) f) (slot i) = v i
  | [], f, _, i, hi => by simp at hi
  | j :: l, f, hnd, i, hi => by
    rw [List.map_cons, List.nodup_cons] at hnd
    rw [List.foldl_cons]
    rcases List.mem_cons.1 hi with rfl | hi
    · have : ∀ (l : List ι) (f : κ → α), slot i ∉ l.map slot →
          (l.foldl (fun f i => Function.update f (slot i) (v i)) f) (slot i) = f (slot i) := by
        intro l
        induction l with
        | nil => intro f _; rfl
        | cons a l ih =>
          intro f h
          rw [List.map_cons, List.mem_cons, not_or] at h
          rw [List.foldl_cons, ih _ h.2, Function.update_of_ne h.1]
      rw [this l _ hnd.1, Function.update_self]
    · exact foldl_update slot v l _ hnd.2 i hi

theorem foldl_update_other {κ : Type _} [DecidableEq κ] {α : Type _} (slot : ι → κ) (v : ι → α) :
    ∀ (l : List ι) (f : κ → α) (k : κ), k ∉ l.map slot →
      (l.foldl (fun f i => Function.update f (slot i) (v i)) f) k = f k
  | [], f, k, _ => rfl
  | j :: l, f, k, h => by
    rw [List.map_cons, List.mem_cons, not_or] at h
    rw [List.foldl_cons, foldl_update_other slot v l _ k h.2, Function.update_of_ne h.1]

theorem foldl_add {M : Type _} [AddCommMonoid M] (v : ι → M) : ∀ (l : List ι) (a : M),
    l.foldl (fun a i => a + v i) a = a + (l.map v).sum
  | [], a => by simp
  | j :: l, a => by rw [List.foldl_cons, foldl_add v l]; simp [add_assoc]

/-- Accumulating per thread and then summing over threads is the same as one sum. -/
theorem sum_foldl_thread {M : Type _} [AddCommMonoid M] [Fintype T] [DecidableEq T] (v : ι → M) :
    ∀ (l : List (T × ι)) (a : T → M),
      ∑ t, (l.foldl (fun a ti => Function.update a ti.1 (a ti.1 + v ti.2)) a) t = ∑ t, a t + (l.map (fun ti => v ti.2)).sum
  | [], a => by simp
  | (t, i) :: l, a => by
    rw [List.foldl_cons, sum_foldl_thread v l]
    have : ∑ t', Function.update a t (a t + v i) t' = ∑ t', a t' + v i := by
      rw [Finset.sum_update_of_mem (Finset.mem_univ t), ← Finset.add_sum_erase _ a (Finset.mem_univ t),
        Finset.sdiff_singleton_eq_erase]
      exact add_right_comm _ _ _
    simp only [this, List.map_cons, List.sum_cons, add_assoc]

end Verif

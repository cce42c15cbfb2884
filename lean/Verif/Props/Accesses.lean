import Verif.Spec.Accesses
import Verif.Props.GWRBasic
import Verif.Props.GWRDefinition
import Verif.Props.GWRLocalCollinearity
import Verif.Props.Mpi

/-! # C134: single memory accesses of multithreaded fits -/

namespace Verif.Props
open Verif Verif.Model Verif.Spec Matrix Classical

variable {n k T : ℕ} {τ κ ι : Type}

/-! ## One cell -/

/-- The cell of a statement. -/
def stmtCell : Stmt κ → κ
  | .read c => c
  | .set c _ => c
  | .add c _ => c

/-- What statements of one thread do to one cell. -/
noncomputable def oneCell (c : κ) : List (Stmt κ) → ℝ → ℝ
  | [], m => m
  | .read _ :: l, m => oneCell c l m
  | .set c' v :: l, m => oneCell c l (if c' = c then v else m)
  | .add c' v :: l, m => oneCell c l (if c' = c then m + v else m)

/-- A cell and the temporary of one thread, under an access of this thread. -/
noncomputable def cellStep (c : κ) (p : ℝ × ℝ) : Access κ → ℝ × ℝ
  | .load c' => if c' = c then (p.1, p.1) else p
  | .storeSum c' v => if c' = c then (p.2 + v, p.2) else p
  | .store c' v => if c' = c then (v, p.2) else p

theorem run_owned (c : κ) (t : τ) : ∀ (evs : List (τ × Access κ)) (s : Cells τ κ), (∀ e ∈ evs, e.2.cell = c → e.1 = t) →
    ((accessRun evs s).mem c, (accessRun evs s).tmp t c) =
      ((evs.filter fun e => e.1 = t).map Prod.snd).foldl (cellStep c) (s.mem c, s.tmp t c)
  | [], _, _ => rfl
  | e :: evs, s, h => by
    have ih := run_owned c t evs (accessStep s e) fun e' he => h e' (List.mem_cons_of_mem _ he)
    have e1 : accessRun (e :: evs) s = accessRun evs (accessStep s e) := rfl
    rw [e1, ih]
    obtain ⟨t', a⟩ := e
    have hc := h (t', a) List.mem_cons_self
    by_cases ht : t' = t
    · subst ht
      rw [List.filter_cons_of_pos (by simp), List.map_cons, List.foldl_cons]
      congr 1
      cases a with
      | load c' =>
        by_cases hcc : c' = c
        · subst hcc; simp [accessStep, cellStep]
        · simp [accessStep, cellStep, hcc, Function.update_of_ne (Ne.symm hcc)]
      | storeSum c' v =>
        by_cases hcc : c' = c
        · subst hcc; simp [accessStep, cellStep]
        · simp [accessStep, cellStep, hcc, Function.update_of_ne (Ne.symm hcc)]
      | store c' v =>
        by_cases hcc : c' = c
        · subst hcc; simp [accessStep, cellStep]
        · simp [accessStep, cellStep, hcc, Function.update_of_ne (Ne.symm hcc)]
    · rw [List.filter_cons_of_neg (by simpa using ht)]
      congr 1
      have hcc : ¬ a.cell = c := fun h' => ht (hc h')
      cases a with
      | load c' => simp [accessStep, Function.update_of_ne (Ne.symm ht)]
      | storeSum c' v =>
        have : c ≠ c' := fun h' => hcc h'.symm
        simp [accessStep, Function.update_of_ne this]
      | store c' v =>
        have : c ≠ c' := fun h' => hcc h'.symm
        simp [accessStep, Function.update_of_ne this]

theorem run_stmts (c : κ) : ∀ (l : List (Stmt κ)) (m u : ℝ), ((accessesOf l).foldl (cellStep c) (m, u)).1 = oneCell c l m
  | [], _, _ => rfl
  | s :: l, m, u => by
    have e : accessesOf (s :: l) = s.accesses ++ accessesOf l := rfl
    rw [e, List.foldl_append]
    cases s with
    | read c' =>
      simp only [Stmt.accesses, List.foldl_cons, List.foldl_nil, cellStep, oneCell]
      split
      · exact run_stmts c l _ _
      · exact run_stmts c l _ _
    | set c' v =>
      simp only [Stmt.accesses, List.foldl_cons, List.foldl_nil, cellStep, oneCell]
      split
      · exact run_stmts c l _ _
      · exact run_stmts c l _ _
    | add c' v =>
      simp only [Stmt.accesses, List.foldl_cons, List.foldl_nil, cellStep, oneCell]
      split
      · exact run_stmts c l _ _
      · exact run_stmts c l _ _

theorem mem_accessesOf {l : List (Stmt κ)} {a : Access κ} (h : a ∈ accessesOf l) : ∃ s ∈ l, stmtCell s = a.cell := by
  obtain ⟨s, hs, ha⟩ := List.mem_flatMap.1 h
  refine ⟨s, hs, ?_⟩
  cases s <;> simp only [Stmt.accesses, List.mem_cons, List.not_mem_nil, or_false] at ha
  · rw [ha]; rfl
  · rw [ha]; rfl
  · rcases ha with ha | ha <;> · rw [ha]; rfl

theorem mem_interleaves {prog : τ → List (Access κ)} {evs : List (τ × Access κ)} (h : Interleaves prog evs) {e : τ × Access κ} (he : e ∈ evs) :
    e.2 ∈ prog e.1 := by
  rw [← h e.1]
  exact List.mem_map.2 ⟨e, List.mem_filter.2 ⟨he, by simp⟩, rfl⟩

/-- **C134 (cells of one thread).** Threads run statements on shared memory, their accesses interleaved in any way. A cell that only thread `t`
touches ends with the value it has when the statements of `t` run alone, whatever the other threads do, races on other cells included. -/
theorem C134_private_cell (S : τ → List (Stmt κ)) (evs : List (τ × Access κ)) (h : Interleaves (fun t => accessesOf (S t)) evs) (s : Cells τ κ)
    (c : κ) (t : τ) (hc : ∀ t', t' ≠ t → ∀ a ∈ accessesOf (S t'), a.cell ≠ c) :
    (accessRun evs s).mem c = (accessRun ((accessesOf (S t)).map fun a => (t, a)) s).mem c := by
  have e1 := run_owned c t evs s fun e he hec => by
    by_contra hne
    exact hc e.1 hne e.2 (mem_interleaves h he) hec
  have e2 := run_owned c t ((accessesOf (S t)).map fun a => (t, a)) s fun e he _ => by
    obtain ⟨a, -, rfl⟩ := List.mem_map.1 he
    rfl
  have e3 : (((accessesOf (S t)).map fun a => (t, a)).filter fun e => e.1 = t).map Prod.snd = accessesOf (S t) := by
    rw [List.filter_eq_self.2 (by simp)]
    simp [List.map_map, Function.comp_def]
  rw [h t] at e1
  rw [e3] at e2
  exact (congrArg Prod.fst e1).trans (congrArg Prod.fst e2).symm

theorem run_cell (S : τ → List (Stmt κ)) (evs : List (τ × Access κ)) (h : Interleaves (fun t => accessesOf (S t)) evs) (s : Cells τ κ)
    (c : κ) (t : τ) (hc : ∀ t', t' ≠ t → ∀ st ∈ S t', stmtCell st ≠ c) : (accessRun evs s).mem c = oneCell c (S t) (s.mem c) := by
  have e1 := run_owned c t evs s fun e he hec => by
    by_contra hne
    obtain ⟨st, hst, est⟩ := mem_accessesOf (mem_interleaves h he)
    exact hc e.1 hne st hst (est.trans hec)
  rw [h t] at e1
  exact (congrArg Prod.fst e1).trans (run_stmts c _ _ _)

theorem oneCell_append (c : κ) : ∀ (l l' : List (Stmt κ)) (m : ℝ), oneCell c (l ++ l') m = oneCell c l' (oneCell c l m)
  | [], _, _ => rfl
  | .read _ :: l, l', m => oneCell_append c l l' m
  | .set _ _ :: l, l', _ => oneCell_append c l l' _
  | .add _ _ :: l, l', _ => oneCell_append c l l' _

theorem oneCell_flatMap (c : κ) (F : ι → List (Stmt κ)) : ∀ (l : List ι) (m : ℝ),
    oneCell c (l.flatMap F) m = l.foldl (fun m i => oneCell c (F i) m) m
  | [], _ => rfl
  | i :: l, m => by rw [List.flatMap_cons, oneCell_append, oneCell_flatMap c F l]; rfl

theorem oneCell_miss (c : κ) : ∀ (l : List (Stmt κ)) (m : ℝ), (∀ s ∈ l, stmtCell s ≠ c) → oneCell c l m = m
  | [], _, _ => rfl
  | .read _ :: l, m, h => oneCell_miss c l m fun s hs => h s (List.mem_cons_of_mem _ hs)
  | .set c' v :: l, m, h => by
    have h0 : ¬ c' = c := h _ List.mem_cons_self
    rw [oneCell, if_neg h0]
    exact oneCell_miss c l m fun s hs => h s (List.mem_cons_of_mem _ hs)
  | .add c' v :: l, m, h => by
    have h0 : ¬ c' = c := h _ List.mem_cons_self
    rw [oneCell, if_neg h0]
    exact oneCell_miss c l m fun s hs => h s (List.mem_cons_of_mem _ hs)

theorem oneCell_sets (c : κ) (f : ι → κ) (hf : Function.Injective f) (v : ι → ℝ) (j : ι) (hj : f j = c) : ∀ (l : List ι) (m : ℝ), j ∈ l →
    oneCell c (l.map fun a => .set (f a) (v a)) m = v j
  | [], _, h => absurd h (by simp)
  | a :: l, m, h => by
    rw [List.map_cons, oneCell]
    by_cases hl : j ∈ l
    · exact oneCell_sets c f hf v j hj l _ hl
    · obtain rfl : j = a := (List.mem_cons.1 h).resolve_right hl
      rw [if_pos hj]
      refine oneCell_miss c _ _ fun s hs => ?_
      obtain ⟨b, hb, rfl⟩ := List.mem_map.1 hs
      intro e
      exact hl (by rw [hf (hj.trans (Eq.symm e))]; exact hb)

theorem oneCell_adds (c : κ) (f : ι → κ) (hf : Function.Injective f) (v : ι → ℝ) (j : ι) (hj : f j = c) : ∀ (l : List ι) (m : ℝ), j ∈ l → l.Nodup →
    oneCell c (l.map fun a => .add (f a) (v a)) m = m + v j
  | [], _, h, _ => absurd h (by simp)
  | a :: l, m, h, hnd => by
    rw [List.nodup_cons] at hnd
    rw [List.map_cons, oneCell]
    by_cases hl : j ∈ l
    · rw [if_neg (fun e => hnd.1 (by rw [hf (e.trans hj.symm)]; exact hl))]
      exact oneCell_adds c f hf v j hj l _ hl hnd.2
    · obtain rfl : j = a := (List.mem_cons.1 h).resolve_right hl
      rw [if_pos hj]
      refine oneCell_miss c _ _ fun s hs => ?_
      obtain ⟨b, hb, rfl⟩ := List.mem_map.1 hs
      intro e
      exact hl (by rw [hf (hj.trans (Eq.symm e))]; exact hb)

theorem foldl_pick {P : ι → Prop} [DecidablePred P] (v : ι → ℝ) (i0 : ι) (hP : P i0) : ∀ (l : List ι) (m : ℝ), (∀ i ∈ l, P i → i = i0) →
    l.foldl (fun m i => if P i then v i else m) m = if i0 ∈ l then v i0 else m
  | [], _, _ => by simp
  | i :: l, m, h => by
    rw [List.foldl_cons, foldl_pick v i0 hP l _ fun a ha => h a (List.mem_cons_of_mem _ ha)]
    by_cases hl : i0 ∈ l
    · rw [if_pos hl, if_pos (List.mem_cons_of_mem _ hl)]
    · rw [if_neg hl]
      by_cases hi : i = i0
      · subst hi; rw [if_pos hP, if_pos List.mem_cons_self]
      · rw [if_neg fun h' => hi (h i List.mem_cons_self h'), if_neg fun h' => hl ((List.mem_cons.1 h').resolve_left (Ne.symm hi))]

theorem foldl_total (v : ι → ℝ) : ∀ (l : List ι) (m : ℝ), l.foldl (fun m i => m + v i) m = m + (l.map v).sum
  | [], _ => by simp
  | i :: l, m => by rw [List.foldl_cons, foldl_total v l]; simp [add_assoc]

/-! ## The cells of `fitCoreOmp` -/

/-- The cells an iteration touches. -/
theorem fitStmts_cells {first : ℕ} {sS sC : Bool} {t : Fin T} {i : Fin n} {lf : LocalFit n k} {s : Stmt (FitCell n k T)}
    (h : s ∈ fitStmts first sS sC t i lf) :
    stmtCell s = .success ∨ (∃ j, stmtCell s = .beta i j) ∨ (∃ j, stmtCell s = .se i j) ∨ (∃ m, stmtCell s = .shat t m) ∨ (∃ l, stmtCell s = .q t l) ∨
      (∃ l, stmtCell s = .s (if sS then i.val - first else 0) l) ∨ ∃ j l, stmtCell s = .c (if sC then i.val - first else 0) j l := by
  simp only [fitStmts, List.mem_append, List.mem_map, List.mem_flatMap, List.mem_finRange, true_and, List.mem_singleton] at h
  rcases h with (((((h | h) | h) | h) | h) | h) | h
  · left; rw [h]; rfl
  · obtain ⟨j, rfl⟩ := h; right; left; exact ⟨j, rfl⟩
  · obtain ⟨j, rfl⟩ := h; right; right; left; exact ⟨j, rfl⟩
  · obtain ⟨j, rfl⟩ := h; right; right; right; left; exact ⟨j, rfl⟩
  · obtain ⟨j, rfl⟩ := h; right; right; right; right; left; exact ⟨j, rfl⟩
  · obtain ⟨j, rfl⟩ := h; right; right; right; right; right; left; exact ⟨j, rfl⟩
  · obtain ⟨j, l, rfl⟩ := h; right; right; right; right; right; right; exact ⟨j, l, rfl⟩

section cells
variable (first : ℕ) (sS sC : Bool) (t : Fin T) (i : Fin n) (lf : LocalFit n k) (m : ℝ)

theorem miss_map {c : κ} {f : ι → Stmt κ} (h : ∀ a, stmtCell (f a) ≠ c) (l : List ι) (m : ℝ) : oneCell c (l.map f) m = m :=
  oneCell_miss c _ m fun s hs => by
    obtain ⟨a, -, rfl⟩ := List.mem_map.1 hs
    exact h a

theorem miss_flat {ι' : Type} {c : κ} {f : ι → ι' → Stmt κ} (h : ∀ a b, stmtCell (f a b) ≠ c) (l : List ι) (l' : List ι') (m : ℝ) :
    oneCell c (l.flatMap fun a => l'.map (f a)) m = m :=
  oneCell_miss c _ m fun s hs => by
    obtain ⟨a, -, hs⟩ := List.mem_flatMap.1 hs
    obtain ⟨b, -, rfl⟩ := List.mem_map.1 hs
    exact h a b

theorem fit_beta (i0 : Fin n) (j0 : Fin k) : oneCell (.beta i0 j0) (fitStmts first sS sC t i lf) m = if i = i0 then lf.beta j0 else m := by
  by_cases hi : i = i0
  · subst hi
    simp only [fitStmts, oneCell_append]
    rw [miss_flat (by simp [stmtCell]), miss_map (by simp [stmtCell]), miss_map (by simp [stmtCell]), miss_map (by simp [stmtCell]),
      miss_map (by simp [stmtCell]), oneCell_sets _ (fun j => FitCell.beta i j) (fun a b h => by simpa using h) _ j0 rfl _ _ (List.mem_finRange _), if_pos trivial]
  · rw [if_neg hi]
    refine oneCell_miss _ _ _ fun s hs => ?_
    rcases fitStmts_cells hs with h | ⟨_, h⟩ | ⟨_, h⟩ | ⟨_, h⟩ | ⟨_, h⟩ | ⟨_, h⟩ | ⟨_, _, h⟩ <;> rw [h] <;> simp [hi]

theorem fit_se (i0 : Fin n) (j0 : Fin k) : oneCell (.se i0 j0) (fitStmts first sS sC t i lf) m = if i = i0 then seRow lf j0 else m := by
  by_cases hi : i = i0
  · subst hi
    simp only [fitStmts, oneCell_append]
    rw [miss_flat (by simp [stmtCell]), miss_map (by simp [stmtCell]), miss_map (by simp [stmtCell]), miss_map (by simp [stmtCell]),
      oneCell_sets _ (fun j => FitCell.se i j) (fun a b h => by simpa using h) _ j0 rfl _ _ (List.mem_finRange _), if_pos trivial]
  · rw [if_neg hi]
    refine oneCell_miss _ _ _ fun s hs => ?_
    rcases fitStmts_cells hs with h | ⟨_, h⟩ | ⟨_, h⟩ | ⟨_, h⟩ | ⟨_, h⟩ | ⟨_, h⟩ | ⟨_, _, h⟩ <;> rw [h] <;> simp [hi]

theorem fit_shat (m0 : Fin 2) : oneCell (.shat t m0) (fitStmts first sS sC t i lf) m = m + shatRow i lf m0 := by
  simp only [fitStmts, oneCell_append]
  rw [miss_flat (by simp [stmtCell]), miss_map (by simp [stmtCell]), miss_map (by simp [stmtCell]),
    oneCell_adds _ (fun m => FitCell.shat t m) (fun a b h => by simpa using h) _ m0 rfl _ _ (List.mem_finRange _) (List.nodup_finRange _),
    miss_map (by simp [stmtCell]), miss_map (by simp [stmtCell])]
  rfl

theorem fit_q (l0 : Fin n) : oneCell (.q t l0) (fitStmts first sS sC t i lf) m = m + qRow i lf l0 := by
  simp only [fitStmts, oneCell_append]
  rw [miss_flat (by simp [stmtCell]), miss_map (by simp [stmtCell]),
    oneCell_adds _ (fun l => FitCell.q t l) (fun a b h => by simpa using h) _ l0 rfl _ _ (List.mem_finRange _) (List.nodup_finRange _),
    miss_map (by simp [stmtCell]), miss_map (by simp [stmtCell]), miss_map (by simp [stmtCell])]
  rfl

theorem fit_s (r : ℕ) (l0 : Fin n) : oneCell (.s r l0) (fitStmts first true sC t i lf) m = if i.val - first = r then lf.si l0 else m := by
  by_cases hi : i.val - first = r
  · subst hi
    simp only [fitStmts, oneCell_append, if_true]
    rw [miss_flat (by simp [stmtCell]), oneCell_sets _ (fun l => FitCell.s (i.val - first) l) (fun a b h => by simpa using h) _ l0 rfl _ _ (List.mem_finRange _)]
  · rw [if_neg hi]
    refine oneCell_miss _ _ _ fun s hs => ?_
    rcases fitStmts_cells hs with h | ⟨_, h⟩ | ⟨_, h⟩ | ⟨_, h⟩ | ⟨_, h⟩ | ⟨_, h⟩ | ⟨_, _, h⟩ <;> rw [h] <;> simp [hi]

theorem fit_c (r : ℕ) (j0 : Fin k) (l0 : Fin n) : oneCell (.c r j0 l0) (fitStmts first sS true t i lf) m = if i.val - first = r then lf.ci j0 l0 else m := by
  by_cases hi : i.val - first = r
  · subst hi
    simp only [fitStmts, oneCell_append, if_true]
    have key : ∀ (L : List (Fin k)) (m : ℝ), j0 ∈ L → oneCell (FitCell.c (T := T) (i.val - first) j0 l0)
        (L.flatMap fun j => (List.finRange n).map fun l => .set (.c (i.val - first) j l) (lf.ci j l)) m = lf.ci j0 l0 := by
      intro L
      induction L with
      | nil => intro m h; exact absurd h (by simp)
      | cons j L ih =>
        intro m h
        rw [List.flatMap_cons, oneCell_append]
        by_cases hL : j0 ∈ L
        · exact ih _ hL
        · obtain rfl : j0 = j := (List.mem_cons.1 h).resolve_right hL
          rw [oneCell_sets _ (fun l => FitCell.c (i.val - first) j0 l) (fun a b h => by simpa using h) _ l0 rfl _ _ (List.mem_finRange _)]
          refine oneCell_miss _ _ _ fun s hs => ?_
          obtain ⟨a, ha, hs⟩ := List.mem_flatMap.1 hs
          obtain ⟨b, -, rfl⟩ := List.mem_map.1 hs
          have : a ≠ j0 := fun e => hL (e ▸ ha)
          simp [stmtCell, this]
    exact key _ _ (List.mem_finRange _)
  · rw [if_neg hi]
    refine oneCell_miss _ _ _ fun s hs => ?_
    rcases fitStmts_cells hs with h | ⟨_, h⟩ | ⟨_, h⟩ | ⟨_, h⟩ | ⟨_, h⟩ | ⟨_, h⟩ | ⟨_, _, h⟩ <;> rw [h] <;> simp [hi]

end cells

theorem fitProgram_ok {x : Matrix (Fin n) (Fin k) ℝ} {y : Fin n → ℝ} {W : Fin n → Fin n → ℝ} {first : ℕ} {sS sC : Bool} {t : Fin T}
    {l : List (Fin n)} {r : Fin n → LocalFit n k} (h : ∀ i ∈ l, localFit x y (W i) (x i) = .ok (r i)) :
    fitProgram x y W first sS sC t l = l.flatMap fun i => fitStmts first sS sC t i (r i) := by
  unfold fitProgram
  refine List.flatMap_congr fun i hi => ?_
  rw [h i hi]

/-- Iterations given to threads: which thread has `i`. -/
theorem asg_unique {asg : Fin T → List (Fin n)} {iters : List (Fin n)} (h : ((List.finRange T).flatMap asg).Perm iters) (hnd : iters.Nodup) :
    (∀ i t t', i ∈ asg t → i ∈ asg t' → t = t') ∧ (∀ t, (asg t).Nodup) ∧ ∀ i, i ∈ iters ↔ ∃ t, i ∈ asg t := by
  have h1 := List.nodup_flatMap.1 (h.nodup_iff.2 hnd)
  refine ⟨fun i t t' ht ht' => ?_, fun t => h1.1 t (List.mem_finRange t), fun i => ?_⟩
  · by_contra hne
    haveI : Std.Symm (Function.onFun List.Disjoint asg) := ⟨fun _ _ h => List.Disjoint.symm h⟩
    have := List.Pairwise.forall h1.2 (List.mem_finRange t) (List.mem_finRange t') hne
    exact this ht ht'
  · rw [← h.mem_iff, List.mem_flatMap]
    exact ⟨fun ⟨t, _, ht⟩ => ⟨t, ht⟩, fun ⟨t, ht⟩ => ⟨t, List.mem_finRange t, ht⟩⟩

theorem sum_asg {asg : Fin T → List (Fin n)} {iters : List (Fin n)} (h : ((List.finRange T).flatMap asg).Perm iters) (v : Fin n → ℝ) :
    ∑ t, ((asg t).map v).sum = (iters.map v).sum := by
  rw [← (h.map v).sum_eq, List.map_flatMap, Fin.sum_univ_def, List.flatMap, List.sum_flatten, List.map_map]
  rfl

theorem list_total_apply {m : ℕ} (f : Fin n → Fin m → ℝ) (j : Fin m) : ∀ l : List (Fin n), (l.map f).sum j = (l.map fun i => f i j).sum
  | [] => rfl
  | i :: l => by rw [List.map_cons, List.sum_cons, List.map_cons, List.sum_cons, Pi.add_apply, list_total_apply f j l]

/-- **C134 (results).** A multithreaded fit of basic GWR in which every regression has a solution, at the level of single memory accesses: the
iterations are given to the threads in any way and any order, and the accesses of the threads are interleaved in any way. Afterwards the memory
holds the results of the serial fit: coefficients, squared standard error factors, traces, the diagonal used by the F tests, and the hat rows and
coefficient matrices if they are stored. -/
theorem C134_results (x : Matrix (Fin n) (Fin k) ℝ) (y : Fin n → ℝ) (W : Fin n → Fin n → ℝ) (first second : ℕ) (sS sC : Bool)
    (a : FitAcc n k) (ha : fitCoreSerial x y W first second sS sC NoStop = .ok (a, false))
    (asg : Fin T → List (Fin n)) (hasg : ((List.finRange T).flatMap asg).Perm (workRange n first second))
    (evs : List (Fin T × Access (FitCell n k T)))
    (hevs : Interleaves (fun t => accessesOf (fitProgram x y W first sS sC t (asg t))) evs) (tmp : Fin T → FitCell n k T → ℝ) :
    let mem := (accessRun evs (fitCells tmp)).mem
    (∀ i j, mem (.beta i j) = a.betas i j) ∧ (∀ i j, mem (.se i j) = a.se i j) ∧ (∀ m, ∑ t, mem (.shat t m) = a.shat m) ∧
    (∀ l, ∑ t, mem (.q t l) = a.qdiag l) ∧
    (sS = true → ∀ i : Fin n, first ≤ i.val → i.val < second → ∀ l, mem (.s (i.val - first) l) = a.s (i.val - first) l) ∧
    (sC = true → ∀ i : Fin n, first ≤ i.val → i.val < second → ∀ j l, mem (.c (i.val - first) j l) = a.c (i.val - first) j l) := by
  intro mem
  obtain ⟨hpd, hcore⟩ := fitCoreSerial_ok ha
  obtain ⟨huniq, hnd, hmem⟩ := asg_unique hasg (nodup_workRange n first second)
  have hin : ∀ t, ∀ i ∈ asg t, first ≤ i.val ∧ i.val < second := fun t i hi => mem_workRange.1 ((hmem i).2 ⟨t, hi⟩)
  have hprog : ∀ t, fitProgram x y W first sS sC t (asg t) = (asg t).flatMap fun i => fitStmts first sS sC t i (fitAt x y W i) :=
    fun t => fitProgram_ok fun i hi => localFit_fitAt (hpd i (hin t i hi).1 (hin t i hi).2)
  simp only [hprog] at hevs
  have hcells : ∀ (t' : Fin T) (s : Stmt (FitCell n k T)), s ∈ ((asg t').flatMap fun i => fitStmts first sS sC t' i (fitAt x y W i)) →
      ∃ i ∈ asg t', s ∈ fitStmts first sS sC t' i (fitAt x y W i) := fun t' s hs => List.mem_flatMap.1 hs
  have hrun := fun (c : FitCell n k T) (t : Fin T) => run_cell _ evs hevs (fitCells tmp) c t
  -- cells of an iteration
  have own : ∀ (c : FitCell n k T) (i0 : Fin n), (∀ (t : Fin T) (i : Fin n), i ∈ asg t → ∀ s ∈ fitStmts first sS sC t i (fitAt x y W i), stmtCell s = c → i = i0) →
      (∀ t, i0 ∈ asg t → mem c = oneCell c ((asg t).flatMap fun i => fitStmts first sS sC t i (fitAt x y W i)) ((fitCells tmp).mem c)) := by
    intro c i0 hc t ht
    refine hrun c t fun t' hne s hs he => ?_
    obtain ⟨i, hi, hs⟩ := hcells t' s hs
    have := hc t' i hi s hs he
    subst this
    exact hne (huniq i t' t hi ht)
  have none : ∀ (c : FitCell n k T) (i0 : Fin n), (∀ (t : Fin T) (i : Fin n), i ∈ asg t → ∀ s ∈ fitStmts first sS sC t i (fitAt x y W i), stmtCell s = c → i = i0) →
      (∀ t, i0 ∉ asg t) → mem c = (fitCells tmp).mem c := by
    intro c i0 hc ht
    by_cases hT : Nonempty (Fin T)
    · obtain ⟨t0⟩ := hT
      have hno : ∀ t, ∀ s ∈ ((asg t).flatMap fun i => fitStmts first sS sC t i (fitAt x y W i)), stmtCell s ≠ c := by
        intro t s hs he
        obtain ⟨i, hi, hs⟩ := hcells t s hs
        exact ht t (hc t i hi s hs he ▸ hi)
      exact (hrun c t0 fun t' _ => hno t').trans (oneCell_miss _ _ _ (hno t0))
    · have : evs = [] := by
        cases evs with
        | nil => rfl
        | cons e _ => exact absurd ⟨e.1⟩ hT
      show (accessRun evs (fitCells tmp)).mem c = _
      rw [this]
      rfl
  refine ⟨fun i j => ?_, fun i j => ?_, fun m => ?_, fun l => ?_, fun hs i h1 h2 l => ?_, fun hs i h1 h2 j l => ?_⟩
  · have hc : ∀ (t : Fin T) (i' : Fin n), i' ∈ asg t → ∀ s ∈ fitStmts first sS sC t i' (fitAt x y W i'), stmtCell s = .beta i j → i' = i := by
      intro t i' _ s hs he
      rcases fitStmts_cells hs with h | ⟨_, h⟩ | ⟨_, h⟩ | ⟨_, h⟩ | ⟨_, h⟩ | ⟨_, h⟩ | ⟨_, _, h⟩ <;> rw [h] at he <;> simp at he
      exact he.1
    by_cases hi : ∃ t, i ∈ asg t
    · obtain ⟨t, ht⟩ := hi
      rw [own _ i hc t ht, oneCell_flatMap]
      simp only [fit_beta]
      rw [foldl_pick (P := fun i' => i' = i) (fun i => (fitAt x y W i).beta j) i rfl _ _ (fun _ _ h => h), if_pos ht,
        hcore.betas i (hin t i ht).1 (hin t i ht).2]
    · rw [none _ i hc fun t ht => hi ⟨t, ht⟩, hcore.betas0 i fun h => hi ((hmem i).1 (mem_workRange.2 h))]
      rfl
  · have hc : ∀ (t : Fin T) (i' : Fin n), i' ∈ asg t → ∀ s ∈ fitStmts first sS sC t i' (fitAt x y W i'), stmtCell s = .se i j → i' = i := by
      intro t i' _ s hs he
      rcases fitStmts_cells hs with h | ⟨_, h⟩ | ⟨_, h⟩ | ⟨_, h⟩ | ⟨_, h⟩ | ⟨_, h⟩ | ⟨_, _, h⟩ <;> rw [h] at he <;> simp at he
      exact he.1
    by_cases hi : ∃ t, i ∈ asg t
    · obtain ⟨t, ht⟩ := hi
      rw [own _ i hc t ht, oneCell_flatMap]
      simp only [fit_se]
      rw [foldl_pick (P := fun i' => i' = i) (fun i => seRow (fitAt x y W i) j) i rfl _ _ (fun _ _ h => h), if_pos ht,
        hcore.se i (hin t i ht).1 (hin t i ht).2]
    · rw [none _ i hc fun t ht => hi ⟨t, ht⟩, hcore.se0 i fun h => hi ((hmem i).1 (mem_workRange.2 h))]
      rfl
  · have e : ∀ t, mem (.shat t m) = ((asg t).map fun i => shatRow i (fitAt x y W i) m).sum := by
      intro t
      have h0 : mem (.shat t m) = _ := hrun (.shat t m) t fun t' hne s hs he => by
        obtain ⟨i, hi, hs⟩ := hcells t' s hs
        rcases fitStmts_cells hs with h | ⟨_, h⟩ | ⟨_, h⟩ | ⟨_, h⟩ | ⟨_, h⟩ | ⟨_, h⟩ | ⟨_, _, h⟩ <;> rw [h] at he <;> simp at he
        exact hne he.1
      rw [h0, oneCell_flatMap]
      simp only [fit_shat]
      rw [foldl_total]
      exact zero_add _
    simp only [e]
    rw [sum_asg hasg (fun i => shatRow i (fitAt x y W i) m), hcore.shat, list_total_apply]
  · have e : ∀ t, mem (.q t l) = ((asg t).map fun i => qRow i (fitAt x y W i) l).sum := by
      intro t
      have h0 : mem (.q t l) = _ := hrun (.q t l) t fun t' hne s hs he => by
        obtain ⟨i, hi, hs⟩ := hcells t' s hs
        rcases fitStmts_cells hs with h | ⟨_, h⟩ | ⟨_, h⟩ | ⟨_, h⟩ | ⟨_, h⟩ | ⟨_, h⟩ | ⟨_, _, h⟩ <;> rw [h] at he <;> simp at he
        exact hne he.1
      rw [h0, oneCell_flatMap]
      simp only [fit_q]
      rw [foldl_total]
      exact zero_add _
    simp only [e]
    rw [sum_asg hasg (fun i => qRow i (fitAt x y W i) l), hcore.qdiag, list_total_apply]
  · subst hs
    have hc : ∀ (t : Fin T) (i' : Fin n), i' ∈ asg t → ∀ s ∈ fitStmts first true sC t i' (fitAt x y W i'), stmtCell s = .s (i.val - first) l → i' = i := by
      intro t i' hi' s hs he
      rcases fitStmts_cells hs with h | ⟨_, h⟩ | ⟨_, h⟩ | ⟨_, h⟩ | ⟨_, h⟩ | ⟨_, h⟩ | ⟨_, _, h⟩ <;> rw [h] at he <;> simp at he
      have := (hin t i' hi').1
      exact Fin.ext (by omega)
    obtain ⟨t, ht⟩ := (hmem i).1 (mem_workRange.2 ⟨h1, h2⟩)
    rw [own _ i hc t ht, oneCell_flatMap]
    simp only [fit_s]
    rw [foldl_pick (P := fun i' : Fin n => i'.val - first = i.val - first) (fun i => (fitAt x y W i).si l) i rfl _ _ (fun i' hi' h => by
      have := (hin t i' hi').1
      exact Fin.ext (by omega)), if_pos ht, hcore.s rfl i h1 h2]
  · subst hs
    have hc : ∀ (t : Fin T) (i' : Fin n), i' ∈ asg t → ∀ s ∈ fitStmts first sS true t i' (fitAt x y W i'), stmtCell s = .c (i.val - first) j l → i' = i := by
      intro t i' hi' s hs he
      rcases fitStmts_cells hs with h | ⟨_, h⟩ | ⟨_, h⟩ | ⟨_, h⟩ | ⟨_, h⟩ | ⟨_, h⟩ | ⟨_, _, h⟩ <;> rw [h] at he <;> simp at he
      have := (hin t i' hi').1
      exact Fin.ext (by omega)
    obtain ⟨t, ht⟩ := (hmem i).1 (mem_workRange.2 ⟨h1, h2⟩)
    rw [own _ i hc t ht, oneCell_flatMap]
    simp only [fit_c]
    rw [foldl_pick (P := fun i' : Fin n => i'.val - first = i.val - first) (fun i => (fitAt x y W i).ci j l) i rfl _ _ (fun i' hi' h => by
      have := (hin t i' hi').1
      exact Fin.ext (by omega)), if_pos ht, hcore.c rfl i h1 h2]

/-! ## Data races -/

theorem mem_writesOf {l : List (Stmt κ)} {a : Access κ} (h : a ∈ accessesOf l) (hw : a.writes = true) :
    ∃ s ∈ l, stmtCell s = a.cell ∧ ∀ c, s ≠ .read c := by
  obtain ⟨s, hs, ha⟩ := List.mem_flatMap.1 h
  refine ⟨s, hs, ?_⟩
  cases s <;> simp only [Stmt.accesses, List.mem_cons, List.not_mem_nil, or_false] at ha
  · rw [ha] at hw; cases hw
  · rw [ha]; exact ⟨rfl, fun c => by simp⟩
  · rcases ha with ha | ha <;> · rw [ha]; exact ⟨rfl, fun c => by simp⟩

theorem race_of_stmts {S : τ → List (Stmt κ)} {c : κ} {t t' : τ} (hne : t ≠ t') {s s' : Stmt κ} (hs : s ∈ S t) (hs' : s' ∈ S t')
    (h1 : stmtCell s = c) (h2 : stmtCell s' = c) (hw : ∀ c, s ≠ .read c) : RaceOn (fun t => accessesOf (S t)) c := by
  have hA : ∃ a ∈ accessesOf (S t), a.cell = c ∧ a.writes = true := by
    cases s with
    | read c => exact absurd rfl (hw c)
    | set c' v => exact ⟨.store c' v, List.mem_flatMap.2 ⟨_, hs, by simp [Stmt.accesses]⟩, h1, rfl⟩
    | add c' v => exact ⟨.storeSum c' v, List.mem_flatMap.2 ⟨_, hs, by simp [Stmt.accesses]⟩, h1, rfl⟩
  have hB : ∃ a ∈ accessesOf (S t'), a.cell = c := by
    cases s' with
    | read c' => exact ⟨.load c', List.mem_flatMap.2 ⟨_, hs', by simp [Stmt.accesses]⟩, h2⟩
    | set c' v => exact ⟨.store c' v, List.mem_flatMap.2 ⟨_, hs', by simp [Stmt.accesses]⟩, h2⟩
    | add c' v => exact ⟨.storeSum c' v, List.mem_flatMap.2 ⟨_, hs', by simp [Stmt.accesses]⟩, h2⟩
  obtain ⟨a, ha, h1, h3⟩ := hA
  obtain ⟨b, hb, h4⟩ := hB
  exact ⟨t, t', hne, a, ha, b, hb, h1, h4, h3⟩

/-- **C134 (no race on the results).** In a multithreaded fit of basic GWR in which every regression has a solution no two threads race on the
coefficients, the standard errors, the traces, the diagonal or the flag, however the iterations are given to the threads; nor on the hat rows
and the coefficient matrices if all of them are stored. -/
theorem C134_no_race (x : Matrix (Fin n) (Fin k) ℝ) (y : Fin n → ℝ) (W : Fin n → Fin n → ℝ) (first second : ℕ) (sS sC : Bool)
    (a : FitAcc n k) (ha : fitCoreSerial x y W first second sS sC NoStop = .ok (a, false))
    (asg : Fin T → List (Fin n)) (hasg : ((List.finRange T).flatMap asg).Perm (workRange n first second)) (c : FitCell n k T)
    (hs : ∀ r l, c = .s r l → sS = true) (hc : ∀ r j l, c = .c r j l → sC = true) :
    ¬ RaceOn (fun t => accessesOf (fitProgram x y W first sS sC t (asg t))) c := by
  obtain ⟨hpd, -⟩ := fitCoreSerial_ok ha
  obtain ⟨huniq, -, hmem⟩ := asg_unique hasg (nodup_workRange n first second)
  have hin : ∀ t, ∀ i ∈ asg t, first ≤ i.val ∧ i.val < second := fun t i hi => mem_workRange.1 ((hmem i).2 ⟨t, hi⟩)
  have hprog : ∀ t, fitProgram x y W first sS sC t (asg t) = (asg t).flatMap fun i => fitStmts first sS sC t i (fitAt x y W i) :=
    fun t => fitProgram_ok fun i hi => localFit_fitAt (hpd i (hin t i hi).1 (hin t i hi).2)
  simp only [hprog]
  rintro ⟨t, t', hne, p, hp, q, hq, hpc, hqc, hw⟩
  obtain ⟨s, hs1, e1, hnr⟩ := mem_writesOf hp hw
  obtain ⟨s', hs2, e2⟩ := mem_accessesOf hq
  obtain ⟨i, hi, hsi⟩ := List.mem_flatMap.1 hs1
  obtain ⟨i', hi', hsi'⟩ := List.mem_flatMap.1 hs2
  have hii : i ≠ i' := fun h => hne (huniq i t t' hi (h ▸ hi'))
  have hii' : i.val ≠ i'.val := fun h => hii (Fin.ext h)
  have hl := (hin t i hi).1
  have hl' := (hin t' i' hi').1
  have ee : stmtCell s = stmtCell s' := by rw [e1, e2, hpc, hqc]
  have hsc : stmtCell s = c := by rw [e1, hpc]
  have hsucc : stmtCell s ≠ .success := by
    intro h
    simp only [fitStmts, List.mem_append, List.mem_map, List.mem_flatMap, List.mem_finRange, true_and, List.mem_singleton] at hsi
    rcases hsi with (((((hh | hh) | hh) | hh) | hh) | hh) | hh
    · exact hnr _ hh
    · obtain ⟨j, rfl⟩ := hh; cases h
    · obtain ⟨j, rfl⟩ := hh; cases h
    · obtain ⟨j, rfl⟩ := hh; cases h
    · obtain ⟨j, rfl⟩ := hh; cases h
    · obtain ⟨j, rfl⟩ := hh; cases h
    · obtain ⟨j, l, rfl⟩ := hh; cases h
  rcases fitStmts_cells hsi with h | ⟨_, h⟩ | ⟨_, h⟩ | ⟨_, h⟩ | ⟨_, h⟩ | ⟨_, h⟩ | ⟨_, _, h⟩
  · exact hsucc h
  all_goals
    rcases fitStmts_cells hsi' with h' | ⟨_, h'⟩ | ⟨_, h'⟩ | ⟨_, h'⟩ | ⟨_, h'⟩ | ⟨_, h'⟩ | ⟨_, _, h'⟩ <;> rw [h, h'] at ee <;>
      simp only [FitCell.beta.injEq, FitCell.se.injEq, FitCell.shat.injEq, FitCell.q.injEq, FitCell.s.injEq, FitCell.c.injEq, reduceCtorEq] at ee
  · exact hii ee.1
  · exact hii ee.1
  · exact hne ee.1
  · exact hne ee.1
  · have := hs _ _ (hsc.symm.trans h)
    subst this
    simp only [if_true] at ee
    omega
  · have := hc _ _ _ (hsc.symm.trans h)
    subst this
    simp only [if_true] at ee
    omega

theorem localFit_of_ok {x : Matrix (Fin n) (Fin k) ℝ} {y : Fin n → ℝ} {W : Fin n → Fin n → ℝ} {i : Fin n}
    (h : ∃ r, localFit x y (W i) (x i) = .ok r) {first : ℕ} {sS sC : Bool} {t : Fin T} {l : List (Fin n)} (hi : i ∈ l) :
    ∃ r, ∀ s ∈ fitStmts first sS sC t i r, s ∈ fitProgram x y W first sS sC t l := by
  obtain ⟨r, hr⟩ := h
  refine ⟨r, fun s hs => List.mem_flatMap.2 ⟨i, hi, ?_⟩⟩
  rw [hr]
  exact hs

/-- **C134: data races with the default settings, refuted.** "No two threads touch the same memory" fails in every multithreaded fit: if two
threads each have an iteration with a solution, they write the same slice of the coefficient matrices unless these are all stored (they are not
by default), and the same hat row unless these are all stored (they are not from 8192 observations on). By the C++ standard the behaviour of
such a program is undefined. -/
theorem C134_default_races (x : Matrix (Fin n) (Fin k) ℝ) (y : Fin n → ℝ) (W : Fin n → Fin n → ℝ) (first : ℕ) (sS sC : Bool)
    (asg : Fin T → List (Fin n)) (t t' : Fin T) (hne : t ≠ t') (i i' : Fin n) (hi : i ∈ asg t) (hi' : i' ∈ asg t')
    (h : ∃ r, localFit x y (W i) (x i) = .ok r) (h' : ∃ r, localFit x y (W i') (x i') = .ok r) :
    (sC = false → ∀ j l, RaceOn (fun t => accessesOf (fitProgram x y W first sS sC t (asg t))) (.c 0 j l)) ∧
    (sS = false → ∀ l, RaceOn (fun t => accessesOf (fitProgram x y W first sS sC t (asg t))) (.s 0 l)) := by
  obtain ⟨r, hr⟩ := localFit_of_ok h (first := first) (sS := sS) (sC := sC) (t := t) hi
  obtain ⟨r', hr'⟩ := localFit_of_ok h' (first := first) (sS := sS) (sC := sC) (t := t') hi'
  refine ⟨fun hC j l => ?_, fun hS l => ?_⟩
  · subst hC
    refine race_of_stmts hne (s := .set (.c 0 j l) (r.ci j l)) (s' := .set (.c 0 j l) (r'.ci j l)) (hr _ ?_) (hr' _ ?_) rfl rfl (fun c => by simp)
    · simp [fitStmts]
    · simp [fitStmts]
  · subst hS
    refine race_of_stmts hne (s := .set (.s 0 l) (r.si l)) (s' := .set (.s 0 l) (r'.si l)) (hr _ ?_) (hr' _ ?_) rfl rfl (fun c => by simp)
    · simp [fitStmts]
    · simp [fitStmts]

/-- **C134: reporting a failure is a data race, refuted.** "A failing regression is reported without a race" fails: a thread whose regression has
no solution clears the flag which every other thread that has an iteration reads. -/
theorem C134_failure_races (x : Matrix (Fin n) (Fin k) ℝ) (y : Fin n → ℝ) (W : Fin n → Fin n → ℝ) (first : ℕ) (sS sC : Bool)
    (asg : Fin T → List (Fin n)) (t t' : Fin T) (hne : t ≠ t') (i i' : Fin n) (hi : i ∈ asg t) (hi' : i' ∈ asg t')
    (h : ∀ r, localFit x y (W i) (x i) ≠ .ok r) :
    RaceOn (fun t => accessesOf (fitProgram x y W first sS sC t (asg t))) .success := by
  refine race_of_stmts hne (s := .set .success 0) (s' := .read .success) (List.mem_flatMap.2 ⟨i, hi, ?_⟩) (List.mem_flatMap.2 ⟨i', hi', ?_⟩)
    rfl rfl (fun c => by simp)
  · rcases hl : localFit x y (W i) (x i) with r | r | _ | _
    · exact absurd hl (h r)
    all_goals simp [failStmts]
  · rcases localFit x y (W i') (x i') with r | r | _ | _ <;> simp [failStmts, fitStmts]

/-! ## Locally compensated ridge regression -/

theorem lcrStmts_cells {t : Fin T} {i : Fin n} {r : (Fin k → ℝ) × (Fin n → ℝ)} {s : Stmt (LcrCell n k T)} (h : s ∈ lcrStmts t i r) :
    (∃ j, stmtCell s = .beta i j) ∨ (∃ m, stmtCell s = .shat t m) ∨ ∃ m, stmtCell s = .member m := by
  simp only [lcrStmts, List.mem_append, List.mem_map, List.mem_finRange, true_and] at h
  rcases h with (h | h) | h
  · obtain ⟨j, rfl⟩ := h; left; exact ⟨j, rfl⟩
  · obtain ⟨j, rfl⟩ := h; right; left; exact ⟨j, rfl⟩
  · obtain ⟨j, rfl⟩ := h; right; right; exact ⟨j, rfl⟩

theorem lcr_beta (t : Fin T) (i : Fin n) (r : (Fin k → ℝ) × (Fin n → ℝ)) (m : ℝ) (i0 : Fin n) (j0 : Fin k) :
    oneCell (.beta i0 j0) (lcrStmts t i r) m = if i = i0 then r.1 j0 else m := by
  by_cases hi : i = i0
  · subst hi
    simp only [lcrStmts, oneCell_append]
    rw [miss_map (by simp [stmtCell]), miss_map (by simp [stmtCell]),
      oneCell_sets _ (fun j => LcrCell.beta i j) (fun a b h => by simpa using h) _ j0 rfl _ _ (List.mem_finRange _), if_pos trivial]
  · rw [if_neg hi]
    refine oneCell_miss _ _ _ fun s hs => ?_
    rcases lcrStmts_cells hs with ⟨_, h⟩ | ⟨_, h⟩ | ⟨_, h⟩ <;> rw [h] <;> simp [hi]

theorem lcr_shat (t : Fin T) (i : Fin n) (r : (Fin k → ℝ) × (Fin n → ℝ)) (m : ℝ) (m0 : Fin 2) :
    oneCell (.shat t m0) (lcrStmts t i r) m = m + lcrTraces i r.2 m0 := by
  simp only [lcrStmts, oneCell_append]
  rw [miss_map (by simp [stmtCell]),
    oneCell_adds _ (fun m => LcrCell.shat t m) (fun a b h => by simpa using h) _ m0 rfl _ _ (List.mem_finRange _) (List.nodup_finRange _),
    miss_map (by simp [stmtCell])]

theorem lcr_member (t : Fin T) (i : Fin n) (r : (Fin k → ℝ) × (Fin n → ℝ)) (m : ℝ) (m0 : Fin 2) :
    oneCell (.member m0) (lcrStmts t i r) m = m + lcrTraces i r.2 m0 := by
  simp only [lcrStmts, oneCell_append]
  rw [oneCell_adds _ (fun m => LcrCell.member m) (fun a b h => by simpa using h) _ m0 rfl _ _ (List.mem_finRange _) (List.nodup_finRange _),
    miss_map (by simp [stmtCell]), miss_map (by simp [stmtCell])]

theorem lcrProgram_ok {sv : Matrix (Fin n) (Fin k) ℝ → ℝ × ℝ} {cfg : LcrCfg} {x : Matrix (Fin n) (Fin k) ℝ} {y : Fin n → ℝ}
    {W : Fin n → Fin n → ℝ} {f : Fin n → (Fin k → ℝ) × (Fin n → ℝ)} (h : ∀ i, lcrLocal sv cfg x y W i = .ok (f i)) (t : Fin T) (l : List (Fin n)) :
    lcrProgram sv cfg x y W t l = l.flatMap fun i => lcrStmts t i (f i) := by
  unfold lcrProgram
  exact List.flatMap_congr fun i _ => by rw [h i]

theorem lcr_closed {sv : Matrix (Fin n) (Fin k) ℝ → ℝ × ℝ} {cfg : LcrCfg} {x : Matrix (Fin n) (Fin k) ℝ} {y : Fin n → ℝ}
    {W : Fin n → Fin n → ℝ} {tr : Fin 2 → ℝ} {r : Matrix (Fin n) (Fin k) ℝ × (Fin 2 → ℝ)}
    (h : lcrFitSerial sv cfg x y W NoStop tr = .ok (r, false)) :
    ∃ f : Fin n → (Fin k → ℝ) × (Fin n → ℝ), (∀ i, lcrLocal sv cfg x y W i = .ok (f i)) ∧ (∀ i j, r.1 i j = (f i).1 j) ∧
      ∀ m, r.2 m = tr m + ((List.finRange n).map fun i => lcrTraces i (f i).2 m).sum := by
  have hok := serialFor_complete _ _ _ _ h
  choose f hf using fun i => hok i (List.mem_finRange i)
  have hfold := serialFor_eq_fold _ _ _ _ h f fun i _ => hf i
  refine ⟨f, hf, ?_⟩
  have split2 : ∀ (l : List (Fin n)) (s : Matrix (Fin n) (Fin k) ℝ × (Fin 2 → ℝ)),
      l.foldl (fun s i => (setRow i (f i).1 s.1, s.2 + lcrTraces i (f i).2)) s =
        (l.foldl (fun s i => setRow i (f i).1 s) s.1, s.2 + (l.map fun i => lcrTraces i (f i).2).sum) := by
    intro l
    induction l with
    | nil => intro s; simp
    | cons i l ih => intro s; rw [List.foldl_cons, ih]; simp [add_assoc]
  rw [split2] at hfold
  rw [hfold]
  refine ⟨fun i j => ?_, fun m => ?_⟩
  · exact congrFun (foldl_update (fun i => i) (fun i => (f i).1) _ _ (by simpa using List.nodup_finRange n) i (List.mem_finRange i)) j
  · show (tr + (List.map (fun i => lcrTraces i (f i).2) (List.finRange n)).sum) m = _
    rw [Pi.add_apply, list_total_apply]

/-- **C134 (ridge regression).** A multithreaded locally compensated ridge regression, at the level of single memory accesses, the iterations given
to the threads in any way and interleaved in any way: the coefficients and the traces reported are those of the serial fit of a new object,
although the threads also race on the trace members (whose values are overwritten afterwards). -/
theorem C134_ridge_results (sv : Matrix (Fin n) (Fin k) ℝ → ℝ × ℝ) (cfg : LcrCfg) (x : Matrix (Fin n) (Fin k) ℝ) (y : Fin n → ℝ)
    (W : Fin n → Fin n → ℝ) {r : Matrix (Fin n) (Fin k) ℝ × (Fin 2 → ℝ)} (h : lcrFitSerial sv cfg x y W NoStop 0 = .ok (r, false))
    (asg : Fin T → List (Fin n)) (hasg : ((List.finRange T).flatMap asg).Perm (List.finRange n))
    (evs : List (Fin T × Access (LcrCell n k T))) (hevs : Interleaves (fun t => accessesOf (lcrProgram sv cfg x y W t (asg t))) evs)
    (tr : Fin 2 → ℝ) (tmp : Fin T → LcrCell n k T → ℝ) :
    (∀ i j, (accessRun evs (lcrCells tr tmp)).mem (.beta i j) = r.1 i j) ∧
    ∀ m, ∑ t, (accessRun evs (lcrCells tr tmp)).mem (.shat t m) = r.2 m := by
  obtain ⟨f, hf, hb, ht⟩ := lcr_closed h
  obtain ⟨huniq, hnd, hmem⟩ := asg_unique hasg (List.nodup_finRange n)
  simp only [fun t => lcrProgram_ok hf t (asg t)] at hevs
  refine ⟨fun i j => ?_, fun m => ?_⟩
  · obtain ⟨t, hti⟩ := (hmem i).1 (List.mem_finRange i)
    rw [run_cell _ evs hevs (lcrCells tr tmp) (.beta i j) t, oneCell_flatMap]
    · simp only [lcr_beta]
      rw [foldl_pick (P := fun i' => i' = i) (fun i => (f i).1 j) i rfl _ _ (fun _ _ h => h), if_pos hti, hb]
    · intro t' hne s hs he
      obtain ⟨i', hi', hs⟩ := List.mem_flatMap.1 hs
      rcases lcrStmts_cells hs with ⟨_, h⟩ | ⟨_, h⟩ | ⟨_, h⟩ <;> rw [h] at he <;> simp at he
      exact hne (huniq i t' t (he.1 ▸ hi') hti)
  · have e : ∀ t, (accessRun evs (lcrCells tr tmp)).mem (.shat t m) = ((asg t).map fun i => lcrTraces i (f i).2 m).sum := by
      intro t
      rw [run_cell _ evs hevs (lcrCells tr tmp) (.shat t m) t, oneCell_flatMap]
      · simp only [lcr_shat]
        rw [foldl_total]
        exact zero_add _
      · intro t' hne s hs he
        obtain ⟨i', hi', hs⟩ := List.mem_flatMap.1 hs
        rcases lcrStmts_cells hs with ⟨_, h⟩ | ⟨_, h⟩ | ⟨_, h⟩ <;> rw [h] at he <;> simp at he
        exact hne he.1
    simp only [e]
    rw [sum_asg hasg (fun i => lcrTraces i (f i).2 m), ht, Pi.zero_apply, zero_add]

theorem filter_same (t : τ) (l : List (Access κ)) : (((l.map fun a => (t, a)).filter fun e => e.1 = t).map Prod.snd) = l := by
  rw [List.filter_eq_self.2 (by simp)]
  simp [List.map_map, Function.comp_def]

theorem filter_other {t t' : τ} (h : t' ≠ t) (l : List (Access κ)) : (((l.map fun a => (t', a)).filter fun e => e.1 = t).map Prod.snd) = [] := by
  rw [List.filter_eq_nil_iff.2 (by simp [h])]
  rfl

theorem tmp_other {t t' : τ} (h : t' ≠ t) (c : κ) : ∀ (l : List (Access κ)) (s : Cells τ κ), (accessRun (l.map fun a => (t', a)) s).tmp t c = s.tmp t c
  | [], _ => rfl
  | a :: l, s => by
    rw [List.map_cons, accessRun, List.foldl_cons]
    refine (tmp_other h c l _).trans ?_
    cases a <;> simp [accessStep, Function.update_of_ne h.symm]

theorem run_one (c : κ) (t : τ) (l : List (Access κ)) (s : Cells τ κ) :
    ((accessRun (l.map fun a => (t, a)) s).mem c, (accessRun (l.map fun a => (t, a)) s).tmp t c) = l.foldl (cellStep c) (s.mem c, s.tmp t c) := by
  have := run_owned c t (l.map fun a => (t, a)) s fun e he _ => by
    obtain ⟨a, -, rfl⟩ := List.mem_map.1 he
    rfl
  rw [filter_same] at this
  exact this

/-- Two threads: if thread 0 ends with an addition to `c`, all that thread 1 does to `c` can be lost. -/
theorem lost_update (S : Fin 2 → List (Stmt κ)) (c : κ) (v : ℝ) (A B : List (Stmt κ)) (hS : S 0 = A ++ .add c v :: B)
    (hB : ∀ s ∈ B, stmtCell s ≠ c) (s : Cells (Fin 2) κ) :
    ∃ evs, Interleaves (fun t => accessesOf (S t)) evs ∧ (accessRun evs s).mem c = oneCell c (S 0) (s.mem c) := by
  refine ⟨((accessesOf A ++ [Access.load c]).map fun a => (0, a)) ++ ((accessesOf (S 1)).map fun a => (1, a)) ++
    ((Access.storeSum c v :: accessesOf B).map fun a => (0, a)), fun t => ?_, ?_⟩
  · have h01 : (1 : Fin 2) ≠ 0 := by decide
    rw [List.filter_append, List.filter_append, List.map_append, List.map_append]
    rcases Fin.exists_fin_two.1 ⟨t, rfl⟩ with rfl | rfl
    · rw [filter_same, filter_other h01, filter_same]
      show _ = accessesOf (S 0)
      rw [hS]
      simp [accessesOf, Stmt.accesses]
    · rw [filter_other h01.symm, filter_same, filter_other h01.symm]
      simp
  · rw [accessRun, List.foldl_append, List.foldl_append]
    have h1 := run_one c (0 : Fin 2) (accessesOf A ++ [Access.load c]) s
    have h2 := tmp_other (by decide : (1 : Fin 2) ≠ 0) c (accessesOf (S 1)) (accessRun ((accessesOf A ++ [Access.load c]).map fun a => (0, a)) s)
    have h3 := run_one c (0 : Fin 2) (Access.storeSum c v :: accessesOf B)
      (accessRun ((accessesOf (S 1)).map fun a => (1, a)) (accessRun ((accessesOf A ++ [Access.load c]).map fun a => (0, a)) s))
    rw [List.foldl_append] at h1
    have h4 := congrArg Prod.snd h1
    simp only [List.foldl_cons, List.foldl_nil, cellStep, if_true, run_stmts] at h4
    have h5 := congrArg Prod.fst h3
    simp only [List.foldl_cons, cellStep, if_true, run_stmts] at h5
    rw [oneCell_miss c B _ hB, h2, h4] at h5
    refine h5.trans ?_
    rw [hS, oneCell_append, oneCell, if_pos rfl, oneCell_miss c B _ hB]

/-- **C134: the trace members of the ridge regression, refuted.** "After the loop the members hold the traces" fails: with two threads there is
an interleaving in which everything the second thread added is lost, and two threads that each have an iteration always race on them. (The
fit then overwrites the members, which is why `C134_ridge_results` holds.) -/
theorem C134_ridge_members_lost (sv : Matrix (Fin n) (Fin k) ℝ → ℝ × ℝ) (cfg : LcrCfg) (x : Matrix (Fin n) (Fin k) ℝ) (y : Fin n → ℝ)
    (W : Fin n → Fin n → ℝ) (f : Fin n → (Fin k → ℝ) × (Fin n → ℝ)) (hf : ∀ i, lcrLocal sv cfg x y W i = .ok (f i))
    (asg : Fin 2 → List (Fin n)) (h0 : asg 0 ≠ []) (h1 : asg 1 ≠ []) (tr : Fin 2 → ℝ) (tmp : Fin 2 → LcrCell n k 2 → ℝ) (m : Fin 2) :
    RaceOn (fun t => accessesOf (lcrProgram sv cfg x y W t (asg t))) (.member m) ∧
    ∃ evs, Interleaves (fun t => accessesOf (lcrProgram sv cfg x y W t (asg t))) evs ∧
      (accessRun evs (lcrCells tr tmp)).mem (.member m) = tr m + ((asg 0).map fun i => lcrTraces i (f i).2 m).sum := by
  simp only [fun t => lcrProgram_ok hf t (asg t)]
  constructor
  · obtain ⟨i, hi⟩ := List.exists_mem_of_ne_nil _ h0
    obtain ⟨i', hi'⟩ := List.exists_mem_of_ne_nil _ h1
    exact race_of_stmts (S := fun t => (asg t).flatMap fun i => lcrStmts t i (f i)) (by decide : (0 : Fin 2) ≠ 1)
      (s := .add (.member m) (lcrTraces i (f i).2 m)) (s' := .add (.member m) (lcrTraces i' (f i').2 m))
      (List.mem_flatMap.2 ⟨i, hi, by simp [lcrStmts]⟩) (List.mem_flatMap.2 ⟨i', hi', by simp [lcrStmts]⟩) rfl rfl (fun c => by simp)
  · obtain ⟨l, i, hl⟩ : ∃ l i, asg 0 = l ++ [i] := ⟨_, _, (List.dropLast_append_getLast h0).symm⟩
    have fin : ∀ evs : List (Fin 2 × Access (LcrCell n k 2)), (accessRun evs (lcrCells tr tmp)).mem (.member m) =
        oneCell (.member m) ((asg 0).flatMap fun i => lcrStmts (0 : Fin 2) i (f i)) ((lcrCells tr tmp).mem (.member m)) →
        (accessRun evs (lcrCells tr tmp)).mem (.member m) = tr m + ((asg 0).map fun i => lcrTraces i (f i).2 m).sum := by
      intro evs h
      rw [h, oneCell_flatMap]
      simp only [lcr_member]
      rw [foldl_total]
      rfl
    have h2 : (List.finRange 2) = [0, 1] := rfl
    rcases Fin.exists_fin_two.1 ⟨m, rfl⟩ with rfl | rfl
    · obtain ⟨evs, he, hm⟩ := lost_update (fun t => (asg t).flatMap fun i => lcrStmts t i (f i)) (.member 0) (lcrTraces i (f i).2 0)
        (l.flatMap (fun i => lcrStmts 0 i (f i)) ++ ((List.finRange k).map (fun j => .set (.beta i j) ((f i).1 j))
          ++ (List.finRange 2).map (fun m => .add (.shat 0 m) (lcrTraces i (f i).2 m)))) [.add (.member 1) (lcrTraces i (f i).2 1)]
        (by simp [hl, lcrStmts, h2]) (by simp [stmtCell]) (lcrCells tr tmp)
      exact ⟨evs, he, fin evs hm⟩
    · obtain ⟨evs, he, hm⟩ := lost_update (fun t => (asg t).flatMap fun i => lcrStmts t i (f i)) (.member 1) (lcrTraces i (f i).2 1)
        (l.flatMap (fun i => lcrStmts 0 i (f i)) ++ ((List.finRange k).map (fun j => .set (.beta i j) ((f i).1 j))
          ++ (List.finRange 2).map (fun m => .add (.shat 0 m) (lcrTraces i (f i).2 m)) ++ [.add (.member 0) (lcrTraces i (f i).2 0)])) []
        (by simp [hl, lcrStmts, h2]) (by simp) (lcrCells tr tmp)
      exact ⟨evs, he, fin evs hm⟩

/-! ## Concrete cases -/

/-- One thread after the other is an interleaving. -/
theorem oneAfterOther (prog : Fin 2 → List (Access κ)) :
    Interleaves prog (((prog 0).map fun a => (0, a)) ++ ((prog 1).map fun a => (1, a))) := by
  have h01 : (1 : Fin 2) ≠ 0 := by decide
  intro t
  rw [List.filter_append, List.map_append]
  rcases Fin.exists_fin_two.1 ⟨t, rfl⟩ with rfl | rfl
  · rw [filter_same, filter_other h01, List.append_nil]
  · rw [filter_other h01.symm, filter_same, List.nil_append]

/-- Three places, two threads: the first has places 0 and 2, the second place 1. -/
def exAsg : Fin 2 → List (Fin 3) := ![[0, 2], [1]]

theorem exAsg_perm : ((List.finRange 2).flatMap exAsg).Perm (List.finRange 3) := by decide

/-- There are interleavings, and after every one of them the coefficients are those of the serial fit; the default run nevertheless races. -/
example : ∃ a, fitCoreSerial exX ![1, 3, 2] exW 0 3 true false NoStop = .ok (a, false) ∧
    (∃ evs, Interleaves (fun t => accessesOf (fitProgram exX ![1, 3, 2] exW 0 true false t (exAsg t))) evs) ∧
    (∀ evs, Interleaves (fun t => accessesOf (fitProgram exX ![1, 3, 2] exW 0 true false t (exAsg t))) evs →
      ∀ i j, (accessRun evs (fitCells 0)).mem (.beta i j) = a.betas i j) ∧
    ¬ RaceOn (fun t => accessesOf (fitProgram exX ![1, 3, 2] exW 0 true false t (exAsg t))) (.beta 1 0) ∧
    RaceOn (fun t => accessesOf (fitProgram exX ![1, 3, 2] exW 0 true false t (exAsg t))) (.c 0 1 2) := by
  obtain ⟨a, ha⟩ := ex_fit ![1, 3, 2] true false
  have hp : ((List.finRange 2).flatMap exAsg).Perm (workRange 3 0 3) := exAsg_perm.trans (by decide)
  have hl : ∀ i : Fin 3, ∃ r, localFit exX ![1, 3, 2] (exW i) (exX i) = .ok r := fun i =>
    ⟨_, localFit_fitAt ((fitCoreSerial_ok ha).1 i (Nat.zero_le _) i.isLt)⟩
  exact ⟨a, ha, ⟨_, oneAfterOther _⟩, fun evs he => (C134_results _ _ _ _ _ _ _ a ha exAsg hp evs he 0).1,
    C134_no_race _ _ _ _ _ _ _ a ha exAsg hp _ (by simp) (by simp),
    (C134_default_races _ _ _ _ _ _ exAsg 0 1 (by decide) 0 1 (by simp [exAsg]) (by simp [exAsg]) (hl 0) (hl 1)).1 rfl 1 2⟩

/-- All observations without weight: the regressions fail, and the report races. -/
example : RaceOn (fun t => accessesOf (fitProgram exX ![1, 3, 2] (0 : Fin 3 → Fin 3 → ℝ) 0 true false t (exAsg t))) .success := by
  refine C134_failure_races _ _ _ _ _ _ exAsg 0 1 (by decide) 0 1 (by simp [exAsg]) (by simp [exAsg]) fun r hr => ?_
  have h0 : xtwx exX ((0 : Fin 3 → Fin 3 → ℝ) 0) = 0 := by
    ext i j
    simp [xtwx, xtw, Matrix.mul_apply]
  have hp := (localFit_eq_ok.1 hr).1
  rw [h0] at hp
  have h1 := hp.diag_pos (i := 0)
  simp at h1

/-- Ridge regression of three places with two threads. -/
example (sv : Matrix (Fin 3) (Fin 2) ℝ → ℝ × ℝ) : ∃ r, lcrFitSerial sv ⟨1, false, 30⟩ exX (fun l => (l.val : ℝ) ^ 2) exW NoStop 0 = .ok (r, false) ∧
    (∀ evs, Interleaves (fun t => accessesOf (lcrProgram sv ⟨1, false, 30⟩ exX (fun l => (l.val : ℝ) ^ 2) exW t (exAsg t))) evs →
      ∀ m, ∑ t, (accessRun evs (lcrCells 0 0)).mem (.shat t m) = r.2 m) ∧
    ∃ evs, Interleaves (fun t => accessesOf (lcrProgram sv ⟨1, false, 30⟩ exX (fun l => (l.val : ℝ) ^ 2) exW t (exAsg t))) evs ∧
      (accessRun evs (lcrCells 0 0)).mem (.member 0) < r.2 0 := by
  obtain ⟨r, hr⟩ := ex_lcr sv 1 one_pos
  obtain ⟨f, hf, -, ht⟩ := lcr_closed hr
  refine ⟨r, hr, fun evs he => (C134_ridge_results sv _ _ _ _ hr exAsg exAsg_perm evs he 0 0).2, ?_⟩
  obtain ⟨-, evs, he, hm⟩ := C134_ridge_members_lost sv _ _ _ _ f hf exAsg (by simp [exAsg]) (by simp [exAsg]) 0 0 0
  refine ⟨evs, he, ?_⟩
  rw [hm, ht]
  have h1 : 0 < (f 1).2 1 := by
    have h2 := hf 1
    unfold lcrLocal at h2
    obtain ⟨b, -, h2⟩ := Res.bind_eq_ok'.1 h2
    obtain ⟨h, h3, h2⟩ := Res.bind_eq_ok'.1 h2
    have h6 : (b, h) = f 1 := Res.ok.inj h2
    obtain ⟨-, h4⟩ := lcrHatRow_ok h3
    rw [← h6]
    show 0 < h 1
    rw [h4 1]
    have hp : ((xtwx exX (exW 1))⁻¹).PosDef := ((gram_posDef_iff_determined exX _ fun l => (exW_pos 1 l).le).2 (exX_determined _ (exW_pos 1))).inv
    have h5 := hp.dotProduct_mulVec_pos (x := exX 1) (fun h => by
      have := congrFun h 0
      change (1 : ℝ) = 0 at this
      norm_num at this)
    rw [star_trivial] at h5
    exact mul_pos (mul_pos (exW_pos 1 1) h5) (exW_pos 1 1)
  simp [exAsg, lcrTraces, List.finRange_succ]
  linarith

/-- Thread 0 adds 2 and 3 to cell 0 while thread 1 writes cell 1, and both add to cell 2, in an order where an addition to cell 2 is lost. -/
example : ∃ (S : Fin 2 → List (Stmt (Fin 3))) (evs : List (Fin 2 × Access (Fin 3))), Interleaves (fun t => accessesOf (S t)) evs ∧
    (∀ t', t' ≠ 0 → ∀ a ∈ accessesOf (S t'), a.cell ≠ 0) ∧ (accessRun evs ⟨0, 0⟩).mem 0 = 5 ∧ (accessRun evs ⟨0, 0⟩).mem 2 = 7 := by
  refine ⟨![[.add 0 2, .add 2 7, .add 0 3], [.set 1 4, .add 2 1]],
    [(0, .load 0), (1, .store 1 4), (1, .load 2), (0, .storeSum 0 2), (0, .load 2), (1, .storeSum 2 1), (0, .storeSum 2 7), (0, .load 0), (0, .storeSum 0 3)],
    ?_, ?_, ?_, ?_⟩
  · intro t; fin_cases t <;> simp [accessesOf, Stmt.accesses]
  · intro t ht; fin_cases t
    · exact absurd rfl ht
    · simp [accessesOf, Stmt.accesses, Access.cell]
  · rw [C134_private_cell ![[.add 0 2, .add 2 7, .add 0 3], [.set 1 4, .add 2 1]] _
      (by intro t; fin_cases t <;> simp [accessesOf, Stmt.accesses]) ⟨0, 0⟩ 0 0
      (by intro t ht; fin_cases t
          · exact absurd rfl ht
          · simp [accessesOf, Stmt.accesses, Access.cell])]
    simp [accessesOf, Stmt.accesses, accessRun, accessStep, Function.update_apply]
    norm_num
  · simp [accessRun, accessStep, Function.update_apply]

end Verif.Props

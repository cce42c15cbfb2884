import Verif.Lemmas.ForwardSelector
import Mathlib.Tactic.NormNum
import Mathlib.Tactic.Positivity

/-! # C19–C20: forward selection of variables -/

namespace Verif.Props
open Verif Verif.Model Verif.Spec Classical

/-- How a selection unfolds: the stages always complete, and then either every call succeeded or one failed. -/
theorem forward_cases (srt : List FModel → List FModel) (vars : List ℕ) (thr : ℝ) (o : VOracle) :
    ∃ s, ((stages o vars vars.length ⟨[], List.range vars.length, [], true⟩) = .ok s) ∧
      ((s.status = true ∧ ForwardInv vars.length s ∧ s.rest = [] ∧ CallsOk o vars s.models) ∨
       (s.status = false ∧ forwardOptimize srt vars thr o = .ok ⟨.ok vars, s.models, none, false⟩ ∧
         ∃ pre m a, s.models = pre ++ [(m, a)] ∧ CallsOk o vars pre ∧ o pre.length (convertIndex vars m) = (false, a))) := by
  obtain ⟨s, hs⟩ := stages_total o vars vars.length ⟨[], List.range vars.length, [], true⟩ (by simp)
  refine ⟨s, hs, ?_⟩
  have hc := stages_calls o vars vars.length ⟨[], List.range vars.length, [], true⟩ s (by simp) rfl
    (fun n h => by simp at h) hs
  cases hst : s.status with
  | true =>
    left
    obtain ⟨h1, h2⟩ := stages_inv o vars vars.length vars.length _ s (by simp) (ForwardInv.init _) hs hst
    exact ⟨rfl, h1, h2, hc.1 hst⟩
  | false =>
    right
    refine ⟨rfl, ?_, hc.2 hst⟩
    unfold forwardOptimize
    rw [hs]
    simp only [Res.bind, hst]
    rfl

theorem sortSections_total (srt : List FModel → List FModel) : ∀ (k : ℕ) (l : List FModel),
    2 * l.length = k * (k + 1) → ∃ t, sortSections srt k l = .ok t
  | 0, l, _ => ⟨l, rfl⟩
  | k + 1, l, h => by
    have hle : k + 1 ≤ l.length := by nlinarith
    obtain ⟨t, ht⟩ := sortSections_total srt k (l.drop (k + 1)) (by
      rw [List.length_drop]
      have : 2 * (l.length - (k + 1)) = 2 * l.length - 2 * (k + 1) := by omega
      rw [this, h]
      have : (k + 1) * (k + 1 + 1) = k * (k + 1) + 2 * (k + 1) := by ring
      omega)
    simp only [sortSections]
    rw [if_neg (by omega), ht]
    exact ⟨_, rfl⟩

theorem forward_success (srt : List FModel → List FModel) (vars : List ℕ) (thr : ℝ) (o : VOracle) (s : FS)
    (hs : stages o vars vars.length ⟨[], List.range vars.length, [], true⟩ = .ok s) (hst : s.status = true)
    (hi : ForwardInv vars.length s) (hr : s.rest = []) :
    ∃ sorted, sortSections srt vars.length s.models = .ok sorted ∧
      forwardOptimize srt vars thr o =
        .ok ⟨(select thr sorted).bind fun m => .ok (convertIndex vars m.1), s.models, some sorted, true⟩ := by
  have hcount := hi.count
  rw [hr] at hcount
  obtain ⟨t, ht⟩ := sortSections_total srt vars.length s.models (by simpa using hcount)
  refine ⟨t, ht, ?_⟩
  unfold forwardOptimize
  rw [hs]
  simp only [Res.bind, hst, if_true, ht]

/-- The bookkeeping flag `success` means what it says: every call made reported `Success`. -/
theorem forward_success_iff (srt : List FModel → List FModel) (vars : List ℕ) (thr : ℝ) (o : VOracle) (r : FResult)
    (hr : forwardOptimize srt vars thr o = .ok r) :
    r.success = true ↔ ∀ n, ∀ h : n < r.evals.length, (o n (convertIndex vars r.evals[n].1)).1 = true := by
  obtain ⟨s, hs, ⟨hst, hi, hrest, hc⟩ | ⟨hst, he, pre, m, a, hm, hpre, hlast⟩⟩ := forward_cases srt vars thr o
  · obtain ⟨sorted, -, he⟩ := forward_success srt vars thr o s hs hst hi hrest
    rw [he] at hr
    have := Res.ok.inj hr
    subst this
    simp only [true_iff]
    intro n h
    rw [hc n h]
  · rw [he] at hr
    have := Res.ok.inj hr
    subst this
    simp only [Bool.false_eq_true, false_iff]
    intro h
    have := h pre.length (by rw [hm]; simp)
    simp only [hm] at this
    rw [List.getElem_append_right (le_refl _)] at this
    simp [hlast] at this

/-- **C19.** When every criterion call succeeds, the visited models form a complete greedy forward search over the
candidates: there is an order in which candidates were added such that each stage tries exactly the current model plus one
remaining candidate and continues with one of smallest criterion; no model is visited twice and `k(k+1)/2` are visited; each
recorded criterion is the one returned for that model. -/
theorem C19_greedy_search (srt : List FModel → List FModel) (vars : List ℕ) (thr : ℝ) (o : VOracle) (r : FResult)
    (hr : forwardOptimize srt vars thr o = .ok r)
    (hok : ∀ n, ∀ h : n < r.evals.length, (o n (names vars r.evals[n].1)).1 = true) :
    (∃ path, GreedySearch vars.length path r.evals) ∧ (r.evals.map Prod.fst).Nodup ∧
    r.evals.length = vars.length * (vars.length + 1) / 2 ∧
    (∀ m ∈ r.evals, m.1.Nodup ∧ m.1.length ≤ vars.length) ∧
    (∀ n, ∀ h : n < r.evals.length, (o n (names vars r.evals[n].1)).2 = r.evals[n].2) := by
  have hsucc := (forward_success_iff srt vars thr o r hr).2 hok
  obtain ⟨s, hs, ⟨hst, hi, hrest, hc⟩ | ⟨hst, he, -⟩⟩ := forward_cases srt vars thr o
  · obtain ⟨sorted, -, he⟩ := forward_success srt vars thr o s hs hst hi hrest
    rw [he] at hr
    have := Res.ok.inj hr
    subst this
    simp only
    have hlen := hi.length
    rw [hrest, List.length_nil, Nat.add_zero] at hlen
    have hnd : s.cur.Nodup := by
      have := hi.nodup_all; rw [hrest, List.append_nil] at this; exact this
    refine ⟨⟨s.cur, ⟨?_, ?_, ?_, ?_⟩⟩, hi.nodup, ?_, ?_, fun n h => by rw [show ∀ l, names vars l = convertIndex vars l from fun _ => rfl, hc n h]⟩
    · have := hi.perm; rw [hrest, List.append_nil] at this; exact this
    · rw [← hlen]; intro t ht v hv hvn; exact hi.covers t ht v (by omega) hvn
    · intro m hm
      obtain ⟨t, ht, v, hv, hvn, hmv⟩ := hi.only m hm
      exact ⟨t, by omega, v, hv, hvn, hmv⟩
    · rw [← hlen]; exact hi.best
    · have := hi.count; rw [hrest] at this; simp only [List.length_nil, Nat.zero_mul, Nat.add_zero] at this
      omega
    · intro m hm
      obtain ⟨t, ht, v, hv, hvn, hmv⟩ := hi.only m hm
      refine ⟨?_, by have := (hi.vlen m hm).2; omega⟩
      rw [hmv, List.nodup_append]
      refine ⟨hnd.sublist (List.take_sublist _ _), by simp, ?_⟩
      intro a ha b hb hab
      rw [List.mem_singleton] at hb
      subst hb; subst hab
      exact hvn ha
  · rw [he] at hr
    have := Res.ok.inj hr
    subst this
    cases hsucc

/-- **C19 (failure).** A selection never breaks off with an exception before choosing; a call that reports a status other than
`Success` is the last one, and the candidate variables are then returned unchanged. -/
theorem C19_failure_returns_candidates (srt : List FModel → List FModel) (vars : List ℕ) (thr : ℝ) (o : VOracle) :
    ∃ r, forwardOptimize srt vars thr o = .ok r ∧
      ∀ n, ∀ h : n < r.evals.length, (o n (names vars r.evals[n].1)).1 = false →
        n + 1 = r.evals.length ∧ r.out = .ok vars := by
  obtain ⟨s, hs, ⟨hst, hi, hrest, hc⟩ | ⟨hst, he, pre, m, a, hm, hpre, hlast⟩⟩ := forward_cases srt vars thr o
  · obtain ⟨sorted, -, he⟩ := forward_success srt vars thr o s hs hst hi hrest
    refine ⟨_, he, ?_⟩
    intro n h hf
    simp only at h hf
    rw [show ∀ l, names vars l = convertIndex vars l from fun _ => rfl] at hf
    rw [hc n h] at hf
    cases hf
  · refine ⟨_, he, ?_⟩
    intro n h hf
    simp only at h hf ⊢
    refine ⟨?_, trivial⟩
    by_contra hne
    simp only [hm, List.length_append, List.length_singleton] at h hne
    have hlt : n < pre.length := by omega
    have := hpre n hlt
    simp only [hm, List.getElem_append_left hlt] at hf
    rw [show ∀ l, names vars l = convertIndex vars l from fun _ => rfl] at hf
    rw [this] at hf
    cases hf

/-- The reported list is a rearrangement of the visited models. -/
theorem sortSections_perm (srt : List FModel → List FModel) (hsrt : IsStdSort srt) : ∀ (k : ℕ) (l t : List FModel),
    sortSections srt k l = .ok t → t.Perm l
  | 0, l, t, h => by simp only [sortSections, Res.ok.injEq] at h; subst h; exact List.Perm.refl _
  | k + 1, l, t, h => by
    simp only [sortSections] at h
    split at h
    · cases h
    · rw [Res.bind_eq_ok'] at h
      obtain ⟨t', h1, h2⟩ := h
      have := Res.ok.inj h2
      subst this
      have := (hsrt (l.take (k + 1))).1.append (sortSections_perm srt hsrt k _ _ h1)
      rwa [List.take_append_drop] at this

theorem sortSections_length (srt : List FModel → List FModel) (hsrt : IsStdSort srt) (k : ℕ) (l t : List FModel)
    (h : sortSections srt k l = .ok t) : t.length = l.length := (sortSections_perm srt hsrt k l t h).length_eq

theorem selectLoop_spec (thr : ℝ) (models : List FModel) : ∀ i, i < models.length →
    (∀ m, selectLoop thr models i = .ok m ↔ ∃ j, ∃ _ : j < i, ∃ h : j + 1 < models.length, models[j + 1] = m ∧
      models[j].2 - models[j + 1].2 ≥ thr ∧ ∀ j', ∀ hj : j' + 1 < models.length, j < j' → j' < i →
        models[j'].2 - models[j' + 1].2 < thr) ∧
    (selectLoop thr models i = .ub ↔ ∀ j, ∀ h : j + 1 < models.length, j < i → models[j].2 - models[j + 1].2 < thr)
  | 0, hi => by
    simp only [selectLoop]
    refine ⟨fun m => ⟨fun h => ?_, ?_⟩, ?_⟩
    · cases h
    · rintro ⟨j, hj, -⟩; exact absurd hj (Nat.not_lt_zero _)
    · simp
  | i + 1, hi => by
    obtain ⟨ih1, ih2⟩ := selectLoop_spec thr models i (by omega)
    simp only [selectLoop]
    rw [List.getElem?_eq_getElem (by omega : i < models.length), List.getElem?_eq_getElem hi]
    simp only
    split
    · rename_i hge
      constructor
      · intro m
        constructor
        · intro h
          have := Res.ok.inj h
          refine ⟨i, by omega, hi, this, hge, fun j' hj h1 h2 => by omega⟩
        · rintro ⟨j, hj, hlt, rfl, hjg, hmax⟩
          congr 1
          by_cases hji : j = i
          · subst hji; rfl
          · exact absurd hge (not_le.2 (hmax i hi (by omega) (by omega)))
      · constructor
        · intro h; cases h
        · intro h; exact absurd hge (not_le.2 (h i hi (by omega)))
    · rename_i hlt
      rw [ge_iff_le, not_le] at hlt
      constructor
      · intro m
        rw [ih1 m]
        constructor
        · rintro ⟨j, hj, h, hm, hg, hmax⟩
          refine ⟨j, by omega, h, hm, hg, fun j' hj' h1 h2 => ?_⟩
          by_cases hji : j' = i
          · subst hji; exact hlt
          · exact hmax j' hj' h1 (by omega)
        · rintro ⟨j, hj, h, hm, hg, hmax⟩
          refine ⟨j, ?_, h, hm, hg, fun j' hj' h1 h2 => hmax j' hj' h1 (by omega)⟩
          by_contra hji
          have : j = i := by omega
          subst this
          exact absurd hlt (not_lt.2 hg)
      · rw [ih2]
        constructor
        · intro h j hj hji
          by_cases hji' : j = i
          · subst hji'; exact hlt
          · exact h j hj (by omega)
        · intro h j hj hji
          exact h j hj (by omega)

/-- **C20 (what is selected), partial.** On the reported list the selection returns the model at the last position where the
criterion drops by at least the threshold from the entry just before it. Missing from the full claim: the entry just before
may belong to the same stage (`C20_selects_stage_loser`), and with no such position the behaviour is undefined
(`C20_no_gap_undefined`). -/
theorem C20_selects_last_gap_partial (thr : ℝ) (models : List FModel) (m : FModel) :
    select thr models = .ok m ↔ LastGap thr models m := by
  unfold select LastGap
  split
  · rename_i h
    constructor
    · intro h'; cases h'
    · rintro ⟨i, hi, -⟩; omega
  · rename_i h
    rw [(selectLoop_spec thr models (models.length - 1) (by omega)).1 m]
    constructor
    · rintro ⟨j, hj, h, hm, hg, hmax⟩
      exact ⟨j, h, hm, hg, fun j' hj' h1 => hmax j' hj' h1 (by omega)⟩
    · rintro ⟨j, h, hm, hg, hmax⟩
      exact ⟨j, by omega, h, hm, hg, fun j' hj' h1 _ => hmax j' hj' h1⟩

/-- **C20 is violated**: whenever no entry drops by the threshold, the selection reads before the start of the list. -/
theorem C20_no_gap_undefined (thr : ℝ) (models : List FModel) :
    select thr models = .ub ↔ ∀ j, ∀ h : j + 1 < models.length, models[j].2 - models[j + 1].2 < thr := by
  unfold select
  split
  · rename_i h
    simp only [true_iff]
    intro j hj; omega
  · rename_i h
    rw [(selectLoop_spec thr models (models.length - 1) (by omega)).2]
    constructor
    · intro h' j hj; exact h' j hj (by omega)
    · intro h' j hj _; exact h' j hj

/-- **C20 is violated** for every run with a single candidate variable. -/
theorem C20_single_candidate_undefined (srt : List FModel → List FModel) (hsrt : IsStdSort srt) (v : ℕ) (thr : ℝ) (o : VOracle)
    (hok : ∀ n vs, (o n vs).1 = true) :
    ∃ r, forwardOptimize srt [v] thr o = .ok r ∧ r.out = .ub := by
  obtain ⟨s, hs, ⟨hst, hi, hrest, hc⟩ | ⟨hst, he, pre, m, a, hm, hpre, hlast⟩⟩ := forward_cases srt [v] thr o
  · obtain ⟨sorted, h1, he⟩ := forward_success srt [v] thr o s hs hst hi hrest
    refine ⟨_, he, ?_⟩
    have hl := sortSections_length srt hsrt _ _ _ h1
    have hcount := hi.count
    rw [hrest] at hcount
    simp only [List.length_singleton, List.length_nil] at hcount
    have : select thr sorted = .ub := by
      rw [C20_no_gap_undefined]
      intro j hj; omega
    simp only [this, Res.bind]
  · have := hok pre.length (convertIndex [v] m)
    rw [hlast] at this; cases this

/-- **C20 (selected model).** A model selected by a run without failures is one of the models visited. -/
theorem C20_selected_was_visited (srt : List FModel → List FModel) (hsrt : IsStdSort srt) (vars : List ℕ) (thr : ℝ) (o : VOracle)
    (r : FResult) (hr : forwardOptimize srt vars thr o = .ok r) (sel : List ℕ) (hsel : r.out = .ok sel)
    (hok : ∀ n, ∀ h : n < r.evals.length, (o n (names vars r.evals[n].1)).1 = true) :
    ∃ m ∈ r.evals, sel = names vars m.1 := by
  have hsucc := (forward_success_iff srt vars thr o r hr).2 hok
  obtain ⟨s, hs, ⟨hst, hi, hrest, hc⟩ | ⟨hst, he, -⟩⟩ := forward_cases srt vars thr o
  · obtain ⟨sorted, h1, he⟩ := forward_success srt vars thr o s hs hst hi hrest
    rw [he] at hr
    have := Res.ok.inj hr
    subst this
    simp only at hsel ⊢
    rw [Res.bind_eq_ok'] at hsel
    obtain ⟨m, hm, hm2⟩ := hsel
    obtain ⟨i, hi', hmi, -⟩ := (C20_selects_last_gap_partial thr sorted m).1 hm
    refine ⟨m, (sortSections_perm srt hsrt _ _ _ h1).mem_iff.1 ?_, (Res.ok.inj hm2).symm⟩
    rw [← hmi]; exact List.getElem_mem _
  · rw [he] at hr
    have := Res.ok.inj hr
    subst this
    cases hsucc

/-- Sorting section by section orders the models by size, then by decreasing criterion. -/
theorem sortSections_sorted (srt : List FModel → List FModel) (hsrt : IsStdSort srt) : ∀ (k j : ℕ) (l t : List FModel),
    l.map (fun m => m.1.length) = (List.range k).flatMap (fun i => List.replicate (k - i) (i + 1 + j)) →
    sortSections srt k l = .ok t →
    t.Pairwise (fun a b => a.1.length < b.1.length ∨ (a.1.length = b.1.length ∧ b.2 ≤ a.2)) ∧
      ∀ m ∈ t, j < m.1.length
  | 0, j, l, t, hl, h => by
    simp only [sortSections, Res.ok.injEq] at h; subst h
    simp only [List.range_zero, List.flatMap_nil, List.map_eq_nil_iff] at hl
    subst hl; simp
  | k + 1, j, l, t, hl, h => by
    simp only [sortSections] at h
    split at h
    · cases h
    · rename_i hlen
      rw [Res.bind_eq_ok'] at h
      obtain ⟨t', h1, h2⟩ := h
      have := Res.ok.inj h2
      subst this
      rw [List.range_succ_eq_map, List.flatMap_cons, List.flatMap_map] at hl
      simp only [Nat.sub_zero, Nat.zero_add, Nat.succ_eq_add_one, Nat.add_sub_add_right] at hl
      have htake : (l.take (k + 1)).map (fun m => m.1.length) = List.replicate (k + 1) (1 + j) := by
        rw [List.map_take, hl, List.take_append_of_le_length (by simp)]; simp
      have hdrop : (l.drop (k + 1)).map (fun m => m.1.length) =
          (List.range k).flatMap (fun i => List.replicate (k - i) (i + 1 + (j + 1))) := by
        rw [List.map_drop, hl, List.drop_append_of_le_length (by simp)]
        simp only [List.drop_replicate, Nat.sub_self, List.replicate_zero, List.nil_append]
        congr 1; funext i; congr 1; omega
      obtain ⟨ih1, ih2⟩ := sortSections_sorted srt hsrt k (j + 1) _ _ hdrop h1
      obtain ⟨p1, p2⟩ := hsrt (l.take (k + 1))
      have hmem : ∀ m ∈ srt (l.take (k + 1)), m.1.length = 1 + j := by
        intro m hm
        have : m.1.length ∈ (l.take (k + 1)).map (fun m => m.1.length) := List.mem_map.2 ⟨m, p1.mem_iff.1 hm, rfl⟩
        rw [htake] at this
        exact (List.mem_replicate.1 this).2
      constructor
      · rw [List.pairwise_append]
        refine ⟨?_, ih1, ?_⟩
        · rw [List.pairwise_iff_getElem] at p2 ⊢
          intro a b ha hb hab
          right
          exact ⟨by rw [hmem _ (List.getElem_mem ha), hmem _ (List.getElem_mem hb)], p2 a b ha hb hab⟩
        · intro a ha b hb
          left
          rw [hmem a ha]; have := ih2 b hb; omega
      · intro m hm
        rcases List.mem_append.1 hm with hm | hm
        · rw [hmem m hm]; omega
        · have := ih2 m hm; omega

/-- **C19 (reported list).** After a run without failures the reported list contains exactly the visited models, smaller
models first, and models of the same size from the largest criterion to the smallest, whichever way `std::sort` breaks ties;
it names the variables of each model. -/
theorem C19_reported_list (srt : List FModel → List FModel) (hsrt : IsStdSort srt) (vars : List ℕ) (thr : ℝ) (o : VOracle)
    (r : FResult) (hr : forwardOptimize srt vars thr o = .ok r)
    (hok : ∀ n, ∀ h : n < r.evals.length, (o n (names vars r.evals[n].1)).1 = true) :
    ∃ sorted, r.sorted = some sorted ∧ sorted.Perm r.evals ∧
      sorted.Pairwise (fun a b => a.1.length < b.1.length ∨ (a.1.length = b.1.length ∧ b.2 ≤ a.2)) ∧
      indepVarsCriterion vars sorted = sorted.map fun m => (names vars m.1, m.2) := by
  have hsucc := (forward_success_iff srt vars thr o r hr).2 hok
  obtain ⟨s, hs, ⟨hst, hi, hrest, hc⟩ | ⟨hst, he, -⟩⟩ := forward_cases srt vars thr o
  · obtain ⟨sorted, h1, he⟩ := forward_success srt vars thr o s hs hst hi hrest
    rw [he] at hr
    have := Res.ok.inj hr
    subst this
    refine ⟨sorted, rfl, sortSections_perm srt hsrt _ _ _ h1, ?_, rfl⟩
    have hlen := hi.length
    rw [hrest, List.length_nil, Nat.add_zero] at hlen
    have := hi.lens
    rw [hlen] at this
    exact (sortSections_sorted srt hsrt vars.length 0 _ _ this h1).1
  · rw [he] at hr
    have := Res.ok.inj hr
    subst this
    cases hsucc

/-- The standard list sort is one admissible behaviour of `std::sort`. -/
theorem exists_stdSort : ∃ srt, IsStdSort srt := by
  refine ⟨fun l => l.insertionSort (fun a b => b.2 ≤ a.2), fun l => ⟨List.perm_insertionSort _ _, ?_⟩⟩
  have : Std.Total (fun a b : FModel => b.2 ≤ a.2) := ⟨fun a b => le_total _ _⟩
  have : IsTrans FModel (fun a b : FModel => b.2 ≤ a.2) := ⟨fun a b c h1 h2 => h2.trans h1⟩
  exact List.pairwise_insertionSort _ _

/-- A criterion for three candidates: singles 106, 107, 108; pairs starting with the first candidate 100 and 99; all three
98.5. -/
noncomputable def gapOracle : VOracle := fun _ vs =>
  (true, if vs = [0] then 106 else if vs = [1] then 107 else if vs = [2] then 108 else if vs = [0, 1] then 100
    else if vs = [0, 2] then 99 else 98.5)

theorem sort2 (srt : List FModel → List FModel) (hsrt : IsStdSort srt) (l l' : List FModel) (hp : l'.Perm l)
    (hs : l'.Pairwise (fun a b => b.2 < a.2)) : srt l = l' := by
  obtain ⟨h1, h2⟩ := hsrt l
  refine List.Perm.eq_of_pairwise (le := fun a b => b.2 ≤ a.2) ?_ h2 (hs.imp le_of_lt) (h1.trans hp.symm)
  intro a b ha hb hab hba
  have ha' : a ∈ l' := hp.mem_iff.2 (h1.mem_iff.1 ha)
  obtain ⟨i, hi, rfl⟩ := List.getElem_of_mem ha'
  obtain ⟨j, hj, rfl⟩ := List.getElem_of_mem hb
  rw [List.pairwise_iff_getElem] at hs
  rcases lt_trichotomy i j with h | h | h
  · exact absurd (hs i j hi hj h) (not_lt.2 hba)
  · subst h; rfl
  · exact absurd (hs j i hj hi h) (not_lt.2 hab)

/-- **C20 is violated**: with threshold 3 the selection can return a model that is *worse* than another visited model of the
same size, because it compares neighbours in the sorted list, not stage winners. -/
theorem C20_selects_stage_loser (srt : List FModel → List FModel) (hsrt : IsStdSort srt) :
    ∃ r, forwardOptimize srt [0, 1, 2] 3 gapOracle = .ok r ∧ r.out = .ok [0, 1] ∧ ([0, 1], 100) ∈ r.evals ∧
      ([0, 2], 99) ∈ r.evals := by
  have hst : stages gapOracle [0, 1, 2] 3 ⟨[], List.range 3, [], true⟩ = .ok ⟨[0, 2, 1], [],
      [([0], 106), ([1], 107), ([2], 108), ([0, 1], 100), ([0, 2], 99), ([0, 2, 1], 98.5)], true⟩ := by
    norm_num [stages, stage, stageLoop, List.range_succ, gapOracle, convertIndex, indexMin, Res.bind]
    simp
  have h3 := sort2 srt hsrt [([0], 106), ([1], 107), ([2], 108)] [([2], 108), ([1], 107), ([0], 106)] (List.reverse_perm [([0], 106), ([1], 107), ([2], 108)])
    (by norm_num)
  have h2 := sort2 srt hsrt [([0, 1], 100), ([0, 2], 99)] [([0, 1], 100), ([0, 2], 99)] (List.Perm.refl _) (by norm_num)
  have h1 := sort2 srt hsrt [([0, 2, 1], 98.5)] [([0, 2, 1], 98.5)] (List.Perm.refl _) (by norm_num)
  have hsort : sortSections srt 3 [([0], 106), ([1], 107), ([2], 108), ([0, 1], 100), ([0, 2], 99), ([0, 2, 1], 98.5)] =
      .ok [([2], 108), ([1], 107), ([0], 106), ([0, 1], 100), ([0, 2], 99), ([0, 2, 1], 98.5)] := by
    simp [sortSections, Res.bind, h1, h2, h3]
  refine ⟨⟨.ok [0, 1], [([0], 106), ([1], 107), ([2], 108), ([0, 1], 100), ([0, 2], 99), ([0, 2, 1], 98.5)],
    some [([2], 108), ([1], 107), ([0], 106), ([0, 1], 100), ([0, 2], 99), ([0, 2, 1], 98.5)], true⟩, ?_, rfl, by simp, by simp⟩
  unfold forwardOptimize
  simp only [List.length_cons, List.length_nil]
  rw [hst]
  simp only [Res.bind, if_true]
  rw [hsort]
  norm_num [select, selectLoop, convertIndex]

/-- The hypotheses of C19 are met by that run. -/
example : ∃ srt, IsStdSort srt ∧ ∃ r, forwardOptimize srt [0, 1, 2] 3 gapOracle = .ok r ∧
    ∀ n, ∀ h : n < r.evals.length, (gapOracle n (convertIndex [0, 1, 2] r.evals[n].1)).1 = true := by
  obtain ⟨srt, hs⟩ := exists_stdSort
  obtain ⟨r, hr, -⟩ := C20_selects_stage_loser srt hs
  exact ⟨srt, hs, r, hr, fun n h => rfl⟩

end Verif.Props

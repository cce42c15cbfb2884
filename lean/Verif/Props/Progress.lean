import Verif.Model.Progress
import Verif.Spec.Progress
import Verif.Props.GWRObject
import Verif.Props.ForwardSelector
import Verif.Props.GGWRRun
import Verif.Props.GWRCuda

/-! # C130: progress reports -/

namespace Verif.Props
open Verif Verif.Model Verif.Spec Matrix Classical

variable {n k m : ℕ} {ι ρ σ : Type*}

/-- The reports are those of an initial part of the iterations; of all exactly if the loop ran to its end. -/
theorem serialReports_spec {g : ι → Res ρ} {rep : ι → ℕ × ℕ} {upd : ι → ρ → σ → σ} {stop : ℕ → Bool} (is : List ι) : ∀ (p : ℕ) (s : σ),
    ∃ q ≤ is.length, serialReports g rep stop is p = (is.take q).map rep ∧
      (q = is.length ↔ ∃ a, serialFor g upd stop is p s = .ok (a, false)) := by
  induction is with
  | nil => exact fun p s => ⟨0, le_rfl, rfl, ⟨fun _ => ⟨s, rfl⟩, fun _ => rfl⟩⟩
  | cons i is ih =>
    intro p s
    by_cases hs : stop p = true
    · refine ⟨0, Nat.zero_le _, by simp [serialReports, hs], ?_⟩
      constructor
      · intro h; simp at h
      · rintro ⟨a, h⟩
        rw [serialFor, if_pos hs] at h
        cases h
    · cases hg : g i with
      | ok r =>
        obtain ⟨q, hq, h1, h2⟩ := ih (p + 1) (upd i r s)
        refine ⟨q + 1, by simpa using hq, by simp [serialReports, hs, hg, h1], ?_⟩
        rw [serialFor, if_neg hs, hg]
        simpa [Res.bind] using h2
      | throw e =>
        refine ⟨0, Nat.zero_le _, by simp [serialReports, hs, hg], ⟨fun h => (by simp at h), ?_⟩⟩
        rintro ⟨a, h⟩
        rw [serialFor, if_neg hs, hg] at h
        cases h
      | ub =>
        refine ⟨0, Nat.zero_le _, by simp [serialReports, hs, hg], ⟨fun h => (by simp at h), ?_⟩⟩
        rintro ⟨a, h⟩
        rw [serialFor, if_neg hs, hg] at h
        cases h
      | nonfinite =>
        refine ⟨0, Nat.zero_le _, by simp [serialReports, hs, hg], ⟨fun h => (by simp at h), ?_⟩⟩
        rintro ⟨a, h⟩
        rw [serialFor, if_neg hs, hg] at h
        cases h

theorem finRange_reports (f : ℕ → ℕ × ℕ) (q : ℕ) (hq : q ≤ n) : ((List.finRange n).take q).map (fun i => f i.val) = (List.range q).map f := by
  have h : ((List.finRange n).take q).map (fun i => f i.val) = (((List.finRange n).map Fin.val).take q).map f := by
    rw [← List.map_take, List.map_map]; rfl
  rw [h, List.map_coe_finRange_eq_range, List.take_range, Nat.min_eq_left hq]

theorem stepReports_rise (q n : ℕ) : NeverBack (stepReports q n) := by
  rw [NeverBack, stepReports, List.pairwise_map]
  exact List.pairwise_lt_range.imp fun h => (by simp; omega)

theorem stepReports_within (q n : ℕ) (h : q ≤ n) : WithinTotal (stepReports q n) := by
  intro r hr
  simp only [stepReports, List.mem_map, List.mem_range] at hr
  obtain ⟨i, hi, rfl⟩ := hr
  simp; omega

theorem workRange_all : workRange n 0 n = List.finRange n := by
  rw [workRange, List.filter_eq_self]
  intro i _
  simp

/-- **C130 (serial runs).** Whatever the data and the stop requests, a serial fit reports 1 of n, 2 of n, … in order, for the locations that it completes,
and "n of n" exactly if it runs to its end; so also a prediction. -/
theorem C130_serial_runs (d' : CRSDistance) (b : BandwidthWeight) (x : Matrix (Fin n) (Fin k) ℝ) (y : Fin n → ℝ) (sS sC : Bool) (stop : ℕ → Bool) :
    (∃ q ≤ n, fitReports d' b x y stop = stepReports q n ∧ (q = n ↔ ∃ a, fitLoop d' b x y sS sC stop = .ok (a, false))) ∧
    (∃ q ≤ m, predictReports m d' b x y stop = stepReports q m ∧
      (q = m ↔ ∃ a : Matrix (Fin m) (Fin k) ℝ, predictLoop d' b x y stop = .ok (a, false))) ∧
    NeverBack (fitReports d' b x y stop) ∧ WithinTotal (fitReports d' b x y stop) := by
  have h1 : ∃ q ≤ n, fitReports d' b x y stop = stepReports q n ∧ (q = n ↔ ∃ a, fitLoop d' b x y sS sC stop = .ok (a, false)) := by
    unfold fitReports fitLoop
    obtain ⟨q, hq, h1, h2⟩ := serialReports_spec (g := fun i : Fin n => (weightVector d' b n i).bind fun w => localFit x y w (x i))
      (rep := fun i => (i.val + 1, n)) (upd := fitUpd 0 sS sC) (stop := stop) (workRange n 0 n) 0 .zero
    rw [workRange_all] at *
    rw [List.length_finRange] at hq h2
    exact ⟨q, hq, by rw [h1]; exact finRange_reports (fun i => (i + 1, n)) q hq, h2⟩
  refine ⟨h1, ?_, ?_, ?_⟩
  · unfold predictReports predictLoop
    obtain ⟨q, hq, h1, h2⟩ := serialReports_spec (g := fun i : Fin m => (weightVector d' b n i).bind fun w => localBeta x y w)
      (rep := fun i => (i.val + 1, m)) (upd := setRow) (stop := stop) (List.finRange m) 0 (0 : Matrix (Fin m) (Fin k) ℝ)
    rw [List.length_finRange] at hq h2
    exact ⟨q, hq, by rw [h1]; exact finRange_reports (fun i => (i + 1, m)) q hq, h2⟩
  · obtain ⟨q, -, h, -⟩ := h1
    rw [h]; exact stepReports_rise q n
  · obtain ⟨q, hq, h, -⟩ := h1
    rw [h]; exact stepReports_within q n hq

/-! ### Parallel loops -/

/-- The iterations that send a report, in order. -/
theorem ompReports_mem [DecidableEq ι] {T : Type*} (rep : ι → ℕ × ℕ) (stop : ℕ → Bool) (evs : List (OmpEv ι T)) :
    ∃ l : List ι, l.Sublist ((finishes evs).map Prod.snd) ∧ ompReports rep stop evs = l.map rep := by
  suffices h : ∀ s : (ℕ × (ι → Bool)) × List (ℕ × ℕ), ∃ l : List ι, l.Sublist ((finishes evs).map Prod.snd) ∧
      (evs.foldl (ompReportStep rep stop) s).2 = s.2 ++ l.map rep by
    obtain ⟨l, h1, h2⟩ := h ((0, fun _ => false), [])
    exact ⟨l, h1, by simpa [ompReports] using h2⟩
  induction evs with
  | nil => exact fun s => ⟨[], List.nil_sublist _, by simp⟩
  | cons e es ih =>
    intro s
    cases e with
    | start i =>
      obtain ⟨l, h1, h2⟩ := ih (ompReportStep rep stop s (.start i))
      exact ⟨l, h1, h2⟩
    | finish t i =>
      obtain ⟨l, h1, h2⟩ := ih (ompReportStep rep stop s (.finish t i))
      by_cases hi : s.1.2 i = true
      · refine ⟨i :: l, by simpa [finishes] using h1, ?_⟩
        rw [List.foldl_cons, h2]
        simp [ompReportStep, hi]
      · refine ⟨l, by simpa [finishes] using h1.cons i, ?_⟩
        rw [List.foldl_cons, h2]
        simp [ompReportStep, hi]

/-- Without stop requests every iteration that has started and is over has sent its report. -/
theorem ompReports_all [DecidableEq ι] {T : Type*} (rep : ι → ℕ × ℕ) (evs : List (OmpEv ι T)) :
    ∀ s : (ℕ × (ι → Bool)) × List (ℕ × ℕ),
      (∀ pre post t i, evs = pre ++ OmpEv.finish t i :: post → OmpEv.start i ∈ pre ∨ s.1.2 i = true) →
      (evs.foldl (ompReportStep rep fun _ => false) s).2 = s.2 ++ ((finishes evs).map Prod.snd).map rep := by
  induction evs with
  | nil => intro s _; simp [finishes]
  | cons e es ih =>
    intro s h
    cases e with
    | start i =>
      rw [List.foldl_cons, ih]
      · rfl
      · intro pre post t j he
        by_cases hj : j = i
        · right; subst hj; simp [ompReportStep]
        · rcases h (OmpEv.start i :: pre) post t j (by rw [he]; rfl) with h | h
          · left
            rcases List.mem_cons.1 h with h | h
            · cases h; exact absurd rfl hj
            · exact h
          · right; simpa [ompReportStep, Function.update_of_ne hj] using h
    | finish t i =>
      have hi : s.1.2 i = true := by
        rcases h [] es t i rfl with h | h
        · cases h
        · exact h
      rw [List.foldl_cons, ih]
      · simp [ompReportStep, hi, finishes]
      · intro pre post t' j he
        rcases h (OmpEv.finish t i :: pre) post t' j (by rw [he]; rfl) with h | h
        · left
          rcases List.mem_cons.1 h with h | h
          · cases h
          · exact h
        · right; exact h

/-- **C130 (multithreaded runs), partial.** For every schedule of the threads and all stop requests, every report of a multithreaded fit is one of "1 of n", …,
"n of n", and none is sent twice; without stop requests all are sent, some order of `1, …, n`. Missing from the claim: the order, see
`C130_parallel_jumps`, and that a complete count means a complete fit. -/
theorem C130_parallel_partial {T : ℕ} (stop : ℕ → Bool) (evs : List (OmpEv (Fin n) (Fin T))) (hs : Schedule (List.finRange n) evs) :
    (ompReports (fun i : Fin n => (i.val + 1, n)) stop evs).Nodup ∧
    (∀ r ∈ ompReports (fun i : Fin n => (i.val + 1, n)) stop evs, r ∈ stepReports n n) ∧
    WithinTotal (ompReports (fun i : Fin n => (i.val + 1, n)) stop evs) ∧
    ((∀ p, stop p = false) → (ompReports (fun i : Fin n => (i.val + 1, n)) stop evs).Perm (stepReports n n)) := by
  have hst : (List.finRange n).map (fun i : Fin n => (i.val + 1, n)) = stepReports n n := by
    have := finRange_reports (n := n) (fun i => (i + 1, n)) n le_rfl
    rwa [List.take_of_length_le (by simp)] at this
  obtain ⟨l, hl, he⟩ := ompReports_mem (fun i : Fin n => (i.val + 1, n)) stop evs
  have hmem : ∀ r ∈ ompReports (fun i : Fin n => (i.val + 1, n)) stop evs, r ∈ stepReports n n := by
    intro r hr
    rw [he] at hr
    obtain ⟨i, -, rfl⟩ := List.mem_map.1 hr
    rw [← hst]
    exact List.mem_map.2 ⟨i, List.mem_finRange i, rfl⟩
  refine ⟨?_, hmem, fun r hr => stepReports_within n n le_rfl r (hmem r hr), ?_⟩
  · rw [he]
    refine List.Nodup.map ?_ (hl.nodup ((hs.finishes.nodup_iff).2 (List.nodup_finRange n)))
    intro i j h
    have := congrArg Prod.fst h
    exact Fin.ext (by simpa using this)
  · intro hn
    have : stop = fun _ => false := funext hn
    subst this
    rw [ompReports, ompReports_all _ _ _ fun pre post t i h => Or.inl (hs.order pre post t i h), List.nil_append, ← hst]
    exact hs.finishes.map _

/-- **C130 (order) fails** in multithreaded runs: with any number of observations from two on there is a schedule of two threads in which "n of n" is the
first report, so the progress moves backwards. -/
theorem C130_parallel_jumps (hn : 2 ≤ n) : ∃ evs : List (OmpEv (Fin n) (Fin 2)), Schedule (List.finRange n) evs ∧
    (ompReports (fun i : Fin n => (i.val + 1, n)) (fun _ => false) evs).head? = some (n, n) ∧
    ¬ NeverBack (ompReports (fun i : Fin n => (i.val + 1, n)) (fun _ => false) evs) := by
  let is := (List.finRange n).reverse
  let evs : List (OmpEv (Fin n) (Fin 2)) := is.map OmpEv.start ++ is.map (OmpEv.finish 0)
  have e1 : ∀ l : List (Fin n), starts (l.map (OmpEv.start (T := Fin 2)) ++ l.map (OmpEv.finish 0)) = l := by
    have a : ∀ l : List (Fin n), starts (l.map (OmpEv.finish (0 : Fin 2))) = [] := by
      intro l; induction l with
      | nil => rfl
      | cons i l ih => simpa [starts] using ih
    have b : ∀ l l' : List (Fin n), starts (l.map (OmpEv.start (T := Fin 2)) ++ l'.map (OmpEv.finish 0)) = l := by
      intro l l'; induction l with
      | nil => simpa using a l'
      | cons i l ih => simpa [starts] using ih
    exact fun l => b l l
  have e2 : ∀ l : List (Fin n), (finishes (l.map (OmpEv.start (T := Fin 2)) ++ l.map (OmpEv.finish 0))).map Prod.snd = l := by
    have a : ∀ l : List (Fin n), (finishes (l.map (OmpEv.finish (0 : Fin 2)))).map Prod.snd = l := by
      intro l; induction l with
      | nil => rfl
      | cons i l ih => simpa [finishes] using ih
    have b : ∀ l l' : List (Fin n), (finishes (l.map (OmpEv.start (T := Fin 2)) ++ l'.map (OmpEv.finish 0))).map Prod.snd = l' := by
      intro l l'; induction l with
      | nil => simpa using a l'
      | cons i l ih => simpa [finishes] using ih
    exact fun l => b l l
  have hs : Schedule (List.finRange n) evs := by
    refine ⟨by rw [e1]; exact List.reverse_perm _, by rw [e2]; exact List.reverse_perm _, ?_⟩
    intro pre post t i h
    have hi : i ∈ is := by simp [is]
    by_cases hp : is.length ≤ pre.length
    · have : pre.take is.length = is.map OmpEv.start := by
        have := congrArg (List.take is.length) h
        rw [List.take_append_of_le_length hp] at this
        rw [← this]; simp [evs]
      exact List.mem_of_mem_take (this ▸ List.mem_map.2 ⟨i, hi, rfl⟩)
    · exfalso
      have := congrArg (fun l => l[pre.length]?) h
      simp only [evs] at this
      rw [List.getElem?_append_left (by simpa using hp)] at this
      simp [List.getElem?_eq_getElem (Nat.lt_of_not_le hp)] at this
  have hr : ompReports (fun i : Fin n => (i.val + 1, n)) (fun _ => false) evs = is.map fun i => (i.val + 1, n) := by
    rw [ompReports, ompReports_all _ _ _ fun pre post t i h => Or.inl (hs.order pre post t i h), List.nil_append, e2]
  have hr' : ompReports (fun i : Fin n => (i.val + 1, n)) (fun _ => false) evs = (stepReports n n).reverse := by
    rw [hr, List.map_reverse]
    congr 1
    have := finRange_reports (n := n) (fun i => (i + 1, n)) n le_rfl
    rwa [List.take_of_length_le (by simp)] at this
  obtain ⟨q, rfl⟩ : ∃ q, n = q + 2 := ⟨n - 2, by omega⟩
  refine ⟨evs, hs, ?_, ?_⟩
  · rw [hr', stepReports, List.range_succ]
    simp
  · rw [hr', stepReports, List.range_succ, List.range_succ, NeverBack]
    simp

/-- **C130 (completeness) fails** in multithreaded runs: a fit that throws because the regression at some location has no solution nevertheless reports all of
"1 of n", …, "n of n", under every schedule. -/
theorem C130_parallel_failed {T : ℕ} (x : Matrix (Fin n) (Fin k) ℝ) (y : Fin n → ℝ) (W : Fin n → Fin n → ℝ) (hW : ∀ i l, 0 ≤ W i l) (sS sC : Bool)
    (evs : List (OmpEv (Fin n) (Fin T))) (hs : Schedule (List.finRange n) evs) (i : Fin n) (hi : ¬ Determined x (W i)) :
    fitCoreOmp x y W 0 sS sC (fun _ => false) evs = .throw .runtime ∧
    (ompReports (fun i : Fin n => (i.val + 1, n)) (fun _ => false) evs).Perm (stepReports n n) := by
  refine ⟨?_, (C130_parallel_partial (fun _ => false) evs hs).2.2.2 fun _ => rfl⟩
  have h := omp_fail (g := fun i => localFit x y (W i) (x i)) (upd := fitUpdOmp 0 sS sC) (fun _ => rfl) (FitAccOmp.zero (T := T)) (List.nodup_finRange n) hs i
    (List.mem_finRange i) fun r hr => hi ((gram_posDef_iff_determined _ _ (hW i)).1 (localFit_eq_ok.1 hr).1)
  rw [fitCoreOmp]
  simp only [h, Bool.false_eq_true, if_false]

/-- Two observations and a variable that is zero: no local regression has a solution, and the schedule of `C130_parallel_jumps` reports 2 of 2, then 1 of 2. -/
example : ∃ evs : List (OmpEv (Fin 2) (Fin 2)), fitCoreOmp (0 : Matrix (Fin 2) (Fin 1) ℝ) ![1, 2] (fun _ _ => 1) 0 false false (fun _ => false) evs = .throw .runtime ∧
    (ompReports (fun i : Fin 2 => (i.val + 1, 2)) (fun _ => false) evs).head? = some (2, 2) := by
  obtain ⟨evs, h1, h2, -⟩ := C130_parallel_jumps (n := 2) le_rfl
  refine ⟨evs, (C130_parallel_failed 0 ![1, 2] (fun _ _ => 1) (fun _ _ => zero_le_one) false false evs h1 0 fun h => ?_).1, h2⟩
  have := congrFun (h (fun _ => 1) fun l _ => by simp) 0
  exact one_ne_zero this

/-! ### GPU and scalable regression -/

theorem serial_ends_iff {g : ι → Res ρ} {upd : ι → ρ → σ → σ} {stop : ℕ → Bool} (is : List ι) : ∀ (p : ℕ) (s : σ),
    (∃ a, serialFor g upd stop is p s = .ok (a, false)) ↔ ∀ j, ∀ h : j < is.length, stop (p + j) = false ∧ ∃ r, g is[j] = .ok r := by
  induction is with
  | nil => exact fun p s => ⟨fun _ j h => absurd h (Nat.not_lt_zero j), fun _ => ⟨s, rfl⟩⟩
  | cons i is ih =>
    intro p s
    rw [serialFor]
    constructor
    · rintro ⟨a, h⟩
      by_cases hs : stop p = true
      · rw [if_pos hs] at h; cases h
      · rw [if_neg hs] at h
        obtain ⟨r, hr, h⟩ := Res.bind_eq_ok'.1 h
        have := (ih (p + 1) _).1 ⟨a, h⟩
        intro j hj
        cases j with
        | zero => exact ⟨by simpa using hs, r, hr⟩
        | succ j =>
          have := this j (by simpa using hj)
          rwa [show p + (j + 1) = p + 1 + j by omega]
    · intro h
      obtain ⟨hs, r, hr⟩ := h 0 (by simp)
      have hr' : g i = .ok r := hr
      rw [if_neg (by simpa using hs), hr', Res.bind]
      refine (ih (p + 1) _).2 fun j hj => ?_
      have := h (j + 1) (by simpa using hj)
      rwa [show p + (j + 1) = p + 1 + j by omega] at this

theorem groups_cover {G : ℕ} (hG : 0 < G) : n ≤ cudaGroups 0 n G * G := by
  unfold cudaGroups
  have h := Nat.div_add_mod n G
  have hm := Nat.mod_lt n hG
  have h4 : n / G * G = G * (n / G) := Nat.mul_comm _ _
  simp only [Nat.sub_zero]
  split
  · rw [Nat.add_zero]; omega
  · rw [Nat.add_mul, Nat.one_mul]; omega

/-- **C130 (GPU).** With groups of `G > 0` observations, whichever group fails or meets a stop request, the counts reported strictly increase, none exceeds `n`, and
`n` of `n` is the last one exactly if all groups were done. -/
theorem C130_gpu {G : ℕ} (hG : 0 < G) (hn : 0 < n) (ok stop : ℕ → Bool) :
    (gpuReports n G ok stop).Pairwise (fun a b => a.1 < b.1) ∧ WithinTotal (gpuReports n G ok stop) ∧
    ((n, n) ∈ gpuReports n G ok stop ↔ ∀ i < cudaGroups 0 n G, ok i = true ∧ stop i = false) := by
  obtain ⟨q, hq, h1, h2⟩ := serialReports_spec (g := fun i => if ok i = true then Res.ok () else .throw .runtime)
    (rep := fun i => (groupBegin 0 G i + groupLength n G (groupBegin 0 G i), n)) (upd := fun _ _ (s : Unit) => s) (stop := stop)
    (List.range (cudaGroups 0 n G)) 0 ()
  rw [serial_ends_iff] at h2
  rw [List.length_range] at hq
  have hall : (∀ j, ∀ h : j < (List.range (cudaGroups 0 n G)).length, stop (0 + j) = false ∧
      ∃ r, (if ok (List.range (cudaGroups 0 n G))[j] = true then Res.ok () else .throw .runtime) = .ok r) ↔
      ∀ i < cudaGroups 0 n G, ok i = true ∧ stop i = false := by
    constructor
    · intro h i hi
      obtain ⟨a, r, b⟩ := h i (by simpa using hi)
      rw [List.getElem_range] at b
      by_cases ho : ok i = true
      · exact ⟨ho, by simpa using a⟩
      · rw [if_neg ho] at b; cases b
    · intro h j hj
      rw [List.length_range] at hj
      rw [List.getElem_range, if_pos (h j hj).1]
      exact ⟨by simpa using (h j hj).2, (), rfl⟩
  rw [hall, List.length_range] at h2
  rw [List.take_range, Nat.min_eq_left hq] at h1
  have hval : ∀ i < cudaGroups 0 n G, groupBegin 0 G i + groupLength n G (groupBegin 0 G i) = min ((i + 1) * G) n := by
    intro i hi
    have := (group_bounds hG hi).2.2.2
    simpa [groupBegin] using this
  have hlt : ∀ i < cudaGroups 0 n G, i * G < n := by
    intro i hi
    have := (group_bounds hG hi).1
    simpa [groupBegin] using this
  have e : gpuReports n G ok stop = (List.range q).map fun i => (min ((i + 1) * G) n, n) := by
    rw [gpuReports, h1]
    refine List.map_congr_left fun i hi => ?_
    rw [hval i ((List.mem_range.1 hi).trans_le hq)]
  rw [e]
  refine ⟨?_, ?_, ?_⟩
  · rw [List.pairwise_map]
    refine List.pairwise_lt_range.imp_of_mem ?_
    intro a b _ hb hab
    have hb' := hlt b ((List.mem_range.1 hb).trans_le hq)
    have h3 : (a + 1) * G ≤ b * G := Nat.mul_le_mul_right G hab
    have h4 : (b + 1) * G = b * G + G := by ring
    simp only [lt_min_iff, min_lt_iff]
    exact ⟨Or.inl (by omega), Or.inl (by omega)⟩
  · intro r hr
    obtain ⟨i, -, rfl⟩ := List.mem_map.1 hr
    exact min_le_right _ _
  · rw [← h2]
    obtain ⟨t, ht, htn⟩ := group_of hG (⟨n - 1, by omega⟩ : Fin n)
    rw [List.mem_range] at ht
    constructor
    · intro hm
      obtain ⟨i, hi, he⟩ := List.mem_map.1 hm
      rw [List.mem_range] at hi
      by_contra hne
      have h3 := hlt (i + 1) (by omega)
      have h4 : min ((i + 1) * G) n = n := congrArg Prod.fst he
      rw [Nat.min_eq_left h3.le] at h4
      omega
    · intro hqe
      have hpos : 0 < cudaGroups 0 n G := by omega
      refine List.mem_map.2 ⟨q - 1, List.mem_range.2 (by omega), ?_⟩
      have : n ≤ cudaGroups 0 n G * G := groups_cover hG
      rw [Nat.sub_add_cancel (by omega), hqe, Nat.min_eq_right this]

/-- **C130 (scalable regression).** Whatever fails and wherever a stop is requested in its two loops, the fit reports counts that never decrease nor exceed `n`; "n of n" is
reported exactly if the second loop ran to its end. -/
theorem C130_scalable (hn : 0 < n) (g : Fin n → Res ρ) (upd : Fin n → ρ → σ → σ) (s : σ) (stop1 stop2 : ℕ → Bool) :
    NeverBack (scaReports g stop1 stop2) ∧ WithinTotal (scaReports g stop1 stop2) ∧
    ((n, n) ∈ scaReports g stop1 stop2 ↔ ∃ a, serialFor g upd stop2 (List.finRange n) 0 s = .ok (a, false)) := by
  obtain ⟨q1, hq1, h1, -⟩ := serialReports_spec (g := fun _ : Fin n => Res.ok ()) (rep := fun i => ((i.val + 1) / 2, n))
    (upd := fun _ _ (s : Unit) => s) (stop := stop1) (List.finRange n) 0 ()
  obtain ⟨q2, hq2, h2, h3⟩ := serialReports_spec (g := g) (rep := fun i => ((n + i.val + 1) / 2, n)) (upd := upd) (stop := stop2) (List.finRange n) 0 s
  rw [List.length_finRange] at hq1 hq2 h3
  have e : scaReports g stop1 stop2 = ((List.range q1).map fun i => ((i + 1) / 2, n)) ++ (List.range q2).map fun i => ((n + i + 1) / 2, n) := by
    rw [scaReports, h1, h2, finRange_reports (fun i => ((i + 1) / 2, n)) q1 hq1, finRange_reports (fun i => ((n + i + 1) / 2, n)) q2 hq2]
  rw [e]
  refine ⟨?_, ?_, ?_⟩
  · rw [NeverBack, List.pairwise_append, List.pairwise_map, List.pairwise_map]
    refine ⟨List.pairwise_lt_range.imp fun h => ?_, List.pairwise_lt_range.imp fun h => ?_, ?_⟩
    · dsimp only; omega
    · dsimp only; omega
    · intro a ha b hb
      obtain ⟨i, hi, rfl⟩ := List.mem_map.1 ha
      obtain ⟨j, hj, rfl⟩ := List.mem_map.1 hb
      rw [List.mem_range] at hi hj
      dsimp only; omega
  · intro r hr
    rcases List.mem_append.1 hr with hr | hr <;> obtain ⟨i, hi, rfl⟩ := List.mem_map.1 hr <;> rw [List.mem_range] at hi <;> dsimp only <;> omega
  · rw [← h3]
    constructor
    · intro hm
      rcases List.mem_append.1 hm with hr | hr <;> obtain ⟨i, hi, he⟩ := List.mem_map.1 hr <;> rw [List.mem_range] at hi <;>
        have := congrArg Prod.fst he <;> dsimp only at this <;> omega
    · intro hq
      refine List.mem_append_right _ (List.mem_map.2 ⟨n - 1, List.mem_range.2 (by omega), ?_⟩)
      rw [show (n + (n - 1) + 1) / 2 = n by omega]

/-! ### Selection of variables -/

theorem stageLoop_length (o : VOracle) (vars cur : List ℕ) (rs : List ℕ) : ∀ (cs : List ℝ) (ms : List FModel),
    (stageLoop o vars cur rs cs ms).2.1.length ≤ ms.length + rs.length := by
  induction rs with
  | nil => intro cs ms; simp [stageLoop]
  | cons r rs ih =>
    intro cs ms
    rw [stageLoop]
    by_cases h : (o ms.length (convertIndex vars (cur ++ [r]))).1 = true
    · rw [if_pos h]
      refine (ih _ _).trans ?_
      simp; omega
    · rw [if_neg h]
      simp

theorem stages_length (o : VOracle) (vars : List ℕ) (j : ℕ) : ∀ (s s' : FS), stages o vars j s = .ok s' →
    2 * s'.models.length ≤ 2 * s.models.length + s.rest.length * (s.rest.length + 1) := by
  induction j with
  | zero => intro s s' h; cases h; omega
  | succ j ih =>
    intro s s' h
    rw [stages] at h
    by_cases hst : s.status = true
    · rw [if_pos hst] at h
      obtain ⟨t, ht, h⟩ := Res.bind_eq_ok'.1 h
      have h2 := ih t s' h
      rw [stage] at ht
      have hl := stageLoop_length o vars s.cur s.rest [] s.models
      generalize indexMin _ = ib at ht
      cases hv : s.rest[ib]? with
      | none => rw [hv] at ht; cases ht
      | some v =>
        rw [hv] at ht
        cases ht
        simp only at h2
        have hib := (List.getElem?_eq_some_iff.1 hv).1
        rw [List.length_eraseIdx_of_lt hib] at h2
        obtain ⟨c, hc⟩ : ∃ c, s.rest.length = c + 1 := ⟨s.rest.length - 1, by omega⟩
        rw [hc] at h2 hl ⊢
        simp only [Nat.add_sub_cancel] at h2
        nlinarith
    · rw [if_neg hst] at h
      cases h
      omega

/-- **C130 (selection of variables).** With `k` candidates the reports of a selection are 1, 2, … of `k(k+1)/2` in order, never more than that whichever evaluations succeed; all
of them are sent if every evaluation succeeds. -/
theorem C130_selection (srt : List FModel → List FModel) (vars : List ℕ) (thr : ℝ) (o : VOracle) (r : FResult) (hr : forwardOptimize srt vars thr o = .ok r)
    (ran : FModel → Bool) :
    (∃ q ≤ vars.length * (vars.length + 1) / 2, selectionReports vars r.evals ran = stepReports q (vars.length * (vars.length + 1) / 2)) ∧
    ((∀ i, ∀ h : i < r.evals.length, (o i (names vars r.evals[i].1)).1 = true ∧ ran r.evals[i] = true) →
      selectionReports vars r.evals ran = stepReports (vars.length * (vars.length + 1) / 2) (vars.length * (vars.length + 1) / 2)) := by
  have hle : r.evals.length ≤ vars.length * (vars.length + 1) / 2 := by
    rw [forwardOptimize] at hr
    obtain ⟨s, hs, hr⟩ := Res.bind_eq_ok'.1 hr
    have hl := stages_length o vars _ _ _ hs
    have he : r.evals = s.models := by
      by_cases hst : s.status = true
      · rw [if_pos hst] at hr
        obtain ⟨sorted, -, hr⟩ := Res.bind_eq_ok'.1 hr
        cases hr; rfl
      · rw [if_neg hst] at hr
        cases hr; rfl
    rw [he, Nat.le_div_iff_mul_le two_pos]
    simpa [mul_comm] using hl
  have hT : (vars.length + 1) * vars.length / 2 = vars.length * (vars.length + 1) / 2 := by rw [mul_comm]
  refine ⟨⟨(r.evals.filter ran).length, (List.length_filter_le _ _).trans hle, by rw [selectionReports, hT]; rfl⟩, fun h => ?_⟩
  have hf : r.evals.filter ran = r.evals := by
    rw [List.filter_eq_self]
    intro m hm
    obtain ⟨i, hi, rfl⟩ := List.getElem_of_mem hm
    exact (h i hi).2
  rw [selectionReports, hT, hf, (C19_greedy_search srt vars thr o r hr fun i hi => (h i hi).1).2.2.1]
  rfl

/-! ### Percentages -/

/-- **C130 (percentages of a bandwidth search).** Whatever values the criterion takes, all percentages reported lie between 0 and 1; 1 is reported exactly when the criterion
did not change (in GWDR: fell by just the tolerance). -/
theorem C130_search_percent (eps last : ℝ) (vs : List ℝ) :
    (∀ p ∈ searchPercents last vs, IsFraction p) ∧ (∀ p ∈ gwdrPercents eps last vs, IsFraction p) ∧
    (∀ v, v ≠ dblMax → (searchPercents last [v] = [1] ↔ v = last) ∧ (gwdrPercents eps last [v] = [1] ↔ last - v = eps)) := by
  have hf : ∀ a : ℝ, IsFraction (Real.exp (-|a|)) := fun a => ⟨(Real.exp_pos _).le, Real.exp_le_one_iff.2 (by simp)⟩
  refine ⟨?_, ?_, ?_⟩
  · induction vs generalizing last with
    | nil => intro p hp; cases hp
    | cons v vs ih =>
      intro p hp
      rw [searchPercents] at hp
      by_cases hv : v = dblMax
      · rw [if_pos hv] at hp; exact ih _ p hp
      · rw [if_neg hv] at hp
        rcases List.mem_cons.1 hp with rfl | hp
        · exact hf _
        · exact ih _ p hp
  · induction vs generalizing last with
    | nil => intro p hp; cases hp
    | cons v vs ih =>
      intro p hp
      rw [gwdrPercents] at hp
      by_cases hv : v = dblMax
      · rw [if_pos hv] at hp; exact ih _ p hp
      · rw [if_neg hv] at hp
        rcases List.mem_cons.1 hp with rfl | hp
        · exact hf _
        · exact ih _ p hp
  · intro v hv
    simp only [searchPercents, gwdrPercents, if_neg hv, List.cons.injEq, and_true, Real.exp_eq_one_iff, neg_eq_zero, abs_eq_zero, sub_eq_zero]
    exact ⟨Eq.symm, Eq.symm⟩

/-- **C130 (what the percentages measure).** Every evaluation that did not fail is reported, and nothing else; report `j` compares evaluation `j` with the one before it
that did not fail (the first one with the value left from the run before). -/
theorem C130_percent_successive (eps last : ℝ) (vs : List ℝ) :
    let us := last :: vs.filter fun v => v ≠ dblMax
    ((searchPercents last vs).length + 1 = us.length ∧
      ∀ (j : ℕ) (p : ℝ), (searchPercents last vs)[j]? = some p → ∃ a b, us[j]? = some a ∧ us[j + 1]? = some b ∧ p = Real.exp (-|a - b|)) ∧
    ((gwdrPercents eps last vs).length + 1 = us.length ∧
      ∀ (j : ℕ) (p : ℝ), (gwdrPercents eps last vs)[j]? = some p → ∃ a b, us[j]? = some a ∧ us[j + 1]? = some b ∧ p = Real.exp (-|a - b - eps|)) := by
  dsimp only
  induction vs generalizing last with
  | nil => exact ⟨⟨rfl, fun j p h => by simp [searchPercents] at h⟩, ⟨rfl, fun j p h => by simp [gwdrPercents] at h⟩⟩
  | cons v vs ih =>
    by_cases hv : v = dblMax
    · have e : (v :: vs).filter (fun v => decide (v ≠ dblMax)) = vs.filter fun v => v ≠ dblMax := by simp [hv]
      rw [e, searchPercents, gwdrPercents, if_pos hv, if_pos hv]
      exact ih last
    · have e : (v :: vs).filter (fun v => decide (v ≠ dblMax)) = v :: vs.filter fun v => v ≠ dblMax := by simp [hv]
      rw [e, searchPercents, gwdrPercents, if_neg hv, if_neg hv]
      obtain ⟨⟨h1, h2⟩, h3, h4⟩ := ih v
      refine ⟨⟨by rw [List.length_cons, List.length_cons, h1], fun j p h => ?_⟩, by rw [List.length_cons, List.length_cons, h3], fun j p h => ?_⟩
      · cases j with
        | zero => exact ⟨last, v, rfl, rfl, by simpa using h.symm⟩
        | succ j => simpa using h2 j p (by simpa using h)
      · cases j with
        | zero => exact ⟨last, v, rfl, rfl, by simpa using h.symm⟩
        | succ j => simpa using h4 j p (by simpa using h)

/-- **C130 (order of the percentages) fails:** for every change `c` of the criterion there is a search that reports 100 % first and `exp (-|c|)` next. -/
theorem C130_percent_back (v c : ℝ) (hv : v ≠ dblMax) (hc : v + c ≠ dblMax) : searchPercents v [v, v + c] = [1, Real.exp (-|c|)] := by
  simp [searchPercents, hv, hc]

theorem wtPercents_spec (F : Family) (tol : ℝ) (x : Matrix (Fin n) (Fin k) ℝ) (y : Fin n → ℝ) (W : Fin n → Fin n → ℝ) (fuel : ℕ) :
    ∀ (s : WtState n k) (r : WtState n k × Bool), wtLoop F tol x y W fuel s = .ok r →
      (r.2 = true → ∃ p, wtPercents F tol x y W fuel s = [p] ∧ 1 < p ∧ ¬ IsFraction p) ∧ (r.2 = false → wtPercents F tol x y W fuel s = []) := by
  induction fuel with
  | zero => intro s r h; cases h; exact ⟨fun h => (by cases h), fun _ => rfl⟩
  | succ fuel ih =>
    intro s r h
    rw [wtLoop] at h
    obtain ⟨s', hs, h⟩ := Res.bind_eq_ok'.1 h
    rw [wtPercents, hs]
    dsimp only
    by_cases hc : wtConverged tol s.llik s'.llik
    · rw [if_pos hc] at h
      cases h
      rw [if_pos hc]
      have h1 : 1 < Real.exp (-(|(s.llik - s'.llik) / s'.llik| - tol)) := Real.one_lt_exp_iff.2 (by have := hc.2; linarith)
      exact ⟨fun _ => ⟨_, rfl, h1, fun hf => absurd hf.2 (not_le.2 h1)⟩, fun h => (by cases h)⟩
    · rw [if_neg hc] at h ⊢
      exact ih _ r h

/-- **C130 (calibration) fails:** the calibration of a generalised regression reports a percentage only when it converges, and that is always above 100 %, whatever the family,
the tolerance, the data and the spatial weights. -/
theorem C130_calibration_over_one (F : Family) (tol : ℝ) (maxIter : ℕ) (x : Matrix (Fin n) (Fin k) ℝ) (y : Fin n → ℝ) (W : Fin n → Fin n → ℝ)
    (s : WtState n k) (conv : Bool) (h : wtCalc F tol maxIter x y W = .ok (s, conv)) :
    (conv = true → ∃ p, calibrationPercents F tol maxIter x y W = [p] ∧ 1 < p ∧ ¬ IsFraction p) ∧
    (conv = false → calibrationPercents F tol maxIter x y W = []) := by
  rw [wtCalc] at h
  obtain ⟨nu, hnu, h⟩ := Res.bind_eq_ok'.1 h
  rw [calibrationPercents, hnu]
  exact wtPercents_spec F tol x y W maxIter _ (s, conv) h

/-- Non-vacuity: an intercept, counts all zero, all spatial weights 1, tolerance 2: the first iteration converges. -/
theorem calibration_progress_case : ∃ s, wtCalc .Poisson 2 1 (ones 3) (fun _ => 0) (fun _ _ => 1) = .ok (s, true) := by
  have hy : Accepts (n := 3) .Poisson fun _ => 0 := fun _ => le_rfl
  have hW : ∀ i l : Fin 3, (0 : ℝ) ≤ (fun _ _ => 1 : Fin 3 → Fin 3 → ℝ) i l := fun _ _ => zero_le_one
  obtain ⟨⟨nu, hnu⟩, hm⟩ := loc_start hy
  obtain ⟨s', hs⟩ := wtStep_total (x := ones 3) (W := fun _ _ => 1) hy hW (fun i => ones_det (hW i) ⟨0, one_pos⟩)
    ⟨nu, locMu0 .Poisson fun _ => 0, fun _ => 1, 0, 0, 0⟩ hm fun _ => one_pos
  obtain ⟨-, -, -, -, e5, e6⟩ := wtStep_ok hs
  have hl : s'.llik < 0 := by
    change ((Res.tabulate 3 fun i => dpois 0 (s'.mu i)).bind fun t => Res.ok (∑ i, t i)) = .ok s'.llik at e6
    rw [tab_ok (fun i => -s'.mu i) fun i => by
      rw [e5]
      change dpois 0 (Real.exp (s'.nu i)) = .ok (-Real.exp (s'.nu i))
      unfold dpois
      rw [flog_pos (Real.exp_pos _)]
      obtain ⟨v, hv⟩ := lgam_pos (t := 0 + 1) (by norm_num)
      simp [Res.bind]] at e6
    have := Res.ok.inj e6
    rw [← this, Finset.sum_neg_distrib, neg_lt_zero]
    exact Finset.sum_pos (fun i _ => by rw [e5]; exact Real.exp_pos _) Finset.univ_nonempty
  refine ⟨s', ?_⟩
  rw [wtCalc, hnu, Res.bind, wtLoop, hs, Res.bind, if_pos]
  refine ⟨hl.ne, ?_⟩
  simp only [zero_sub, neg_div, div_self hl.ne, abs_neg, abs_one]
  norm_num

example : ∃ p, calibrationPercents .Poisson 2 1 (ones 3) (fun _ => 0) (fun _ _ => 1) = [p] ∧ ¬ IsFraction p := by
  obtain ⟨s, hs⟩ := calibration_progress_case
  obtain ⟨p, h1, -, h2⟩ := (C130_calibration_over_one .Poisson 2 1 _ _ _ s true hs).1 rfl
  exact ⟨p, h1, h2⟩

theorem simplex_percent_iff (size : ℝ) : 1 < Real.exp (-(size - 1e-6)) ↔ size < 1e-6 := by
  rw [Real.one_lt_exp_iff]
  constructor <;> intro h <;> linarith

/-- **C130 (scalable search) fails:** a percentage above 100 % is reported in the search of the parameters of the scalable regression exactly if a step within the limit of steps
meets the test of convergence, and it is then the last one reported. -/
theorem C130_simplex_over_one (fuel : ℕ) (sizes : List ℝ) :
    ((∃ p ∈ simplexPercents fuel sizes, 1 < p) ↔ ∃ size ∈ sizes.take (fuel + 1), size < 1e-6) ∧
    (∀ l p l', simplexPercents fuel sizes = l ++ p :: l' → 1 < p → l' = []) := by
  induction fuel generalizing sizes with
  | zero =>
    cases sizes with
    | nil => simp [simplexPercents]
    | cons a t =>
      refine ⟨by simp only [simplexPercents, List.mem_singleton, exists_eq_left, simplex_percent_iff, zero_add, List.take_succ_cons, List.take_zero], ?_⟩
      intro l p l' h _
      rw [simplexPercents] at h
      have := congrArg List.length h
      simp only [List.length_cons, List.length_nil, List.length_append] at this
      exact List.eq_nil_of_length_eq_zero (by omega)
  | succ fuel ih =>
    cases sizes with
    | nil => simp [simplexPercents]
    | cons a t =>
      rw [simplexPercents, List.take_succ_cons]
      by_cases ha : a < 1e-6
      · rw [if_pos ha]
        refine ⟨⟨fun _ => ⟨a, by simp, ha⟩, fun _ => ⟨_, by simp, (simplex_percent_iff a).2 ha⟩⟩, ?_⟩
        intro l p l' h _
        have := congrArg List.length h
        simp only [List.length_cons, List.length_nil, List.length_append] at this
        exact List.eq_nil_of_length_eq_zero (by omega)
      · rw [if_neg ha]
        obtain ⟨i1, i2⟩ := ih t
        refine ⟨?_, ?_⟩
        · simp only [List.mem_cons, exists_eq_or_imp, simplex_percent_iff, ha, false_or]
          exact i1
        · intro l p l' h hp
          cases l with
          | nil =>
            simp only [List.nil_append, List.cons.injEq] at h
            rw [← h.1, simplex_percent_iff] at hp
            exact absurd hp ha
          | cons b l =>
            simp only [List.cons_append, List.cons.injEq] at h
            exact i2 l p l' h.2 hp

/-- Three steps: the last is below the threshold and is reported as more than 100 %. -/
example : ∃ p ∈ simplexPercents 10 [1, 1e-3, 1e-7], 1 < p :=
  (C130_simplex_over_one 10 _).1.2 ⟨1e-7, by simp, by norm_num⟩

/-- A serial loop over four locations that is asked to stop when it polls for the third: 1 of 4, 2 of 4. -/
example : serialReports (fun _ : Fin 4 => Res.ok ()) (fun i => (i.val + 1, 4)) (fun p => p == 2) (List.finRange 4) 0 = stepReports 2 4 := by decide

/-- Two candidates, all evaluations successful: 1, 2, 3 of 3. -/
example (srt : List FModel → List FModel) : ∃ r, forwardOptimize srt [1, 2] 3 (fun _ _ => (true, 0)) = .ok r ∧
    selectionReports [1, 2] r.evals (fun _ => true) = [(1, 3), (2, 3), (3, 3)] := by
  obtain ⟨r, hr, -⟩ := C19_failure_returns_candidates srt [1, 2] 3 fun _ _ => (true, 0)
  exact ⟨r, hr, (C130_selection srt [1, 2] 3 _ r hr fun _ => true).2 fun _ _ => ⟨rfl, rfl⟩⟩

/-- Five observations in groups of two on the GPU: 2, 4, 5 of 5. -/
example : gpuReports 5 2 (fun _ => true) (fun _ => false) = [(2, 5), (4, 5), (5, 5)] := by decide

/-- Three observations in the scalable regression: 0, 1, 1, 2, 2, 3 of 3. -/
example : scaReports (n := 3) (fun _ => Res.ok ()) (fun _ => false) (fun _ => false) = [(0, 3), (1, 3), (1, 3), (2, 3), (2, 3), (3, 3)] := by decide

end Verif.Props

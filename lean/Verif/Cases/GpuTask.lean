import Verif.Props.TaskHeap
import Verif.Cases.Kernel

/-! # Concrete cases for the theorems of `Props/GpuTask` and `Props/TaskHeap` -/

namespace Verif.Cases
open Verif Verif.Model Verif.Spec Verif.Props Matrix Classical

/-- The places (0, 0), (1, 0), … -/
noncomputable def rowOf (N : ℕ) : Matrix (Fin N) (Fin 2) ℝ := fun i => ![((i : ℕ) : ℝ), 0]

theorem rowOf_dist (N : ℕ) : IsMapDistance (m := N) (n := N) false (dynOf (rowOf N)) (dynOf (rowOf N)) (Props.lineDist N) := by
  intro i l
  simp only [dynOf, i.isLt, l.isLt, plane, Props.lineDist, rowOf]
  simp [Real.sqrt_sq_eq_abs]

/-- `N` observations in a row with an intercept, boxcar kernel of radius 3/2, not to search anything. -/
noncomputable def rowTask (N m : ℕ) (y : Fin N → ℝ) (l : Matrix (Fin m) (Fin 2) ℝ) : Task N 1 m :=
  ⟨⟨ones N, y, rowOf N, l, some (.crs false), some (3 / 2), some false, some .Boxcar, false, .CV, false, 3⟩,
    ⟨⟨0, 0, fun _ _ => 0⟩, none, zeroDiagnostic, 0, [], []⟩⟩

/-- What was entered, in a session whose second call fails. -/
noncomputable def shortSession : List TaskOp := [.setX 1 0 5, .setY 7 1, .setY 0 2, .setX 1 0 6, .setBandwidthSize 3, .setBandwidthKernel 2,
  .enableBandwidthOptimization 1, .enableVariablesOptimization 4, .setTheta 1]

noncomputable def shortTask : Task 2 1 0 :=
  { (Task.create (ones 2) (fun _ => 0) (fun _ => ![0, 0]) (fun i => i.elim0) 1 : Task 2 1 0) with
    set := ⟨setEntry (setEntry (ones 2) 1 0 5) 1 0 6, Function.update (fun _ => 0) 0 2, fun _ => ![0, 0], fun i => i.elim0, some (.minkwoski false 2 1), some 3, none,
      some .Bisquare, true, .CV, true, 4⟩ }

theorem shortTask_ok : taskCalls (.create (ones 2) (fun _ => 0) (fun _ => ![0, 0]) (fun i => i.elim0) 1) shortSession = .ok shortTask := rfl

example := C128_data_entry _ _ _ shortTask_ok
example := C128_asked_for _ _ _ _ _ _ _ shortTask_ok
example : shortTask.set.x 1 0 = 6 := by
  have := (C128_data_entry _ _ _ shortTask_ok).1 1 0
  rw [this]
  simp [lastGiven, shortSession, givesX, List.filterMap_cons]
example (e : TaskEnv) := (C128_missing_settings _ _ _ _ _ _ _ shortTask_ok e true).1 (.inr (.inl (by simp [lastGiven, shortSession, givesAdaptive, List.filterMap_cons])))
example := C128_minkowski_settings_ignored _ _ _ shortTask_ok
example (t : Task 3 2 5) := C128_location_throws t 1 2.5 7 (by norm_num) (by norm_num)

theorem uword0 : toUword 0 = .ok 0 := by simp [toUword]
theorem uword1 : toUword 1 = .ok 1 := by
  simp only [toUword]; rw [if_pos (by norm_num)]; norm_num

theorem place_one : taskCalls (.create (ones 2) (fun _ => 0) (fun _ => ![0, 0]) (fun i => i.elim0) 0 : Task 2 1 0) [.setY 1 2, .setCoords 1 1 4] =
    .ok ⟨⟨ones 2, Function.update (fun _ => 0) 1 2, setEntry (fun _ => ![0, 0]) 1 1 4, fun i => i.elim0, some (.crs false), none, none, none, false, .CV, false, 3⟩,
      ⟨⟨0, 0, fun _ _ => 0⟩, none, zeroDiagnostic, 0, [], []⟩⟩ := by
  simp only [taskCalls, taskStep, writePoint, uword1, Res.bind]
  rfl

example := C128_location_not_stored _ _ _ place_one 1 rfl 1 4 (by simp [givesPoint, List.filterMap_cons])

theorem place_two : taskCalls (.create (ones 2) (fun _ => 0) (fun _ => ![0, 0]) (fun i => i.elim0) 0 : Task 2 1 0) [.setCoords 1 0 7, .setCoords 1 1 4] =
    .ok ⟨⟨ones 2, fun _ => 0, setEntry (setEntry (fun _ => ![0, 0]) 1 0 7) 1 1 4, fun i => i.elim0, some (.crs false), none, none, none, false, .CV, false, 3⟩,
      ⟨⟨0, 0, fun _ _ => 0⟩, none, zeroDiagnostic, 0, [], []⟩⟩ := by
  simp only [taskCalls, taskStep, writePoint, uword0, uword1, Res.bind]
  rfl

example := C128_location_two_calls _ _ _ place_two 1 7 4 (by simp [givesPoint, List.filterMap_cons])

/-! ## Fits -/

example (y : Fin 64 → ℝ) (e : TaskEnv) := (C128_fit_partial (rowTask 64 64 y (rowOf 64)) le_rfl false (Or.inl rfl) (3 / 2) false .Boxcar rfl rfl rfl rfl rfl _ _
  (rowOf_dist 64) (usable_fixed (by norm_num) _ _) (lineDist_device 64) (lineDist_weight 64) e true).1
  fun i => ones_det (fun l => by split <;> norm_num) ⟨i, by simp [Props.lineDist]⟩

theorem small_fit (y : Fin 5 → ℝ) (e : TaskEnv) : taskStep (rowTask 5 5 y (rowOf 5)) (.fit e true) = .ok (rowTask 5 5 y (rowOf 5), .ret false) :=
  C128_small_data _ (by norm_num) (by norm_num) (by norm_num) false (Or.inl rfl) (3 / 2) false .Boxcar rfl rfl rfl rfl rfl _ (rowOf_dist 5)
    (usable_fixed (by norm_num) _ _) (lineDist_device 5) e true

example (y : Fin 5 → ℝ) (e : TaskEnv) := C128_small_data (rowTask 5 5 y (rowOf 5)) (by norm_num) (by norm_num) (by norm_num) false (Or.inl rfl) (3 / 2) false .Boxcar
  rfl rfl rfl rfl rfl _ (rowOf_dist 5) (usable_fixed (by norm_num) _ _) (lineDist_device 5) e true
example (y : Fin 5 → ℝ) (e : TaskEnv) := C128_failed_call_changes_nothing _ _ _ _ (small_fit y e) (by simp)
example (y : Fin 5 → ℝ) := (C128_predict_elsewhere (rowTask 5 3 y (rowOf 3)) (Or.inl rfl) _ _ _ rfl rfl rfl (by norm_num) true).1 (by norm_num)
example (y : Fin 5 → ℝ) := (C128_predict_elsewhere (rowTask 5 7 y (rowOf 7)) (Or.inl rfl) _ _ _ rfl rfl rfl (by norm_num) true).2 (by norm_num)

/-- `C128_runs_independent`: two new tasks with the same data, on one of which another kernel was chosen first. -/
example (y : Fin 64 → ℝ) (e : TaskEnv) : ∃ (t t' r : Task 64 1 64), t.set = t'.set ∧ taskStep t (.fit e true) = .ok (r, .ret true) ∧
    taskStep t' (.fit e true) = .ok (r, .ret true) := by
  have h1 : taskCalls (.create (ones 64) y (rowOf 64) (rowOf 64) 0) exKernel = .ok (rowTask 64 64 y (rowOf 64)) := rfl
  have h2 : taskCalls (.create (ones 64) y (rowOf 64) (rowOf 64) 0) (TaskOp.setBandwidthKernel 2 :: exKernel) = .ok (rowTask 64 64 y (rowOf 64)) := rfl
  obtain ⟨r, -, -, e1, -⟩ := (C128_fit_partial (rowTask 64 64 y (rowOf 64)) le_rfl false (Or.inl rfl) (3 / 2) false .Boxcar rfl rfl rfl rfl rfl _ _
    (rowOf_dist 64) (usable_fixed (by norm_num) _ _) (lineDist_device 64) (lineDist_weight 64) e true).1
    fun i => ones_det (fun l => by split <;> norm_num) ⟨i, by simp [Props.lineDist]⟩
  exact ⟨_, _, r, rfl, e1, C128_runs_independent _ _ _ _ _ _ _ _ 0 0 _ _ _ _ h1 h2 rfl e true r e1⟩

/-! A fit that searches the bandwidth: 64 observations in a row, responses 0, adaptive Gaussian kernel. -/

theorem row_radius {q : ℕ} (h1 : 2 ≤ q) (h2 : q < 64) : UsableRadius (m := 64) ⟨q, true, .Gaussian⟩ (Props.lineDist 64) := by
  refine ⟨fun _ => ⟨by simp only; norm_cast; omega, by norm_num⟩, fun i r hr => ?_⟩
  simp only [IsRadius, if_true] at hr
  rcases hr with ⟨q', s, t, t', -, -, hq, hs0, hs1, ht, ht', rfl⟩ | ⟨hr, -⟩
  · have key : ∀ k t, 2 ≤ k → IsKthSmallest (Props.lineDist 64 i) k t → 0 < t := by
      rintro k t hk ⟨-, -, h⟩
      by_contra hn
      have : {l | Props.lineDist 64 i l ≤ t} ⊆ {i} := fun l hl => by
        have := (hl.trans (not_lt.1 hn))
        simp only [Props.lineDist] at this
        have := abs_eq_zero.1 (le_antisymm this (abs_nonneg _))
        have : ((l : ℕ) : ℝ) = (i : ℕ) := by linarith
        exact Fin.ext (by exact_mod_cast this)
      have := Set.ncard_le_ncard this
      rw [Set.ncard_singleton] at this
      omega
    have hqq : q' = q := by
      have a : ((q' : ℕ) : ℝ) < q + 1 := by linarith
      have b : ((q : ℕ) : ℝ) < q' + 1 := by linarith
      have a' : q' < q + 1 := by exact_mod_cast a
      have b' : q < q' + 1 := by exact_mod_cast b
      omega
    subst hqq
    have hs : s = 0 := by linarith
    rw [hs]
    have := key _ _ h1 ht
    linarith
  · exfalso
    have : (64 : ℝ) ≤ q := by exact_mod_cast hr
    have : 64 ≤ q := by exact_mod_cast this
    omega

theorem row_device {q : ℕ} (h2 : q < 64) : DeviceBandwidth (m := 64) ⟨q, true, .Gaussian⟩ (Props.lineDist 64) :=
  ⟨fun h => by simp at h, fun _ => ⟨q, h2.le, rfl⟩, fun h => by simp at h⟩

theorem row_weights {q : ℕ} (h1 : 2 ≤ q) (h2 : q < 64) : ∃ W, IsKernelWeight (m := 64) ⟨q, true, .Gaussian⟩ (Props.lineDist 64) W ∧ ∀ i l, 0 < W i l := by
  obtain ⟨W, -, hW, -⟩ := kernelRows (m := 64) (n := 64) rfl rfl (rowOf_dist 64) (row_radius h1 h2) id
  refine ⟨W, hW, fun i l => ?_⟩
  obtain ⟨r, -, h⟩ := hW i
  rw [h]
  exact Real.exp_pos _

theorem row_criterion {q : ℕ} (h1 : 2 ≤ q) (h2 : q < 64) (g : ℕ → ℝ) :
    gpuCriterion .CV 64 g ⟨false, some (dynOf (rowOf 64), dynOf (rowOf 64))⟩ (ones 64) (fun _ => 0) ⟨q, true, .Gaussian⟩ = 0 := by
  obtain ⟨W, hW, hp⟩ := row_weights h1 h2
  have h := C125_gpu_criterion_partial .CV 64 (by norm_num) le_rfl g false ⟨q, true, .Gaussian⟩ (dynOf (rowOf 64)) ⟨rfl, rfl⟩ _ W (rowOf_dist 64) (row_radius h1 h2)
    (row_device h2) hW (ones 64) (fun _ => 0) 0 ⟨fun _ => 0, fun i c hc => ?_, by simp [residualSS]⟩
  · rw [h, if_pos]
    rw [abs_zero]; linarith [hundred_lt_dblMax]
  · have hc0 : c 0 ≠ 0 := fun h => hc (by funext j; obtain rfl := Subsingleton.elim j 0; exact h)
    have e : ∀ b : Fin 1 → ℝ, wss (ones 64) (fun _ => 0) (fun l => if l = i then 0 else W i l) b = ∑ l, (if l = i then 0 else W i l) * b 0 ^ 2 := fun b => by
      simp [wss, ones]
    rw [e, e]
    simp only [Pi.zero_apply, ne_eq, OfNat.ofNat_ne_zero, not_false_eq_true, zero_pow, mul_zero, Finset.sum_const_zero]
    obtain ⟨l, hl⟩ : ∃ l : Fin 64, l ≠ i := exists_ne i
    refine Finset.sum_pos' (fun l _ => mul_nonneg (by split <;> [exact le_rfl; exact (hp i l).le]) (sq_nonneg _)) ⟨l, Finset.mem_univ _, ?_⟩
    rw [if_neg hl]
    exact mul_pos (hp i l) (by positivity)

/-- The task that asks for the search. -/
noncomputable def searchTask : Task 64 1 64 :=
  ⟨⟨ones 64, fun _ => 0, rowOf 64, rowOf 64, some (.crs false), none, some true, some .Gaussian, true, .CV, false, 3⟩,
    ⟨⟨0, 0, fun _ _ => 0⟩, none, zeroDiagnostic, 0, [], []⟩⟩

theorem searchTask_fits (e : TaskEnv) : ∃ t', taskStep searchTask (.fit e true) = .ok (t', .ret true) := by
  set o : Oracle := fun j b => (true, gpuCriterion .CV 64 (e.search j) ⟨false, some (dynOf (rowOf 64), dynOf (rowOf 64))⟩ (ones 64) (fun _ => 0) b) with ho
  obtain ⟨g1, g2⟩ := goldenR_bounds
  have f1 : ⌊(20 : ℝ) + goldenR * (64 - 20)⌋ = 47 := by rw [Int.floor_eq_iff]; push_cast; constructor <;> linarith
  have f2 : roundC ((64 : ℝ) - goldenR * (64 - 20)) = 37 := by
    have : ⌊(64 : ℝ) - goldenR * (64 - 20) + 1 / 2⌋ = 37 := by rw [Int.floor_eq_iff]; push_cast; constructor <;> linarith
    rw [roundC, if_pos (by linarith), this]; norm_num
  have c1 := fun g => row_criterion (q := 47) (by norm_num) (by norm_num) g
  have c2 := fun g => row_criterion (q := 37) (by norm_num) (by norm_num) g
  push_cast at c1 c2
  have hopt : (optimize ⟨e.junk, true, .Gaussian⟩ 20 64 o []).out = .ok ⟨37, true, .Gaussian⟩ := by
    have hd := hundred_lt_dblMax
    have hd0 : (0 : ℝ) ≠ dblMax := by intro h; linarith
    simp only [optimize, goldenInit, if_true, f1, f2, ho]
    push_cast
    simp only [c1, c2, hd0, true_and, not_true_eq_false, if_false]
    have hc : ∀ (bw : BandwidthWeight) (o : Oracle) (s : GS), s.f1 = s.f2 → goldenLoop bw o s = s := fun bw o s h => by
      rw [goldenLoop, if_neg fun hc => ?_]
      have := hc.2.2.2.1
      rw [h] at this
      norm_num at this
    rw [hc _ _ _ rfl]
    simp [GS.xopt]
  obtain ⟨W, hW, hp⟩ := row_weights (q := 37) (by norm_num) (by norm_num)
  obtain ⟨rep, C, hrep, -⟩ := (C124_gpu_fit_partial 64 (by norm_num) le_rfl false none _ (dynOf (rowOf 64)) ⟨rfl, rfl⟩ _ W (rowOf_dist 64)
    (row_radius (q := 37) (by norm_num) (by norm_num)) (row_device (q := 37) (by norm_num)) hW (ones 64) (fun _ => 0) true false).1 fun i =>
      ones_det (fun l => (hp i l).le) ⟨i, hp i i⟩
  have hbd : bindLocations ⟨false, none⟩ (dynOf (rowOf 64)) (dynOf (rowOf 64)) = .ok ⟨false, some (dynOf (rowOf 64), dynOf (rowOf 64))⟩ :=
    bindLocations_eq_ok.2 ⟨rfl, rfl, rfl⟩
  unfold gpuRun at hrep
  rw [hbd, Res.bind] at hrep
  push_cast at hrep
  have hrun : gpuAutoRun .CV 64 e.search ⟨false, none⟩ ⟨e.junk, true, .Gaussian⟩ none none (dynOf (rowOf 64)) (ones 64) (fun _ => 0) true false =
      .ok (optimize ⟨e.junk, true, .Gaussian⟩ 20 64 o [], rep) := by
    unfold gpuAutoRun
    rw [hbd, Res.bind]
    simp only [gpuSearch, gwrUpper, Res.bind, Option.getD, if_true]
    push_cast
    rw [hopt]
    simp only [hrep]
    rfl
  have : taskRun searchTask.set e true = .ok ⟨1, rep, [], []⟩ := by
    simp only [taskRun, searchTask]
    rw [if_neg (by simp)]
    have hs : decide (64 < 8192) = true := by decide
    simp only [TaskDistance.base, Option.getD, hs]
    simp only [hrun, Res.bind]
  exact ⟨_, by simp only [taskStep, this]; rfl⟩

noncomputable def searchedTask (e : TaskEnv) : Task 64 1 64 := (searchTask_fits e).choose
theorem searchedTask_ok (e : TaskEnv) : taskStep searchTask (.fit e true) = .ok (searchedTask e, .ret true) := (searchTask_fits e).choose_spec

example (e : TaskEnv) (he : IsStdSort e.srt) := (C128_selecting_fit_partial _ _ le_rfl false (Or.inl rfl) e he _ (rowOf_dist 64) true (searchedTask_ok e))

/-! ## C129 -/

noncomputable def heapSession : List (TaskAct 2 1 0) :=
  [.create 0 (ones 2) (fun _ => 0) (fun _ => ![0, 0]) (fun i => i.elim0) 1, .copy 0 1, .call 1 (.setBandwidthSize 5), .call 0 (.setDistanceType 0), .assign 1 0,
    .destroy 0, .destroy 1]

theorem heapSession_types : TypesExist heapSession := fun name x y c l type h => by
  unfold heapSession at h
  rcases List.mem_cons.1 h with h | h
  · cases h; norm_num
  · simp only [List.mem_cons, reduceCtorEq, List.not_mem_nil, or_self] at h

theorem heapSession_ideal : ∃ v outs, idealRun (fun _ => none) heapSession = .ok (v, outs) := by
  simp [heapSession, idealRun, idealStep, taskStep, Res.bind, newDistance, Function.update]

noncomputable def heapIdeal := heapSession_ideal.choose_spec.choose
theorem heapIdeal_ok : idealRun (fun _ => none) heapSession = .ok (heapSession_ideal.choose, heapIdeal) := heapSession_ideal.choose_spec.choose_spec

theorem heap_world : ∃ w, worldRun emptyWorld heapSession = .ok (w, heapIdeal) := (C129_copies_are_values_partial _ heapSession_types).2 _ _ heapIdeal_ok
example := (C129_copies_are_values_partial _ heapSession_types).2 _ _ heapIdeal_ok
example := (C129_copies_are_values_partial _ heapSession_types).1 _ _ heap_world.choose_spec

/-- `C129_memory_lost`: after that session three objects are left. -/
example : ∃ w, worldRun emptyWorld heapSession = .ok (w, heapIdeal) ∧ ((∀ i, w.tasks i = none) → {a | w.heap.mem a ≠ none}.ncard = 3) := by
  obtain ⟨w, hw⟩ := heap_world
  exact ⟨w, hw, fun hd => by rw [C129_memory_lost _ heapSession_types w _ hw hd]; simp [heapSession, lost]⟩

example (y : Fin 64 → ℝ) (e : TaskEnv) : ∃ g : GWRReport 64 1, g.diagnostic ≠ zeroDiagnostic := by
  obtain ⟨t', g, C, -, -, -, h⟩ := (C128_fit_partial (rowTask 64 64 y (rowOf 64)) le_rfl false (Or.inl rfl) (3 / 2) false .Boxcar rfl rfl rfl rfl rfl _ _
    (rowOf_dist 64) (usable_fixed (by norm_num) _ _) (lineDist_device 64) (lineDist_weight 64) e true).1
    fun i => ones_det (fun l => by split <;> norm_num) ⟨i, by simp [Props.lineDist]⟩
  exact ⟨g, C129_fit_diagnostics_not_zero (by norm_num) h⟩

example := C129_copy_without_distance (m := 0) (ones 2) (fun _ => 0) (fun _ => ![0, 0]) (fun i => i.elim0) 2 le_rfl

end Verif.Cases

import Verif.Spec.GpuTask
import Verif.Props.GpuVars

/-!
# C128: a session with a GPU task
-/

namespace Verif.Props
open Verif Verif.Model Verif.Spec Matrix Classical

variable {n k m : ℕ}

/-! ## Data entry -/

theorem indexOf_eq {r : ℕ} {i : ℤ} {j : Fin r} : indexOf r i = some j ↔ i = (j : ℕ) := by
  unfold indexOf
  split
  · rename_i h
    rw [Option.some.injEq]
    constructor
    · rintro rfl; simp [h.1]
    · rintro rfl; simp
  · rename_i h
    simp only [reduceCtorEq, false_iff]
    rintro rfl
    exact h ⟨by positivity, by simp⟩

theorem lastGiven_cons {α : Type} (f : TaskOp → Option α) (op : TaskOp) (ops : List TaskOp) :
    lastGiven f (op :: ops) = (lastGiven f ops).or (f op) := by
  unfold lastGiven
  cases h : f op with
  | none => rw [List.filterMap_cons_none h]; simp
  | some v => rw [List.filterMap_cons_some h]; cases h2 : List.filterMap f ops <;> simp [List.getLast?_cons]

/-- A setting whose value after each call is the given one, if any, is the last one given. -/
theorem last_given {α : Type} (get : Task n k m → α) (gives : TaskOp → Option α)
    (h : ∀ t op t' o, taskStep t op = .ok (t', o) → get t' = (gives op).getD (get t)) :
    ∀ (ops : List TaskOp) (t t' : Task n k m), taskCalls t ops = .ok t' → get t' = (lastGiven gives ops).getD (get t)
  | [], t, t', e => by cases Res.ok.inj e; rfl
  | op :: ops, t, t', e => by
    obtain ⟨⟨t1, o⟩, h1, h2⟩ := Res.bind_eq_ok'.1 e
    rw [last_given get gives h ops t1 t' h2, lastGiven_cons, h t op t1 o h1]
    cases lastGiven gives ops <;> simp

/-- A successful call of one kind does not change what it is not about. -/
macro "frame" h:ident : tactic => `(tactic| first
  | (cases Res.ok.inj $h; rfl)
  | (split at $h:ident <;> first | (cases Res.ok.inj $h; rfl) | cases $h:ident)
  | (obtain ⟨c, -, h2⟩ := Res.bind_eq_ok'.1 $h
     cases c <;> (cases Res.ok.inj h2; rfl)))

theorem setEntry_get {r c : ℕ} (M : Matrix (Fin r) (Fin c) ℝ) (a i : Fin r) (b j : Fin c) (v : ℝ) :
    setEntry M a b v i j = (if ((a : ℕ) : ℤ) = (i : ℕ) ∧ ((b : ℕ) : ℤ) = (j : ℕ) then some v else none).getD (M i j) := by
  have h : (((a : ℕ) : ℤ) = (i : ℕ) ∧ ((b : ℕ) : ℤ) = (j : ℕ)) ↔ i = a ∧ j = b := by
    simp only [Nat.cast_inj, Fin.val_inj, eq_comm]
  simp only [setEntry, of_apply, h]
  split <;> rfl

theorem step_x (i : Fin n) (j : Fin k) (t : Task n k m) (op : TaskOp) (t' : Task n k m) (o : Outcome) (h : taskStep t op = .ok (t', o)) :
    t'.set.x i j = (givesX i j op).getD (t.set.x i j) := by
  cases op <;> simp only [taskStep] at h
  case setX i' j' v =>
    simp only [givesX]
    cases hi : indexOf n i' with
    | none =>
      rw [hi] at h
      cases Res.ok.inj h
      rw [if_neg]; · rfl
      rintro ⟨rfl, -⟩
      rw [indexOf_eq.2 rfl] at hi; cases hi
    | some i1 =>
      cases hj : indexOf k j' with
      | none =>
        rw [hi, hj] at h
        cases Res.ok.inj h
        rw [if_neg]; · rfl
        rintro ⟨-, rfl⟩
        rw [indexOf_eq.2 rfl] at hj; cases hj
      | some j1 =>
        rw [hi, hj] at h
        cases Res.ok.inj h
        rw [indexOf_eq] at hi hj
        subst hi hj
        exact setEntry_get _ _ _ _ _ _
  all_goals frame h

theorem step_y (i : Fin n) (t : Task n k m) (op : TaskOp) (t' : Task n k m) (o : Outcome) (h : taskStep t op = .ok (t', o)) :
    t'.set.y i = (givesY i op).getD (t.set.y i) := by
  cases op <;> simp only [taskStep] at h
  case setY i' v =>
    simp only [givesY]
    cases hi : indexOf n i' with
    | none =>
      rw [hi] at h
      cases Res.ok.inj h
      rw [if_neg]; · rfl
      rintro rfl
      rw [indexOf_eq.2 rfl] at hi; cases hi
    | some i1 =>
      rw [hi] at h
      cases Res.ok.inj h
      rw [indexOf_eq] at hi
      subst hi
      dsimp only
      by_cases e : i1 = i
      · subst e; simp
      · rw [if_neg (fun h => e (Fin.ext (by exact_mod_cast h))), Function.update_of_ne (Ne.symm e)]; rfl
  all_goals frame h

/-- What a call writes to row `i`, column `q` of the coordinates. -/
noncomputable def writesPoint (i q : ℕ) : TaskOp → Option ℝ
  | .setCoords i' u v => if i' = i ∧ ⌊u⌋₊ = q then some v else none
  | _ => none

theorem toUword_ok {u : ℝ} {q : ℕ} (h : toUword u = .ok q) : -1 < u ∧ u < 2 ^ 64 ∧ ⌊u⌋₊ = q := by
  unfold toUword at h
  split at h
  · rename_i hu; exact ⟨hu.1, hu.2, Res.ok.inj h⟩
  · cases h

theorem writePoint_get {r : ℕ} {c : Matrix (Fin r) (Fin 2) ℝ} {i' : ℤ} {u v : ℝ} {c' : Option (Matrix (Fin r) (Fin 2) ℝ)}
    (h : writePoint c i' u v = .ok c') (i : Fin r) (q : Fin 2) :
    (c'.getD c) i q = (if i' = (i : ℕ) ∧ ⌊u⌋₊ = q then some v else none).getD (c i q) := by
  unfold writePoint at h
  obtain ⟨p, hp, h⟩ := Res.bind_eq_ok'.1 h
  obtain ⟨-, -, rfl⟩ := toUword_ok hp
  cases hi : indexOf r i' with
  | none =>
    rw [hi] at h
    cases Res.ok.inj h
    rw [if_neg]; · rfl
    rintro ⟨rfl, -⟩
    rw [indexOf_eq.2 rfl] at hi; cases hi
  | some i1 =>
    cases hj : indexOf 2 (⌊u⌋₊ : ℤ) with
    | none =>
      rw [hi, hj] at h
      cases Res.ok.inj h
      rw [if_neg]; · rfl
      rintro ⟨-, e⟩
      rw [e, indexOf_eq.2 rfl] at hj; cases hj
    | some j1 =>
      rw [hi, hj] at h
      cases Res.ok.inj h
      rw [indexOf_eq] at hi hj
      subst hi
      rw [Option.getD_some, setEntry_get, ← hj]
      simp only [Nat.cast_inj]

theorem step_coords (i : Fin n) (q : Fin 2) (t : Task n k m) (op : TaskOp) (t' : Task n k m) (o : Outcome) (h : taskStep t op = .ok (t', o)) :
    t'.set.coords i q = (writesPoint i q op).getD (t.set.coords i q) := by
  cases op <;> simp only [taskStep] at h
  case setCoords i' u v =>
    obtain ⟨c, hc, h⟩ := Res.bind_eq_ok'.1 h
    have := writePoint_get hc i q
    cases c <;> (cases Res.ok.inj h; exact this)
  all_goals frame h

theorem step_bandwidth (t : Task n k m) (op : TaskOp) (t' : Task n k m) (o : Outcome) (h : taskStep t op = .ok (t', o)) :
    t'.set.bandwidth = ((givesBandwidth op).map some).getD t.set.bandwidth := by
  cases op <;> simp only [taskStep] at h
  all_goals frame h

theorem step_adaptive (t : Task n k m) (op : TaskOp) (t' : Task n k m) (o : Outcome) (h : taskStep t op = .ok (t', o)) :
    t'.set.adaptive = ((givesAdaptive op).map some).getD t.set.adaptive := by
  cases op <;> simp only [taskStep] at h
  all_goals frame h

theorem step_kernel (t : Task n k m) (op : TaskOp) (t' : Task n k m) (o : Outcome) (h : taskStep t op = .ok (t', o)) :
    t'.set.kernel = ((givesKernel op).map some).getD t.set.kernel := by
  cases op <;> simp only [taskStep] at h
  case setBandwidthKernel i =>
    simp only [givesKernel]
    change _ = ((kernelOf i).map some).getD _
    cases hk : kernelOf i with
    | none => rw [hk] at h; cases h
    | some kn => rw [hk] at h; cases Res.ok.inj h; rfl
  all_goals frame h

theorem step_search (t : Task n k m) (op : TaskOp) (t' : Task n k m) (o : Outcome) (h : taskStep t op = .ok (t', o)) :
    (t'.set.optBandwidth, t'.set.criterion) = ((asksSearch op).map fun c => (true, c)).getD (t.set.optBandwidth, t.set.criterion) := by
  cases op <;> simp only [taskStep] at h
  case enableBandwidthOptimization i =>
    simp only [asksSearch]
    change _ = ((critOf i).map _).getD _
    cases hk : critOf i with
    | none => rw [hk] at h; cases h
    | some kn => rw [hk] at h; cases Res.ok.inj h; rfl
  all_goals frame h

theorem step_selection (t : Task n k m) (op : TaskOp) (t' : Task n k m) (o : Outcome) (h : taskStep t op = .ok (t', o)) :
    (t'.set.optVars, t'.set.threshold) = ((asksSelection op).map fun c => (true, c)).getD (t.set.optVars, t.set.threshold) := by
  cases op <;> simp only [taskStep] at h
  all_goals frame h

theorem lastGiven_some {α : Type} (f : TaskOp → Option α) (session : List TaskOp) :
    lastGiven (fun op => (f op).map some) session = (lastGiven f session).map some := by
  unfold lastGiven
  rw [← List.getLast?_map, List.map_filterMap]

/-- **C128 (data entry).** In any session with a task, whatever else is called in between (fits, predictions, failing calls), every entry of the predictors and
every response is the last value that was given to it, and what the constructor left there if none was. The same holds for the size and the kind of the
bandwidth and the kernel, which have no value until one is given. -/
theorem C128_data_entry (session : List TaskOp) (t t' : Task n k m) (h : taskCalls t session = .ok t') :
    (∀ (i : Fin n) (j : Fin k), t'.set.x i j = (lastGiven (givesX i j) session).getD (t.set.x i j)) ∧
    (∀ i : Fin n, t'.set.y i = (lastGiven (givesY i) session).getD (t.set.y i)) ∧
    t'.set.bandwidth = (lastGiven givesBandwidth session).or t.set.bandwidth ∧
    t'.set.adaptive = (lastGiven givesAdaptive session).or t.set.adaptive ∧
    t'.set.kernel = (lastGiven givesKernel session).or t.set.kernel := by
  have or' : ∀ {α : Type} (a b : Option α), (a.map some).getD b = a.or b := fun a b => by cases a <;> rfl
  refine ⟨fun i j => last_given (fun t => t.set.x i j) _ (step_x i j) _ _ _ h, fun i => last_given (fun t => t.set.y i) _ (step_y i) _ _ _ h, ?_, ?_, ?_⟩
  · rw [last_given (fun t => t.set.bandwidth) _ step_bandwidth _ _ _ h, lastGiven_some, or']
  · rw [last_given (fun t => t.set.adaptive) _ step_adaptive _ _ _ h, lastGiven_some, or']
  · rw [last_given (fun t => t.set.kernel) _ step_kernel _ _ _ h, lastGiven_some, or']

/-- **C128 (what is asked for).** After any session with a new task, a fit will search the bandwidth if and only if a call asked for it, by the criterion last
asked for, and select the variables if and only if a call asked for it, with the threshold last given. -/
theorem C128_asked_for (x : Matrix (Fin n) (Fin k) ℝ) (y : Fin n → ℝ) (c : Matrix (Fin n) (Fin 2) ℝ) (l : Matrix (Fin m) (Fin 2) ℝ)
    (type : ℕ) (session : List TaskOp) (t : Task n k m) (h : taskCalls (.create x y c l type) session = .ok t) :
    (t.set.optBandwidth = true ↔ lastGiven asksSearch session ≠ none) ∧ (∀ c, lastGiven asksSearch session = some c → t.set.criterion = c) ∧
    (t.set.optVars = true ↔ lastGiven asksSelection session ≠ none) ∧ ∀ θ, lastGiven asksSelection session = some θ → t.set.threshold = θ := by
  have map' : ∀ {α : Type} (f : TaskOp → Option α), lastGiven (fun op => (f op).map fun c => (true, c)) session =
      (lastGiven f session).map fun c => (true, c) := fun f => by
    unfold lastGiven
    rw [← List.getLast?_map, List.map_filterMap]
  have h1 := last_given (fun t => (t.set.optBandwidth, t.set.criterion)) _ step_search _ _ _ h
  have h2 := last_given (fun t => (t.set.optVars, t.set.threshold)) _ step_selection _ _ _ h
  rw [map'] at h1 h2
  simp only [Task.create] at h1 h2
  refine ⟨?_, fun c hc => ?_, ?_, fun θ hc => ?_⟩
  · cases e : lastGiven asksSearch session <;> rw [e] at h1 <;> simp only [Option.map, Option.getD, Prod.mk.injEq] at h1 <;> simp [h1.1]
  · rw [hc] at h1; simp only [Option.map, Option.getD, Prod.mk.injEq] at h1; exact h1.2
  · cases e : lastGiven asksSelection session <;> rw [e] at h2 <;> simp only [Option.map, Option.getD, Prod.mk.injEq] at h2 <;> simp [h2.1]
  · rw [hc] at h2; simp only [Option.map, Option.getD, Prod.mk.injEq] at h2; exact h2.2

theorem coords_written (session : List TaskOp) (t t' : Task n k m) (h : taskCalls t session = .ok t') (i : Fin n) (q : Fin 2) :
    t'.set.coords i q =
      (((session.filterMap (givesPoint i)).filterMap fun p : ℝ × ℝ => if ⌊p.1⌋₊ = q then some p.2 else none).getLast?).getD (t.set.coords i q) := by
  rw [last_given (fun t => t.set.coords i q) _ (step_coords i q) _ _ _ h, lastGiven, List.filterMap_filterMap]
  congr 4
  funext op
  cases op <;> try rfl
  simp only [writesPoint, givesPoint]
  split
  · rename_i h1; rw [if_pos h1.1]; simp [h1.2]
  · rename_i h1
    split
    · rename_i h2; simpa using fun e => h1 ⟨h2, e⟩
    · rfl

/-- **C128 (locations), refuted.** `setCoords(i, u, v)` does not store the location (u, v): it takes `u` as the number of a column. On a task whose location of
observation `i` is still (0, 0), as after its construction, whatever other calls are made, the location given by one call is stored only if it is (0, 0). -/
theorem C128_location_not_stored (session : List TaskOp) (t t' : Task n k m) (h : taskCalls t session = .ok t') (i : Fin n)
    (h0 : t.set.coords i = ![0, 0]) (u v : ℝ) (hs : session.filterMap (givesPoint i) = [(u, v)]) :
    t'.set.coords i = ![u, v] ↔ u = 0 ∧ v = 0 := by
  have key := coords_written session t t' h i
  rw [hs, h0] at key
  have k0 := key 0
  have k1 := key 1
  simp only [List.filterMap_cons, List.filterMap_nil, Fin.val_zero, Fin.val_one] at k0 k1
  constructor
  · intro e
    rw [e] at k0 k1
    simp only [cons_val_zero, cons_val_one] at k0 k1
    by_cases f0 : ⌊u⌋₊ = 0
    · have f1 : ⌊u⌋₊ ≠ 1 := by omega
      simp only [if_pos f0, if_neg f1, List.getLast?_singleton, List.getLast?_nil, Option.getD] at k0 k1
      exact ⟨k0.trans k1, k1⟩
    · by_cases f1 : ⌊u⌋₊ = 1
      · simp only [if_neg f0, List.getLast?_nil, Option.getD] at k0
        rw [k0] at f1
        simp at f1
      · simp only [if_neg f0, if_neg f1, List.getLast?_nil, Option.getD] at k0 k1
        exact ⟨k0, k1⟩
  · rintro ⟨rfl, rfl⟩
    ext q
    fin_cases q
    · simpa using k0
    · simpa using k1

/-- A coordinate of 2 or more (and in the range of a 64 bit number) makes the call throw, and nothing is stored. -/
theorem C128_location_throws (t : Task n k m) (i : ℤ) (u v : ℝ) (hu : 2 ≤ u) (hu' : u < 2 ^ 64) :
    taskStep t (.setCoords i u v) = .ok (t, .threw .bounds) := by
  have h2 : indexOf 2 (⌊u⌋₊ : ℤ) = none := by
    unfold indexOf
    rw [dif_neg]
    rintro ⟨-, h⟩
    have := Nat.le_floor (n := 2) (by exact_mod_cast hu : ((2 : ℕ) : ℝ) ≤ u)
    simp at h
    omega
  simp only [taskStep, writePoint, toUword]
  rw [if_pos ⟨by linarith, hu'⟩]
  simp only [Res.bind]
  rw [h2]
  cases indexOf n i <;> rfl

/-- **C128 (locations, a way out).** Two calls `setCoords(i, 0, u)` and `setCoords(i, 1, v)` give the location (u, v), whatever else is called. -/
theorem C128_location_two_calls (session : List TaskOp) (t t' : Task n k m) (h : taskCalls t session = .ok t') (i : Fin n) (u v : ℝ)
    (hs : session.filterMap (givesPoint i) = [(0, u), (1, v)]) : t'.set.coords i = ![u, v] := by
  have key := coords_written session t t' h i
  rw [hs] at key
  ext q
  rw [key q]
  fin_cases q <;> simp

/-! ## Fits -/

theorem dynOf_fits {r : ℕ} (c : Matrix (Fin r) (Fin 2) ℝ) : FitsData (dynOf c) r := ⟨rfl, rfl⟩

theorem hasDistance_base {t : Task n k m} {geo : Bool} (h : HasDistance t geo) : ∃ d, t.set.distance = some d ∧ d.base = ⟨geo, none⟩ := by
  rcases h with h | ⟨p, θ, h⟩
  · exact ⟨_, h, rfl⟩
  · exact ⟨_, h, rfl⟩

theorem reports_of {t : Task n k m} {k' : ℕ} {g : GWRReport n k'} (h1 : t.res.betas = dynOf g.betas) (h2 : t.res.report = some ⟨k', g⟩)
    (h3 : t.res.diagnostic = g.diagnostic) : TaskReports t g := by
  refine ⟨fun i j => ?_, fun i j => ?_, fun i => ?_, fun i => ?_, fun hn i j => ?_, h3⟩
  · unfold Task.betas DynMat.atInt
    rw [h1]
    have a : indexOf (dynOf g.betas).nRows ((i : ℕ) : ℤ) = some i := indexOf_eq.2 rfl
    have b : indexOf (dynOf g.betas).nCols ((j : ℕ) : ℤ) = some j := indexOf_eq.2 rfl
    rw [a, b]
    simp [dynOf]
  · simp only [Task.betasSE, h2, (indexOf_eq (j := i)).2 rfl, (indexOf_eq (j := j)).2 rfl]
  · simp only [Task.shat, h2]
  · simp only [Task.qDiag, h2, (indexOf_eq (j := i)).2 rfl]
  · have e : t.sRows = n := by simp only [Task.sRows, h2, hn, if_true]
    have a : indexOf t.sRows ((i : ℕ) : ℤ) = some (Fin.cast e.symm i) := indexOf_eq.2 rfl
    simp only [Task.s, h2, a, (indexOf_eq (j := j)).2 rfl]
    rfl

/-- **C128 (fit).** At least 64 observations, any map, a bandwidth and a kernel that mean the same on both devices, no selections: `fit` returns true exactly if at every
place the observations of positive weight determine the coefficients; everything that can be read from the task is then what geographically weighted
regression reports (the hat matrix for fewer than 8192 observations), whatever was done with the task before. Otherwise it returns false, and nothing changes. -/
theorem C128_fit_partial (t : Task n k m) (hn : 64 ≤ n) (geo : Bool) (ht : HasDistance t geo) (bw : ℝ) (a : Bool) (kn : KernelType)
    (h1 : t.set.bandwidth = some bw) (h2 : t.set.adaptive = some a) (h3 : t.set.kernel = some kn) (h4 : t.set.optBandwidth = false)
    (h5 : t.set.optVars = false) (dist w : Fin n → Fin n → ℝ) (hd : IsMapDistance geo (dynOf t.set.coords) (dynOf t.set.coords) dist)
    (hb : UsableRadius ⟨bw, a, kn⟩ dist) (hg : DeviceBandwidth ⟨bw, a, kn⟩ dist) (hw : IsKernelWeight ⟨bw, a, kn⟩ dist w) (e : TaskEnv) (hi : Bool) :
    ((∀ i, Determined t.set.x (w i)) → ∃ t' g C, taskStep t (.fit e hi) = .ok (t', .ret true) ∧ t'.set = t.set ∧ TaskReports t' g ∧
      IsGWRReport t.set.x t.set.y w (decide (n < 8192)) false g C) ∧
    ((∃ i, ¬ Determined t.set.x (w i)) → taskStep t (.fit e hi) = .ok (t, .ret false)) := by
  obtain ⟨d, hd1, hd2⟩ := hasDistance_base ht
  have hrun : taskRun t.set e hi =
      (gpuRun 64 ⟨geo, none⟩ ⟨bw, a, kn⟩ (dynOf t.set.coords) t.set.x t.set.y (decide (n < 8192)) false).bind fun r => .ok ⟨k, r, [], []⟩ := by
    simp only [taskRun, hd1, h1, h2, h3, h4, h5, hd2, reduceCtorEq, false_and, if_false, Option.getD]
  obtain ⟨g1, g2⟩ := C124_gpu_fit_partial 64 (by norm_num) hn geo none ⟨bw, a, kn⟩ _ (dynOf_fits t.set.coords) dist w hd hb hg hw t.set.x t.set.y
    (decide (n < 8192)) false
  constructor
  · intro hdet
    obtain ⟨g, C, e1, -, -, e2⟩ := g1 hdet
    rw [e1] at hrun
    exact ⟨⟨t.set, ⟨dynOf g.betas, some ⟨k, g⟩, g.diagnostic, t.res.bandwidth, t.res.vars, t.res.criteria⟩⟩, g, C, by simp [taskStep, hrun, Res.bind, h4, h5], rfl, reports_of rfl rfl rfl, e2⟩
  · intro hdet
    rw [g2 hdet] at hrun
    simp only [taskStep, hrun, Res.bind]

/-- **C128 (small data), refuted.** With fewer than 64 observations `fit` returns false, whatever the data. -/
theorem C128_small_data (t : Task n k m) (hn : 0 < n) (hn' : n < 64) (hk : 0 < k) (geo : Bool) (ht : HasDistance t geo) (bw : ℝ) (a : Bool)
    (kn : KernelType) (h1 : t.set.bandwidth = some bw) (h2 : t.set.adaptive = some a) (h3 : t.set.kernel = some kn) (h4 : t.set.optBandwidth = false)
    (h5 : t.set.optVars = false) (dist : Fin n → Fin n → ℝ) (hd : IsMapDistance geo (dynOf t.set.coords) (dynOf t.set.coords) dist)
    (hb : UsableRadius ⟨bw, a, kn⟩ dist) (hg : DeviceBandwidth ⟨bw, a, kn⟩ dist) (e : TaskEnv) (hi : Bool) :
    taskStep t (.fit e hi) = .ok (t, .ret false) := by
  obtain ⟨d, hd1, hd2⟩ := hasDistance_base ht
  have hrun : taskRun t.set e hi =
      (gpuRun 64 ⟨geo, none⟩ ⟨bw, a, kn⟩ (dynOf t.set.coords) t.set.x t.set.y (decide (n < 8192)) false).bind fun r => .ok ⟨k, r, [], []⟩ := by
    simp only [taskRun, hd1, h1, h2, h3, h4, h5, hd2, reduceCtorEq, false_and, if_false, Option.getD]
  rw [C124_gpu_small_data 64 hn hn' hk geo none _ _ (dynOf_fits t.set.coords) dist hd hb hg] at hrun
  simp only [taskStep, hrun, Res.bind]

theorem fit_true {t t' : Task n k m} {e : TaskEnv} {hi : Bool} (h : taskStep t (.fit e hi) = .ok (t', .ret true)) :
    ∃ r, taskRun t.set e hi = .ok r ∧ t'.set = t.set ∧ TaskReports t' r.rep ∧ (t.set.optBandwidth = true → t'.res.bandwidth = r.rep.weight.mBandwidth) ∧
      (t.set.optVars = true → t'.res.vars = r.vars ∧ t'.res.criteria = r.criteria) := by
  simp only [taskStep] at h
  cases hr : taskRun t.set e hi with
  | ok r =>
    rw [hr] at h
    cases Res.ok.inj h
    exact ⟨r, rfl, rfl, reports_of rfl rfl rfl, fun h => by simp [h], fun h => by simp [h]⟩
  | throw er => rw [hr] at h; cases h
  | ub => rw [hr] at h; cases h
  | nonfinite => rw [hr] at h; cases h

/-- **C128 (fit with selections).** A fit that returns true, with at least 64 observations: if only the bandwidth is selected, what is said in
`C125_gpu_auto_fit_partial` holds of everything that can be read from the task, and `optimizedBandwidth` is the bandwidth of the reported regressions; if only
the variables are selected, or both, what is said in `C126_gpu_var_fit_partial` and `C126_gpu_var_auto_fit_partial`, and `selectedVar` and the criteria are
those of the selection. -/
theorem C128_selecting_fit_partial (t t' : Task n k m) (hn : 64 ≤ n) (geo : Bool) (ht : HasDistance t geo) (e : TaskEnv) (he : IsStdSort e.srt)
    (dist : Fin n → Fin n → ℝ) (hd : IsMapDistance geo (dynOf t.set.coords) (dynOf t.set.coords) dist) (hi : Bool)
    (h : taskStep t (.fit e hi) = .ok (t', .ret true)) :
    ∃ a kn, t.set.adaptive = some a ∧ t.set.kernel = some kn ∧
    (t.set.optVars = false → t.set.optBandwidth = true → ∃ (b0 : BandwidthWeight) (r : SearchResult) (g : GWRReport n k), b0.mAdaptive = a ∧ b0.mKernel = kn ∧
      IsGpuSearchedFit t.set.criterion b0 dist t.set.x t.set.y (decide (n < 8192)) false r g ∧ TaskReports t' g ∧ t'.res.bandwidth = g.weight.mBandwidth) ∧
    (t.set.optVars = true → t.set.optBandwidth = false → ∃ (b : BandwidthWeight) (s : Selected n) (g : GWRReport n s.cols.length),
      t.set.bandwidth = some b.mBandwidth ∧ b.mAdaptive = a ∧ b.mKernel = kn ∧ TaskReports t' g ∧ t'.res.vars = s.vars ∧ t'.res.criteria = s.criteria ∧
      ∀ w, UsableRadius b dist → DeviceBandwidth b dist → IsKernelWeight b dist w →
        IsGWRSelection False t.set.threshold t.set.x t.set.y (fun _ _ => 1) hi s ∧ ∃ C, IsGWRReport s.x t.set.y w (decide (n < 8192)) false g C) ∧
    (t.set.optVars = true → t.set.optBandwidth = true → ∃ (b0 : BandwidthWeight) (s : Selected n) (r : SearchResult) (g : GWRReport n s.cols.length),
      b0.mAdaptive = a ∧ b0.mKernel = kn ∧ TaskReports t' g ∧ t'.res.vars = s.vars ∧ t'.res.criteria = s.criteria ∧ t'.res.bandwidth = g.weight.mBandwidth ∧
      IsGWRSelection False t.set.threshold t.set.x t.set.y (fun _ _ => 1) hi s ∧
      IsGpuSearchedFit t.set.criterion b0 dist s.x t.set.y (decide (n < 8192)) false r g) := by
  obtain ⟨r, hr, -, hrep, hbw, hvars⟩ := fit_true h
  obtain ⟨d, hd1, hd2⟩ := hasDistance_base ht
  unfold taskRun at hr
  rw [hd1] at hr
  cases ha : t.set.adaptive with
  | none => rw [ha] at hr; cases hr
  | some a =>
  cases hk : t.set.kernel with
  | none => rw [ha, hk] at hr; cases hr
  | some kn =>
  refine ⟨a, kn, rfl, rfl, fun o1 o2 => ?_, fun o1 o2 => ?_, fun o1 o2 => ?_⟩
  · simp only [ha, hk, o1, o2, Bool.true_eq_false, and_false, if_false, hd2] at hr
    obtain ⟨⟨sr, g⟩, e1, e2⟩ := Res.bind_eq_ok'.1 hr
    cases Res.ok.inj e2
    exact ⟨_, sr, g, rfl, rfl, C125_gpu_auto_fit_partial _ 64 (by norm_num) hn _ geo none _ none none _ (dynOf_fits t.set.coords) dist hd _ _ _ _ sr g e1, hrep,
      hbw o2⟩
  · cases hb : t.set.bandwidth with
    | none => simp only [ha, hk, o1, o2, hb, and_self, if_true] at hr; cases hr
    | some bw =>
    simp only [ha, hk, o1, o2, hb, reduceCtorEq, false_and, if_false, hd2, Option.getD] at hr
    obtain ⟨⟨s, g⟩, e1, e2⟩ := Res.bind_eq_ok'.1 hr
    cases Res.ok.inj e2
    refine ⟨⟨bw, a, kn⟩, s, g, rfl, rfl, rfl, hrep, (hvars o1).1, (hvars o1).2, fun w u1 u2 u3 => ?_⟩
    obtain ⟨f1, -, f2⟩ := C126_gpu_var_fit_partial _ he _ 64 (by norm_num) hn _ geo none _ _ (dynOf_fits t.set.coords) dist w hd u1 u2 u3 _ _ _ _ _ s g e1
    exact ⟨f1, f2⟩
  · simp only [ha, hk, o1, o2, Bool.true_eq_false, and_false, if_false, hd2] at hr
    obtain ⟨⟨s, sr, g⟩, e1, e2⟩ := Res.bind_eq_ok'.1 hr
    cases Res.ok.inj e2
    obtain ⟨f1, f2⟩ := C126_gpu_var_auto_fit_partial _ he _ 64 (by norm_num) hn _ _ _ geo none _ none none _ (dynOf_fits t.set.coords) dist hd _ _ _ _ _ s sr g e1
    exact ⟨_, s, sr, g, rfl, rfl, hrep, (hvars o1).1, (hvars o1).2, hbw o2, f1, f2⟩

/-! ## Sequences of runs -/

/-- **C128 (failed runs).** A call that does not return true leaves everything that can be read, and all settings, as they were. -/
theorem C128_failed_call_changes_nothing (t t' : Task n k m) (op : TaskOp) (o : Outcome) (h : taskStep t op = .ok (t', o)) (ho : o ≠ .ret true) :
    t' = t := by
  cases op <;> simp only [taskStep] at h
  case setCoords i u v =>
    obtain ⟨c, -, h⟩ := Res.bind_eq_ok'.1 h
    cases c with
    | none => cases Res.ok.inj h; rfl
    | some c => cases Res.ok.inj h; exact absurd rfl ho
  case setPredictLocations i u v =>
    obtain ⟨c, -, h⟩ := Res.bind_eq_ok'.1 h
    cases c with
    | none => cases Res.ok.inj h; rfl
    | some c => cases Res.ok.inj h; exact absurd rfl ho
  all_goals first
    | (cases Res.ok.inj h; exact absurd rfl ho)
    | (split at h <;> first | (cases Res.ok.inj h; first | rfl | exact absurd rfl ho) | cases h)

/-- Results that belong to no selection are still those of the constructor. -/
def Untouched (t : Task n k m) : Prop :=
  (t.set.optBandwidth = false → t.res.bandwidth = 0) ∧ (t.set.optVars = false → t.res.vars = [] ∧ t.res.criteria = [])

theorem untouched_step {t t' : Task n k m} {op : TaskOp} {o : Outcome} (h : taskStep t op = .ok (t', o)) (hu : Untouched t) : Untouched t' := by
  have keep : ∀ s : TaskSettings n k m, (s.optBandwidth = false → t.set.optBandwidth = false) → (s.optVars = false → t.set.optVars = false) →
      Untouched { t with set := s } := fun s h1 h2 => ⟨fun h => hu.1 (h1 h), fun h => hu.2 (h2 h)⟩
  cases op <;> simp only [taskStep] at h
  case setCoords i u v =>
    obtain ⟨c, -, h⟩ := Res.bind_eq_ok'.1 h
    cases c <;> cases Res.ok.inj h
    · exact hu
    · exact keep _ id id
  case setPredictLocations i u v =>
    obtain ⟨c, -, h⟩ := Res.bind_eq_ok'.1 h
    cases c <;> cases Res.ok.inj h
    · exact hu
    · exact keep _ id id
  case enableBandwidthOptimization i =>
    split at h
    · cases Res.ok.inj h; exact keep _ (fun h => by cases h) id
    · cases h
  case enableVariablesOptimization thr =>
    cases Res.ok.inj h; exact keep _ id (fun h => by cases h)
  case fit e hi =>
    split at h
    · cases Res.ok.inj h
      refine ⟨fun h => ?_, fun h => ?_⟩
      · dsimp only at h ⊢
        rw [h]; exact hu.1 h
      · dsimp only at h ⊢
        rw [h]; exact hu.2 h
    · cases Res.ok.inj h; exact hu
    · cases h
    · cases h
  case predict hi =>
    split at h
    · cases Res.ok.inj h; exact hu
    · cases Res.ok.inj h; exact hu
    · cases h
    · cases h
  all_goals first
    | (cases Res.ok.inj h; exact keep _ id id)
    | (split at h <;> first | (cases Res.ok.inj h; first | exact hu | exact keep _ id id) | cases h)

theorem untouched_calls : ∀ (ops : List TaskOp) (t t' : Task n k m), taskCalls t ops = .ok t' → Untouched t → Untouched t'
  | [], t, t', e, h => by cases Res.ok.inj e; exact h
  | op :: ops, t, t', e, h => by
    obtain ⟨⟨t1, o⟩, h1, h2⟩ := Res.bind_eq_ok'.1 e
    exact untouched_calls ops t1 t' h2 (untouched_step h1 h)

/-- **C128 (runs are independent).** After any two sessions with new tasks, however many fits and predictions they contain, that end with the same data and settings:
if `fit` then returns true, it returns true for both, and everything that can be read agrees. -/
theorem C128_runs_independent (x x' : Matrix (Fin n) (Fin k) ℝ) (y y' : Fin n → ℝ) (c c' : Matrix (Fin n) (Fin 2) ℝ) (l l' : Matrix (Fin m) (Fin 2) ℝ)
    (type type' : ℕ) (session session' : List TaskOp) (t t' : Task n k m) (h : taskCalls (.create x y c l type) session = .ok t)
    (h' : taskCalls (.create x' y' c' l' type') session' = .ok t') (hs : t.set = t'.set) (e : TaskEnv) (hi : Bool) (r : Task n k m)
    (hr : taskStep t (.fit e hi) = .ok (r, .ret true)) : taskStep t' (.fit e hi) = .ok (r, .ret true) := by
  have u := untouched_calls _ _ _ h ⟨fun _ => rfl, fun _ => ⟨rfl, rfl⟩⟩
  have u' := untouched_calls _ _ _ h' ⟨fun _ => rfl, fun _ => ⟨rfl, rfl⟩⟩
  obtain ⟨s, ρ⟩ := t
  obtain ⟨s', ρ'⟩ := t'
  obtain rfl : s = s' := hs
  simp only [taskStep] at hr ⊢
  cases hrun : taskRun s e hi with
  | ok q =>
    rw [hrun] at hr
    cases Res.ok.inj hr
    dsimp only
    have e1 : (if s.optBandwidth = true then q.rep.weight.mBandwidth else ρ'.bandwidth) = if s.optBandwidth = true then q.rep.weight.mBandwidth else ρ.bandwidth := by
      cases hb : s.optBandwidth with
      | true => rfl
      | false => exact (u'.1 hb).trans (u.1 hb).symm
    have e2 : (if s.optVars = true then q.vars else ρ'.vars) = if s.optVars = true then q.vars else ρ.vars := by
      cases hb : s.optVars with
      | true => rfl
      | false => exact (u'.2 hb).1.trans (u.2 hb).1.symm
    have e3 : (if s.optVars = true then q.criteria else ρ'.criteria) = if s.optVars = true then q.criteria else ρ.criteria := by
      cases hb : s.optVars with
      | true => rfl
      | false => exact (u'.2 hb).2.trans (u.2 hb).2.symm
    rw [e1, e2, e3]
  | throw er => rw [hrun] at hr; cases hr
  | ub => rw [hrun] at hr; cases hr
  | nonfinite => rw [hrun] at hr; cases hr

/-- **C128 (prediction).** As many places as observations, at least 64: `predict` returns true exactly if at every place the observations of positive weight determine the
coefficients; `betas` are then the coefficients of the regressions weighted by the kernel of the distances from the places. Everything else that can be
read keeps belonging to the last fit, so `betas` and `betasSE` or the diagnostics are of different regressions. -/
theorem C128_predict_partial (t : Task n k n) (hn : 64 ≤ n) (geo : Bool) (ht : HasDistance t geo) (bw : ℝ) (a : Bool) (kn : KernelType)
    (h1 : t.set.bandwidth = some bw) (h2 : t.set.adaptive = some a) (h3 : t.set.kernel = some kn)
    (dist w : Fin n → Fin n → ℝ) (hd : IsMapDistance geo (dynOf t.set.locations) (dynOf t.set.coords) dist)
    (hb : UsableRadius ⟨bw, a, kn⟩ dist) (hg : DeviceBandwidth ⟨bw, a, kn⟩ dist) (hw : IsKernelWeight ⟨bw, a, kn⟩ dist w) (hi : Bool) :
    ((∀ i, Determined t.set.x (w i)) → ∃ (t' : Task n k n) (B : Matrix (Fin n) (Fin k) ℝ), taskStep t (.predict hi) = .ok (t', .ret true) ∧
      (∀ (i : Fin n) (j : Fin k), t'.betas (i : ℕ) (j : ℕ) = .ok (B i j)) ∧ (∀ i, IsWLS t.set.x t.set.y (w i) (B i)) ∧
      t' = { t with res := { t.res with betas := t'.res.betas } }) ∧
    ((∃ i, ¬ Determined t.set.x (w i)) → taskStep t (.predict hi) = .ok (t, .ret false)) := by
  obtain ⟨d, hd1, hd2⟩ := hasDistance_base ht
  have hrun : taskPredict t.set = gpuPredict 64 ⟨geo, none⟩ ⟨bw, a, kn⟩ (dynOf t.set.locations) (dynOf t.set.coords) t.set.x t.set.y := by
    simp only [taskPredict, hd1, h1, h2, h3, hd2]
  obtain ⟨g1, g2⟩ := C124_gpu_predict_partial 64 (by norm_num) hn geo none ⟨bw, a, kn⟩ _ _ (dynOf_fits t.set.locations) (dynOf_fits t.set.coords) dist w hd hb hg hw
    t.set.x t.set.y
  constructor
  · intro hdet
    obtain ⟨B, e1, e2⟩ := g1 hdet
    rw [e1] at hrun
    refine ⟨{ t with res := { t.res with betas := dynOf B } }, B, by simp only [taskStep, hrun], fun i j => ?_, e2, rfl⟩
    unfold Task.betas DynMat.atInt
    have a : indexOf (dynOf B).nRows ((i : ℕ) : ℤ) = some i := indexOf_eq.2 rfl
    have b : indexOf (dynOf B).nCols ((j : ℕ) : ℤ) = some j := indexOf_eq.2 rfl
    dsimp only
    rw [a, b]
    simp [dynOf]
  · intro hdet
    rw [g2 hdet] at hrun
    simp only [taskStep, hrun]

/-! ## Minkowski distances -/

/-- Two distances that differ at most in exponent and angle. -/
def SameDistance : Option TaskDistance → Option TaskDistance → Prop
  | none, none => True
  | some (.crs g), some (.crs g') => g = g'
  | some (.minkwoski g _ _), some (.minkwoski g' _ _) => g = g'
  | _, _ => False

theorem SameDistance.refl : ∀ d, SameDistance d d
  | none => trivial
  | some (.crs _) => rfl
  | some (.minkwoski _ _ _) => rfl

/-- Two tasks that differ at most in exponent and angle of Minkowski distances. -/
def SameTask (t u : Task n k m) : Prop :=
  u.res = t.res ∧ (∃ d, u.set = { t.set with distance := d }) ∧ SameDistance t.set.distance u.set.distance

theorem taskRun_same {t u : Task n k m} (h : SameTask t u) (e : TaskEnv) (hi : Bool) : taskRun u.set e hi = taskRun t.set e hi := by
  obtain ⟨-, ⟨d, hd⟩, hs⟩ := h
  rw [hd] at hs ⊢
  dsimp only at hs
  unfold taskRun
  dsimp only
  rcases h1 : t.set.distance with _ | ⟨g⟩ | ⟨g, p, θ⟩ <;> rcases d with _ | ⟨g'⟩ | ⟨g', p', θ'⟩ <;> rw [h1] at hs <;> simp only [SameDistance] at hs
  · subst hs; rfl
  · subst hs; cases t.set.adaptive <;> cases t.set.kernel <;> rfl

theorem taskPredict_same {t u : Task n k m} (h : SameTask t u) : taskPredict u.set = taskPredict t.set := by
  obtain ⟨-, ⟨d, hd⟩, hs⟩ := h
  rw [hd] at hs ⊢
  dsimp only at hs
  unfold taskPredict
  dsimp only
  rcases h1 : t.set.distance with _ | ⟨g⟩ | ⟨g, p, θ⟩ <;> rcases d with _ | ⟨g'⟩ | ⟨g', p', θ'⟩ <;> rw [h1] at hs <;> simp only [SameDistance] at hs
  · subst hs; rfl
  · subst hs; cases t.set.bandwidth <;> cases t.set.adaptive <;> cases t.set.kernel <;> rfl

theorem step_same {t u t' : Task n k m} (h : SameTask t u) {op : TaskOp} {o : Outcome} (hs : taskStep t op = .ok (t', o)) :
    if isMinkowskiSetting op = true then SameTask t' u else ∃ u', taskStep u op = .ok (u', o) ∧ SameTask t' u' := by
  have hrun := taskRun_same h
  have hpre := taskPredict_same h
  obtain ⟨⟨x, y, c, l, dt, bw, a, kn, ob, cr, ov, th⟩, ρ⟩ := t
  obtain ⟨⟨x', y', c', l', du, bw', a', kn', ob', cr', ov', th'⟩, ρ'⟩ := u
  obtain ⟨h1, ⟨d, h2⟩, h3⟩ := h
  cases h1
  simp only [TaskSettings.mk.injEq] at h2
  obtain ⟨rfl, rfl, rfl, rfl, rfl, rfl, rfl, rfl, rfl, rfl, rfl, rfl⟩ := h2
  dsimp only at h3
  cases op <;> simp only [taskStep, isMinkowskiSetting, if_true, Bool.false_eq_true, if_false] at hs ⊢
  case setCoords i u v =>
    obtain ⟨q, e1, e2⟩ := Res.bind_eq_ok'.1 hs
    rw [e1]
    cases q <;> (cases Res.ok.inj e2; exact ⟨_, rfl, rfl, ⟨_, rfl⟩, h3⟩)
  case setPredictLocations i u v =>
    obtain ⟨q, e1, e2⟩ := Res.bind_eq_ok'.1 hs
    rw [e1]
    cases q <;> (cases Res.ok.inj e2; exact ⟨_, rfl, rfl, ⟨_, rfl⟩, h3⟩)
  case setDistanceType type =>
    cases hd : newDistance type <;> (rw [hd] at hs; cases Res.ok.inj hs)
    · exact ⟨_, rfl, rfl, ⟨_, rfl⟩, h3⟩
    · exact ⟨_, rfl, rfl, ⟨_, rfl⟩, SameDistance.refl _⟩
  case setGeographic g =>
    rcases dt with _ | ⟨g1⟩ | ⟨g1, p, θ⟩ <;> rcases du with _ | ⟨g2⟩ | ⟨g2, p', θ'⟩ <;> simp only [SameDistance] at h3
    · cases hs
    · cases Res.ok.inj hs; exact ⟨_, rfl, rfl, ⟨_, rfl⟩, rfl⟩
    · cases Res.ok.inj hs; exact ⟨_, rfl, rfl, ⟨_, rfl⟩, rfl⟩
  case setPoly p =>
    rcases dt with _ | ⟨g1⟩ | ⟨g1, p, θ⟩ <;> rcases du with _ | ⟨g2⟩ | ⟨g2, p', θ'⟩ <;> simp only [SameDistance] at h3
    · cases hs
    · cases hs
    · cases Res.ok.inj hs; exact ⟨rfl, ⟨_, rfl⟩, h3⟩
  case setTheta θ =>
    rcases dt with _ | ⟨g1⟩ | ⟨g1, p, θ⟩ <;> rcases du with _ | ⟨g2⟩ | ⟨g2, p', θ'⟩ <;> simp only [SameDistance] at h3
    · cases hs
    · cases hs
    · cases Res.ok.inj hs; exact ⟨rfl, ⟨_, rfl⟩, h3⟩
  case fit e hi =>
    rw [hrun e hi]
    split at hs <;> first | cases hs | skip
    · rename_i r hr; rw [hr]; exact ⟨_, rfl, rfl, ⟨_, rfl⟩, h3⟩
    · rename_i r hr; rw [hr]; exact ⟨_, rfl, rfl, ⟨_, rfl⟩, h3⟩
  case predict hi =>
    rw [hpre]
    split at hs <;> first | cases hs | skip
    · rename_i r hr; rw [hr]; exact ⟨_, rfl, rfl, ⟨_, rfl⟩, h3⟩
    · rename_i r hr; rw [hr]; exact ⟨_, rfl, rfl, ⟨_, rfl⟩, h3⟩
  all_goals first
    | (cases Res.ok.inj hs; exact ⟨_, rfl, rfl, ⟨_, rfl⟩, h3⟩)
    | (split at hs <;> first | (cases Res.ok.inj hs; exact ⟨_, rfl, rfl, ⟨_, rfl⟩, h3⟩) | cases hs)

theorem calls_same : ∀ (ops : List TaskOp) (t u t' : Task n k m), SameTask t u → taskCalls t ops = .ok t' →
    ∃ u', taskCalls u (ops.filter fun op => !isMinkowskiSetting op) = .ok u' ∧ SameTask t' u'
  | [], t, u, t', h, e => by cases Res.ok.inj e; exact ⟨u, rfl, h⟩
  | op :: ops, t, u, t', h, e => by
    obtain ⟨⟨t1, o⟩, h1, h2⟩ := Res.bind_eq_ok'.1 e
    have key := step_same h h1
    cases hm : isMinkowskiSetting op with
    | true =>
      rw [if_pos hm] at key
      rw [List.filter_cons_of_neg (by simp [hm])]
      exact calls_same ops t1 u t' key h2
    | false =>
      rw [if_neg (by simp [hm])] at key
      obtain ⟨u1, e1, e2⟩ := key
      rw [List.filter_cons_of_pos (by simp [hm])]
      simp only [taskCalls, e1, Res.bind]
      exact calls_same ops t1 u1 t' e2 h2

/-- **C128 (Minkowski distances), refuted.** The exponent and the angle of Minkowski distances, which the interface lets callers choose, have no effect: leaving out
all calls that choose them gives, in any session, the same results. -/
theorem C128_minkowski_settings_ignored (t t' : Task n k m) (session : List TaskOp) (h : taskCalls t session = .ok t') :
    ∃ u, taskCalls t (session.filter fun op => !isMinkowskiSetting op) = .ok u ∧ u.res = t'.res := by
  obtain ⟨u, e1, e2⟩ := calls_same session t t t' ⟨rfl, ⟨_, rfl⟩, SameDistance.refl _⟩ h
  exact ⟨u, e1, e2.1⟩

/-! ## What is undefined or fails -/

/-- **C128 (missing settings), refuted.** There are no defaults for the kernel: in a session with a new task in which the kernel, the kind of the bandwidth, or
(without a search) its size is not set, a fit has undefined behaviour, and a prediction as well. -/
theorem C128_missing_settings (x : Matrix (Fin n) (Fin k) ℝ) (y : Fin n → ℝ) (c : Matrix (Fin n) (Fin 2) ℝ) (l : Matrix (Fin m) (Fin 2) ℝ)
    (type : ℕ) (session : List TaskOp) (t : Task n k m) (h : taskCalls (.create x y c l type) session = .ok t) (e : TaskEnv) (hi : Bool) :
    (lastGiven givesKernel session = none ∨ lastGiven givesAdaptive session = none ∨
      (lastGiven givesBandwidth session = none ∧ t.set.optBandwidth = false) → taskStep t (.fit e hi) = .ub) ∧
    (lastGiven givesKernel session = none ∨ lastGiven givesAdaptive session = none ∨ lastGiven givesBandwidth session = none →
      taskStep t (.predict hi) = .ub) := by
  obtain ⟨-, -, h1, h2, h3⟩ := C128_data_entry _ _ _ h
  simp only [Task.create, Option.or_none] at h1 h2 h3
  constructor
  · intro hn
    have : taskRun t.set e hi = .ub := by
      unfold taskRun
      rcases hn with hn | hn | ⟨hn, ho⟩
      · rw [h3, hn]; cases t.set.distance <;> cases t.set.adaptive <;> rfl
      · rw [h2, hn]; cases t.set.distance <;> cases t.set.kernel <;> rfl
      · rw [h1, hn]
        split
        · rw [if_pos ⟨rfl, ho⟩]
        · rfl
    simp only [taskStep, this]
  · intro hn
    have : taskPredict t.set = .ub := by
      unfold taskPredict
      rcases hn with hn | hn | hn
      · rw [h3, hn]; cases t.set.distance <;> cases t.set.bandwidth <;> cases t.set.adaptive <;> rfl
      · rw [h2, hn]; cases t.set.distance <;> cases t.set.bandwidth <;> cases t.set.kernel <;> rfl
      · rw [h1, hn]; cases t.set.distance <;> cases t.set.adaptive <;> cases t.set.kernel <;> rfl
    simp only [taskStep, this]

/-- **C128 (prediction elsewhere), refuted.** In the plane, prediction at fewer places than there are observations returns false, and at more places its
behaviour is undefined, whatever the data. -/
theorem C128_predict_elsewhere (t : Task n k m) (ht : HasDistance t false) (bw : ℝ) (a : Bool) (kn : KernelType)
    (h1 : t.set.bandwidth = some bw) (h2 : t.set.adaptive = some a) (h3 : t.set.kernel = some kn) (hn : 0 < n) (hi : Bool) :
    (m < n → taskStep t (.predict hi) = .ok (t, .ret false)) ∧ (n < m → taskStep t (.predict hi) = .ub) := by
  obtain ⟨d, hd1, hd2⟩ := hasDistance_base ht
  have hrun : taskPredict t.set = gpuPredict 64 ⟨false, none⟩ ⟨bw, a, kn⟩ (dynOf t.set.locations) (dynOf t.set.coords) t.set.x t.set.y := by
    simp only [taskPredict, hd1, h1, h2, h3, hd2]
  obtain ⟨n, rfl⟩ : ∃ n', n = n' + 1 := ⟨n - 1, by omega⟩
  have hbind : bindLocations ⟨false, none⟩ (dynOf t.set.locations) (dynOf t.set.coords) = .ok ⟨false, some (dynOf t.set.locations, dynOf t.set.coords)⟩ :=
    bindLocations_eq_ok.2 ⟨rfl, rfl, rfl⟩
  have hm : ∀ (f : ℕ → ℝ) (l : List ℕ), mapRes (fun i => Res.ok (f i)) l = .ok (l.map f) := fun f l => by
    induction l with
    | nil => rfl
    | cons b l ih => simp only [mapRes, ih, Res.bind, List.map_cons]
  have hdev : devCalc false = fun dp rp i => Res.ok (euDistKernel dp rp i) := by
    funext dp rp i; simp [devCalc]
  constructor
  · intro hlt
    have : ∃ e, weightRowsCuda ⟨false, some (dynOf t.set.locations, dynOf t.set.coords)⟩ ⟨bw, a, kn⟩ (n + 1) (n + 1) = .throw e := by
      simp only [weightRowsCuda, Res.tabulate, weightVectorCuda, CRSDistance.distanceCuda, hdev]
      by_cases h0 : 0 < m
      · rw [if_pos (show ((0 : Fin (n + 1)) : ℕ) < (dynOf t.set.locations).nRows from h0),
          if_neg (show ¬ (dynOf t.set.coords).nRows < (dynOf t.set.locations).nRows from Nat.not_lt.2 hlt.le), hm]
        simp only [Res.bind, rowToVec, List.length_map, List.length_range]
        rw [dif_neg (show ¬ (dynOf t.set.locations).nRows = n + 1 from hlt.ne)]
        exact ⟨_, rfl⟩
      · rw [if_neg (show ¬ ((0 : Fin (n + 1)) : ℕ) < (dynOf t.set.locations).nRows from h0)]
        exact ⟨_, rfl⟩
    obtain ⟨er, he⟩ := this
    simp only [taskStep, hrun, gpuPredict, hbind, Res.bind, he]
  · intro hlt
    have : weightRowsCuda ⟨false, some (dynOf t.set.locations, dynOf t.set.coords)⟩ ⟨bw, a, kn⟩ (n + 1) (n + 1) = .ub := by
      simp only [weightRowsCuda, Res.tabulate, weightVectorCuda, CRSDistance.distanceCuda]
      rw [if_pos (show ((0 : Fin (n + 1)) : ℕ) < (dynOf t.set.locations).nRows from by show (0 : ℕ) < m; omega),
        if_pos (show (dynOf t.set.coords).nRows < (dynOf t.set.locations).nRows from hlt)]
      rfl
    simp only [taskStep, hrun, gpuPredict, hbind, Res.bind, this]

/-! ## A whole session -/

/-- Calls that need no particular state. -/
def Plain (n k : ℕ) : TaskOp → Prop
  | .setX i j _ => (∃ a : Fin n, i = (a : ℕ)) ∧ ∃ b : Fin k, j = (b : ℕ)
  | .setY i _ => ∃ a : Fin n, i = (a : ℕ)
  | .setCoords i u _ => (∃ a : Fin n, i = (a : ℕ)) ∧ (u = 0 ∨ u = 1)
  | .setBandwidthSize _ => True
  | .setBandwidthAdaptive _ => True
  | .setBandwidthKernel i => kernelOf i ≠ none
  | _ => False

theorem plain_calls : ∀ (ops : List TaskOp) (t : Task n k m), (∀ op ∈ ops, Plain n k op) →
    ∃ t', taskCalls t ops = .ok t' ∧ t'.set.distance = t.set.distance ∧ t'.set.optBandwidth = t.set.optBandwidth ∧ t'.set.optVars = t.set.optVars
  | [], t, _ => ⟨t, rfl, rfl, rfl, rfl⟩
  | op :: ops, t, h => by
    have hop : ∃ t1 o, taskStep t op = .ok (t1, o) ∧ t1.set.distance = t.set.distance ∧ t1.set.optBandwidth = t.set.optBandwidth ∧
        t1.set.optVars = t.set.optVars := by
      have := h op (by simp)
      cases op <;> simp only [Plain] at this
      case setX i j v =>
        obtain ⟨⟨a, rfl⟩, b, rfl⟩ := this
        simp only [taskStep, indexOf_eq.2 (rfl : (((a : Fin n) : ℕ) : ℤ) = (a : ℕ)), indexOf_eq.2 (rfl : (((b : Fin k) : ℕ) : ℤ) = (b : ℕ))]
        exact ⟨_, _, rfl, rfl, rfl, rfl⟩
      case setY i v =>
        obtain ⟨a, rfl⟩ := this
        simp only [taskStep, indexOf_eq.2 (rfl : (((a : Fin n) : ℕ) : ℤ) = (a : ℕ))]
        exact ⟨_, _, rfl, rfl, rfl, rfl⟩
      case setCoords i u v =>
        obtain ⟨⟨a, rfl⟩, hu⟩ := this
        obtain ⟨q, hq⟩ : ∃ q, toUword u = .ok q := ⟨_, if_pos (by rcases hu with rfl | rfl <;> norm_num)⟩
        simp only [taskStep, writePoint, hq, Res.bind]
        cases indexOf n (a : ℕ) <;> cases indexOf 2 q <;> exact ⟨_, _, rfl, rfl, rfl, rfl⟩
      case setBandwidthSize b => exact ⟨_, _, rfl, rfl, rfl, rfl⟩
      case setBandwidthAdaptive b => exact ⟨_, _, rfl, rfl, rfl, rfl⟩
      case setBandwidthKernel i =>
        obtain ⟨kn, hk⟩ := Option.ne_none_iff_exists'.1 this
        simp only [taskStep, hk]
        exact ⟨_, _, rfl, rfl, rfl, rfl⟩
    obtain ⟨t1, o, e1, e2, e3, e4⟩ := hop
    obtain ⟨t', f1, f2, f3, f4⟩ := plain_calls ops t1 fun op ho => h op (by simp [ho])
    refine ⟨t', ?_, f2.trans e2, f3.trans e3, f4.trans e4⟩
    simp only [taskCalls, e1, Res.bind]
    exact f1

/-- Observations `0`, `1`, …, at the places (0, 0), (1, 0), …, with an intercept and the responses `y`. -/
def exData (y : ℕ → ℝ) (N : ℕ) : List TaskOp :=
  (List.range N).flatMap fun i : ℕ => [.setX i 0 1, .setY i (y i), .setCoords i 0 i, .setCoords i 1 0]

/-- A fixed boxcar kernel of radius 3/2. -/
noncomputable def exKernel : List TaskOp := [.setBandwidthSize (3 / 2), .setBandwidthAdaptive false, .setBandwidthKernel 4]

theorem exData_succ (y : ℕ → ℝ) (N : ℕ) : exData y (N + 1) = exData y N ++ [.setX N 0 1, .setY N (y N), .setCoords N 0 N, .setCoords N 1 0] := by
  simp [exData, List.range_succ, List.flatMap_append]

/-- What is given once for every observation. -/
theorem exData_gives {α : Type} (y : ℕ → ℝ) (f : TaskOp → Option α) (i : ℕ) (v : List α)
    (h : ∀ j : ℕ, List.filterMap f [.setX j 0 1, .setY j (y j), .setCoords j 0 j, .setCoords j 1 0] = if j = i then v else []) :
    ∀ N, (exData y N).filterMap f = if i < N then v else []
  | 0 => by simp [exData]
  | N + 1 => by
    rw [exData_succ, List.filterMap_append, exData_gives y f i v h N, h N]
    by_cases h1 : N = i
    · subst h1; simp
    · rw [if_neg h1, List.append_nil]
      by_cases h2 : i < N
      · rw [if_pos h2, if_pos (by omega)]
      · rw [if_neg h2, if_neg (by omega)]

/-- Distances on the line. -/
noncomputable def lineDist (N : ℕ) (i l : Fin N) : ℝ := |((l : ℕ) : ℝ) - (i : ℕ)|

theorem lineDist_ne (N : ℕ) (i l : Fin N) : lineDist N i l ≠ 3 / 2 := by
  intro h
  have h1 : ((2 * |((l : ℕ) : ℤ) - (i : ℕ)| : ℤ) : ℝ) = ((3 : ℤ) : ℝ) := by
    push_cast
    unfold lineDist at h
    linarith
  have h2 : 2 * |((l : ℕ) : ℤ) - (i : ℕ)| = 3 := by exact_mod_cast h1
  omega

theorem lineDist_weight (N : ℕ) : IsKernelWeight ⟨3 / 2, false, .Boxcar⟩ (lineDist N) fun i l => if lineDist N i l < 3 / 2 then 1 else 0 := fun i =>
  ⟨3 / 2, by simp [IsRadius], fun l => rfl⟩

theorem lineDist_device (N : ℕ) : DeviceBandwidth ⟨3 / 2, false, .Boxcar⟩ (lineDist N) := by
  refine ⟨fun _ => ?_, by simp, fun _ i r hr l => ?_⟩
  · have := hundred_lt_dblMax; dsimp only; intro h; linarith
  · simp only [IsRadius, Bool.false_eq_true, if_false] at hr
    rw [hr]; exact lineDist_ne N i l

/-- A session that enters data and settings and fits, for any number of observations and any responses: the fit returns true, and what can be read are the
regressions on each observation and its neighbours. -/
theorem ex_task_session (N : ℕ) (hN : 64 ≤ N) (y : ℕ → ℝ) (x0 : Matrix (Fin N) (Fin 1) ℝ) (y0 : Fin N → ℝ) (c0 : Matrix (Fin N) (Fin 2) ℝ)
    (l0 : Matrix (Fin 0) (Fin 2) ℝ) (e : TaskEnv) (hi : Bool) :
    ∃ (t t' : Task N 1 0) (g : GWRReport N 1) (C : Fin N → Fin 1 → Fin N → ℝ), taskCalls (.create x0 y0 c0 l0 0) (exData y N ++ exKernel) = .ok t ∧
      taskStep t (.fit e hi) = .ok (t', .ret true) ∧ TaskReports t' g ∧
      IsGWRReport (ones N) (fun i => y i) (fun i l => if lineDist N i l < 3 / 2 then 1 else 0) (decide (N < 8192)) false g C := by
  have hplain : ∀ op ∈ exData y N ++ exKernel, Plain N 1 op := by
    intro op hop
    rw [List.mem_append] at hop
    rcases hop with hop | hop
    · unfold exData at hop
      rw [List.mem_flatMap] at hop
      obtain ⟨i, hi, hop⟩ := hop
      rw [List.mem_range] at hi
      simp only [List.mem_cons, List.not_mem_nil, or_false] at hop
      rcases hop with rfl | rfl | rfl | rfl
      · exact ⟨⟨⟨i, hi⟩, rfl⟩, 0, rfl⟩
      · exact ⟨⟨i, hi⟩, rfl⟩
      · exact ⟨⟨⟨i, hi⟩, rfl⟩, Or.inl rfl⟩
      · exact ⟨⟨⟨i, hi⟩, rfl⟩, Or.inr rfl⟩
    · simp only [exKernel, List.mem_cons, List.not_mem_nil, or_false] at hop
      rcases hop with rfl | rfl | rfl
      · trivial
      · trivial
      · simp [Plain, kernelOf]
  obtain ⟨t, ht, h1, h2, h3⟩ := plain_calls _ (Task.create x0 y0 c0 l0 0) hplain
  obtain ⟨dx, dy, db, da, dk⟩ := C128_data_entry _ _ _ ht
  have gx : t.set.x = ones N := by
    ext i j
    have := exData_gives y (givesX i j) i [1] (fun q => by
      obtain rfl := Subsingleton.elim j 0
      by_cases hq : q = i <;> simp [givesX, List.filterMap_cons, hq]) N
    rw [dx i j, lastGiven, List.filterMap_append, this, if_pos i.isLt]
    simp [exKernel, givesX, List.filterMap_cons, ones]
  have gy : t.set.y = fun i : Fin N => y i := by
    ext i
    have := exData_gives y (givesY i) i [y i] (fun q => by
      by_cases hq : q = i <;> simp [givesX, givesY, List.filterMap_cons, hq]) N
    rw [dy i, lastGiven, List.filterMap_append, this, if_pos i.isLt]
    simp [exKernel, givesY, List.filterMap_cons]
  have gc : ∀ i, t.set.coords i = ![((i : ℕ) : ℝ), 0] := fun i => by
    refine C128_location_two_calls _ _ _ ht i _ _ ?_
    have := exData_gives y (givesPoint i) i [(0, ((i : ℕ) : ℝ)), (1, 0)] (fun q => by
      by_cases hq : q = i <;> simp [givesPoint, List.filterMap_cons, hq]) N
    rw [List.filterMap_append, this, if_pos i.isLt]
    simp [exKernel, givesPoint, List.filterMap_cons]
  have none' : ∀ {α : Type} (f : TaskOp → Option α), (∀ i j v, f (.setX i j v) = none) → (∀ i v, f (.setY i v) = none) →
      (∀ i u v, f (.setCoords i u v) = none) → List.filterMap f (exData y N) = [] := fun f f1 f2 f3 => by
    have := exData_gives y f 0 [] (fun q => by simp [f1, f2, f3]) N
    simpa using this
  have gb : t.set.bandwidth = some (3 / 2) := by
    rw [db, lastGiven, List.filterMap_append, none' _ (fun _ _ _ => rfl) (fun _ _ => rfl) fun _ _ _ => rfl]; rfl
  have ga : t.set.adaptive = some false := by
    rw [da, lastGiven, List.filterMap_append, none' _ (fun _ _ _ => rfl) (fun _ _ => rfl) fun _ _ _ => rfl]; rfl
  have gk : t.set.kernel = some .Boxcar := by
    rw [dk, lastGiven, List.filterMap_append, none' _ (fun _ _ _ => rfl) (fun _ _ => rfl) fun _ _ _ => rfl]
    simp [exKernel, givesKernel, kernelOf, List.filterMap_cons]
  have hd : IsMapDistance (m := N) (n := N) false (dynOf t.set.coords) (dynOf t.set.coords) (lineDist N) := by
    intro i l
    simp only [dynOf, i.isLt, l.isLt, gc, plane, lineDist]
    simp [Real.sqrt_sq_eq_abs]
  obtain ⟨f, -⟩ := C128_fit_partial t hN false (Or.inl h1) (3 / 2) false .Boxcar gb ga gk h2 h3 (lineDist N) _ hd (usable_fixed (by norm_num) _ _)
    (lineDist_device N) (lineDist_weight N) e hi
  rw [gx, gy] at f
  obtain ⟨t', g, C, e1, -, e2, e3⟩ := f fun i => ones_det (fun l => by split <;> norm_num) ⟨i, by simp [lineDist]⟩
  exact ⟨t, t', g, C, ht, e1, e2, e3⟩

/-- A prediction at the places of 64 observations on the line. -/
example (y : Fin 64 → ℝ) (ρ : TaskResults 64) (hi : Bool) :
    let c : Matrix (Fin 64) (Fin 2) ℝ := fun i => ![((i : ℕ) : ℝ), 0]
    let t : Task 64 1 64 := ⟨⟨ones 64, y, c, c, some (.crs false), some (3 / 2), some false, some .Boxcar, false, .CV, false, 3⟩, ρ⟩
    ∃ (t' : Task 64 1 64) (B : Matrix (Fin 64) (Fin 1) ℝ), taskStep t (.predict hi) = .ok (t', .ret true) ∧
      (∀ (i : Fin 64) (j : Fin 1), t'.betas (i : ℕ) (j : ℕ) = .ok (B i j)) ∧
      ∀ i, IsWLS (ones 64) y (fun l => if lineDist 64 i l < 3 / 2 then 1 else 0) (B i) := by
  intro c t
  have hd : IsMapDistance (m := 64) (n := 64) false (dynOf t.set.locations) (dynOf t.set.coords) (lineDist 64) := by
    intro i l
    simp only [dynOf, i.isLt, l.isLt, plane, lineDist]
    simp [Real.sqrt_sq_eq_abs, t, c]
  obtain ⟨f, -⟩ := C128_predict_partial t (le_refl _) false (Or.inl rfl) (3 / 2) false .Boxcar rfl rfl rfl (lineDist 64) _ hd (usable_fixed (by norm_num) _ _)
    (lineDist_device 64) (lineDist_weight 64) hi
  obtain ⟨t', B, e1, e2, e3, -⟩ := f fun i => ones_det (fun l => by split <;> norm_num) ⟨i, by simp [lineDist]⟩
  exact ⟨t', B, e1, e2, e3⟩

/-- Two different histories with the same final settings. -/
example (x : Matrix (Fin n) (Fin k) ℝ) (y : Fin n → ℝ) (c : Matrix (Fin n) (Fin 2) ℝ) (l : Matrix (Fin m) (Fin 2) ℝ) :
    ∃ t t' : Task n k m, taskCalls (.create x y c l 0) [.setBandwidthSize 5, .setGeographic true, .setBandwidthSize 7] = .ok t ∧
      taskCalls (.create x y c l 1) [.setBandwidthSize 7, .setDistanceType 0, .setGeographic true] = .ok t' ∧ t.set = t'.set :=
  ⟨_, _, rfl, rfl, rfl⟩

/-- Exponent and angle are chosen. -/
example (x : Matrix (Fin n) (Fin k) ℝ) (y : Fin n → ℝ) (c : Matrix (Fin n) (Fin 2) ℝ) (l : Matrix (Fin m) (Fin 2) ℝ) :
    ∃ t : Task n k m, taskCalls (.create x y c l 1) [.setPoly 1, .setBandwidthSize 5, .setTheta 2] = .ok t := ⟨_, rfl⟩

end Verif.Props

import Verif.Props.Config
import Verif.Props.CuMat
import Verif.Props.Progress
import Verif.Props.SpatialWeight
import Verif.Props.Distance

/-! # Concrete cases for the theorems of `Props/Config`, `Props/CuMat`, `Props/Progress` and `Props/SpatialWeight` -/

namespace Verif.Cases
open Verif Verif.Model Verif.Spec Verif.Props Matrix Classical

/-! ## Settings: a build with OpenMP and MPI, without CUDA; one history of setter calls per class -/

def someBuild : Build := ⟨true, true, false⟩
def basicCalls : List BasicOp := [.criterion .CV, .par .OpenMP, .hasHat true, .storeS false, .goldenLower 1, .criterion .AIC, .threads 4]
def ompCalls : List OmpOp := [.par .OpenMP, .criterion .AIC]

example := C47_default_violates (T := 2) someBuild []
example := C47_gwdr someBuild ompCalls
example := (C47_gtwr_partial someBuild ompCalls).1 ⟨.criterion .AIC, by simp [ompCalls], trivial⟩
example := (C47_lcr_partial someBuild ompCalls).2 rfl
example := C95_basic someBuild basicCalls
example := C95_robust_partial someBuild basicCalls
example := C95_lcr_reports_omp ⟨false, true, true⟩ rfl
example := C95_discriminant someBuild [.OpenMP, .CUDA]
example := C95_multiscale_partial someBuild [.OpenMP, .MPI_MP] .CV
example := C48_basic someBuild basicCalls
example := C48_storeS_violates someBuild
example := C48_storeS_partial someBuild basicCalls
example := C48_regression_data_violates someBuild
example (x : Matrix (Fin 3) (Fin 2) ℝ) (y : Fin 3 → ℝ) :=
  C96_robust_violates someBuild basicCalls 3 7 ⟨false, some (lineCoords 10, lineCoords 10)⟩ ⟨5, false, .Gaussian⟩ x y

theorem genCalls_ok : ∃ s, GenCfg.run someBuild .new ([.family .Binomial] ++ .criterion .AIC :: [.par .SerialOnly]) = .ok s := ⟨_, rfl⟩

example := C47_generalized_partial someBuild .AIC [.family .Binomial] [.par .SerialOnly] _ genCalls_ok.choose_spec
example := C48_generalized_partial someBuild _ _ genCalls_ok.choose_spec
example := C95_generalized_violates someBuild .Poisson .MPI_Serial (.inl rfl)
example : ∃ s, GenCfg.run someBuild .new ([.family .Binomial] ++ .criterion .AIC :: [.par .SerialOnly]) = .ok s ∧
    s.fitCall = .ok (.Binomial, .serial) :=
  ⟨_, rfl, (C95_generalized_partial someBuild ([.family .Binomial] ++ .criterion .AIC :: [.par .SerialOnly]) _ rfl .Binomial rfl).1 rfl⟩

/-! ## Device matrices and distances -/

example := C49_freed_once_partial [.create 0 8, .copy 1 0, .move 2 0, .copyAssign 2 1, .moveAssign 0 1, .view 3 2, .destroy 3, .destroy 0,
    .destroy 1, .destroy 2] (by
  simp [DisciplinedRun, Disciplined, CuHeap.step, CuHeap.empty, CuHeap.alloc, CuHeap.set, CuHeap.free, CuHeap.canCopy, Owns,
    Function.update_apply])

example := C10_clone_same_partial ⟨false, some (exampleCoords, exampleCoords)⟩ ⟨⟨false, some (exampleCoords, exampleCoords)⟩, 3, 0⟩ 1

/-! ## Progress -/

example := C130_parallel_partial (n := 3) (T := 1) (fun p => p == 2) _ (seqEvents_schedule (fun _ => 0) (List.finRange 3))
example (ok stop : ℕ → Bool) := C130_gpu (n := 5) (G := 2) (by norm_num) (by norm_num) ok stop
example (stop1 stop2 : ℕ → Bool) := C130_scalable (n := 3) (by norm_num) (fun _ => Res.ok ()) (fun _ _ (s : Unit) => s) () stop1 stop2
/-- A search that fails once between two evaluations reports two percentages. -/
example : (searchPercents 0 [3, dblMax, 5]).length = 2 := by
  have h := (C130_percent_successive 0 0 [3, dblMax, 5]).1.1
  have := hundred_lt_dblMax
  have h3 : (3 : ℝ) ≠ dblMax := by intro h; linarith
  have h5 : (5 : ℝ) ≠ dblMax := by intro h; linarith
  simpa [h3, h5] using h
example := C130_percent_back 5 1 (by have := hundred_lt_dblMax; intro h; linarith) (by have := hundred_lt_dblMax; intro h; linarith)

/-! ## Weighting objects: two outside objects, a weighting built on them, a copy of it -/

noncomputable def swOps : List (SWOp ℕ) := [.extNew 7, .extNew 8, .constructFrom 0 (some 0) (some 1), .copyConstruct 1 0]

theorem sw_history : ∃ s : SWState ℕ, History id .empty swOps s ∧
    (Allowed s (.write 1 .w 9) ∧ Allowed s (.copyConstruct 2 0) ∧ Allowed s (.copyAssign 1 0) ∧ Allowed s (.setRef 1 .d 0) ∧
      Allowed s (.moveConstruct 2 1)) ∧ s.cells 0 = some 7 ∧ ∃ a, s.ptr 1 .w = some a := by
  have h0 := History.nil (cl := id) (V := ℕ) .empty
  have h1 := History.snoc (op := .extNew 7) h0 trivial rfl
  have h2 := History.snoc (op := .extNew 8) h1 trivial rfl
  have h3 := History.snoc (op := .constructFrom 0 (some 0) (some 1)) h2
    ⟨rfl, ⟨0, rfl, by simp [Live, SWState.extNew, SWState.empty]⟩, ⟨1, rfl, by
      simp [Live, SWState.extNew, SWState.empty]⟩⟩ rfl
  have h4 := History.snoc (op := .copyConstruct 1 0) h3 ⟨rfl, rfl, by simp [Valid]⟩ rfl
  refine ⟨_, h4, ⟨⟨rfl, by simp⟩, ⟨rfl, rfl, ?_, ?_⟩, ⟨rfl, rfl, ?_, ?_⟩, ⟨rfl, ?_, ?_⟩, ⟨rfl, rfl⟩⟩, rfl, ⟨_, rfl⟩⟩
  · decide
  · decide
  · decide
  · decide
  · change _ ≠ none
    decide
  · decide

noncomputable def swS : SWState ℕ := sw_history.choose
theorem swS_history : History id .empty swOps swS := sw_history.choose_spec.1
theorem swS_allowed : Allowed swS (.write 1 .w 9) ∧ Allowed swS (.copyConstruct 2 0) ∧ Allowed swS (.copyAssign 1 0) ∧ Allowed swS (.setRef 1 .d 0) ∧
    Allowed swS (.moveConstruct 2 1) := sw_history.choose_spec.2.1
theorem swS_step (op : SWOp ℕ) (h : Allowed swS op) : ∃ t, op.step id swS = .ok t := C13_memory_safe id swOps swS swS_history op h

example := C13_memory_safe id swOps swS swS_history _ swS_allowed.1
example := C13_no_sharing id swOps swS swS_history
example := C13_isolation id swOps swS _ swS_history _ swS_allowed.1 (swS_step _ swS_allowed.1).choose_spec 0 (by simp [touches]) .w
example := C13_copy_values id swOps swS _ swS_history 2 0 swS_allowed.2.1 (swS_step _ swS_allowed.2.1).choose_spec .d
example := C13_assign_values id swOps swS _ swS_history 1 0 (by norm_num) swS_allowed.2.2.1 (swS_step _ swS_allowed.2.2.1).choose_spec .d
example := C13_set_values id swOps swS _ swS_history 1 .d 0 7 sw_history.choose_spec.2.2.1 swS_allowed.2.2.2.1 (swS_step _ swS_allowed.2.2.2.1).choose_spec
example := C13_move_values id swOps swS _ swS_history 2 1 swS_allowed.2.2.2.2 (swS_step _ swS_allowed.2.2.2.2).choose_spec .w
example := C13_value_semantics id swOps swS _ swS_history _ swS_allowed.2.2.1 (swS_step _ swS_allowed.2.2.1).choose_spec 1 .w
example := C13_self_reference_ub id swS ⟨_, swS_history⟩ 1 .w _ sw_history.choose_spec.2.2.2.choose_spec

/-- After the weighting is destroyed only the two outside objects remain. -/
example : ∃ s : SWState ℕ, History id .empty [.extNew 7, .extNew 8, .constructFrom 0 (some 0) (some 1), .destroy 0] s ∧ ∀ a, Live s a → s.ext a = true := by
  have h0 := History.nil (cl := id) (V := ℕ) .empty
  have h1 := History.snoc (op := .extNew 7) h0 trivial rfl
  have h2 := History.snoc (op := .extNew 8) h1 trivial rfl
  have h3 := History.snoc (op := .constructFrom 0 (some 0) (some 1)) h2
    ⟨rfl, ⟨0, rfl, by simp [Live, SWState.extNew, SWState.empty]⟩, ⟨1, rfl, by
      simp [Live, SWState.extNew, SWState.empty]⟩⟩ rfl
  have h4 := History.snoc (op := .destroy 0) h3 rfl rfl
  refine ⟨_, h4, C13_no_leak id _ _ h4 fun i => ?_⟩
  rcases i with _ | i <;> rfl

end Verif.Cases

import Verif.Model.Config
import Verif.Spec.History
import Verif.Spec.Parallel
import Verif.Props.GWRRun
import Verif.Props.GWRGeneralized

/-!
# Configuration: setters, getters and the functions that run (C47, C48, C95, C96)
-/

namespace Verif.Props
open Verif Verif.Model Verif.Spec Matrix

variable {n k T : ℕ}

/-- A getter that each call either sets or leaves alone returns the last value written. -/
theorem lastWrite_foldl {Op S α : Type*} (step : S → Op → S) (get : S → α) (f : Op → Option α)
    (h : ∀ s o, get (step s o) = (f o).getD (get s)) (s : S) (l : List Op) : get (l.foldl step s) = lastWrite f (get s) l := by
  unfold lastWrite
  induction l using List.reverseRecOn with
  | nil => rfl
  | append_singleton l o ih =>
    rw [List.foldl_append, List.foldl_cons, List.foldl_nil, h, ih, List.filterMap_append]
    cases hf : f o with
    | none => simp [hf]
    | some v => simp [hf]

/-- The bit test of the library, spelled out. -/
theorem accepted_cuda (B : Build) (t : ParType) : accepted (cudaAbility B) t = takes B.openmp B.cuda t := by
  obtain ⟨a, b, c⟩ := B
  cases a <;> cases b <;> cases c <;> cases t <;> decide

theorem accepted_omp (B : Build) (t : ParType) : accepted (ompAbility B) t = takes B.openmp false t := by
  obtain ⟨a, b, c⟩ := B
  cases a <;> cases b <;> cases c <;> cases t <;> decide

theorem accepted_lcr (t : ParType) : accepted lcrAbility t = takes true false t := by cases t <;> decide

theorem ompImpl_named (B : Build) (t : ParType) : ompImpl B t = namedLocal B t := by cases t <;> rfl

theorem hasMpi_distributed (t : ParType) : t.hasMpi = distributed t := by cases t <;> decide

/-! ## GWRBasic -/

/-- A call that refreshes the function pointers: choosing a criterion, or choosing an accepted parallel type. -/
def Refreshes (B : Build) : BasicOp → Prop
  | .criterion _ => True
  | .par t => takes B.openmp B.cuda t = true
  | _ => False

/-- Pointers and reported values agree. -/
def InStep (B : Build) (s : BasicCfg) : Prop :=
  s.criterionFn = s.criterion ∧ s.criterionMpi = (B.mpi && s.par.hasMpi)

theorem inStep_refresh {B : Build} {s : BasicCfg} {o : BasicOp} (h : Refreshes B o) : InStep B (s.step B o) := by
  cases o with
  | criterion c => cases c <;> exact ⟨rfl, rfl⟩
  | par t =>
    have ht : accepted (cudaAbility B) t = true := (accepted_cuda B t).trans h
    simp only [BasicCfg.step, BasicCfg.setPar, ht, if_true]
    refine ⟨?_, rfl⟩
    simp only [BasicCfg.setCriterion]
    cases s.criterion <;> rfl
  | _ => exact absurd h id

theorem inStep_step {B : Build} {s : BasicCfg} (o : BasicOp) (h : InStep B s) : InStep B (s.step B o) := by
  by_cases hr : Refreshes B o
  · exact inStep_refresh hr
  · cases o with
    | criterion c => exact absurd trivial hr
    | par t =>
      have ht : ¬ accepted (cudaAbility B) t = true := fun h => hr ((accepted_cuda B t).symm.trans h)
      simp only [BasicCfg.step, BasicCfg.setPar, if_neg ht]
      exact h
    | _ => exact h

theorem inStep_foldl {B : Build} (l : List BasicOp) {s : BasicCfg} (h : InStep B s) : InStep B (l.foldl (BasicCfg.step B) s) := by
  induction l generalizing s with
  | nil => exact h
  | cons o l ih => exact ih (inStep_step o h)

theorem inStep_after {B : Build} {h : List BasicOp} {o : BasicOp} (ho : o ∈ h) (hr : Refreshes B o) : InStep B (BasicCfg.after B h) := by
  obtain ⟨a, b, rfl⟩ := List.append_of_mem ho
  unfold BasicCfg.after
  rw [List.foldl_append, List.foldl_cons]
  exact inStep_foldl b (inStep_refresh hr)

/-- The four implementation pointers name the implementation of the reported parallel type. -/
def ImplInStep (B : Build) (s : BasicCfg) : Prop :=
  s.predictFn = basicImpl B s.par ∧ s.fitCoreFn = basicImpl B s.par ∧ s.fitCoreCVFn = basicImpl B s.par ∧
    s.fitCoreSHatFn = basicImpl B s.par ∧ s.fitMpi = (B.mpi && s.par.hasMpi) ∧ s.varCriterionMpi = (B.mpi && s.par.hasMpi)

theorem implInStep_after (B : Build) (h : List BasicOp) : ImplInStep B (BasicCfg.after B h) := by
  have key : ∀ (l : List BasicOp) (s : BasicCfg), ImplInStep B s → ImplInStep B (l.foldl (BasicCfg.step B) s) := by
    intro l
    induction l with
    | nil => exact fun s h => h
    | cons o l ih =>
      intro s hs
      refine ih _ ?_
      cases o with
      | par t =>
        by_cases ht : accepted (cudaAbility B) t = true
        · simp only [BasicCfg.step, BasicCfg.setPar, if_pos ht, BasicCfg.setCriterion]
          obtain ⟨-, -, -, -, h5, h6⟩ := hs
          refine ⟨rfl, rfl, rfl, rfl, ?_, ?_⟩ <;> (cases hB : B.mpi <;> simp_all)
        · simp only [BasicCfg.step, BasicCfg.setPar, if_neg ht]
          exact hs
      | _ => exact hs
  refine key h _ ⟨rfl, rfl, rfl, rfl, ?_, ?_⟩ <;> simp [BasicCfg.new, ParType.hasMpi, ParType.bits]

/-- **C47 (basic GWR), partial.** After every sequence of setter calls that contains a choice of criterion or an accepted choice of
parallel type, the bandwidth search evaluates the criterion that the getter reports: in serial mode the serial one, in multithreaded mode
the multithreaded one. Missing: an object on which neither was called (`C47_default_violates`). -/
theorem C47_basic_partial (B : Build) (h : List BasicOp) (o : BasicOp) (ho : o ∈ h) (hr : Refreshes B o) (d' : CRSDistance)
    (x : Matrix (Fin n) (Fin k) ℝ) (y : Fin n → ℝ) (evs : List (OmpEv (Fin n) (Fin T))) (b b0 : BandwidthWeight) :
    (BasicCfg.after B h).search d' b0 x y = gwrSelectBandwidth (BasicCfg.after B h).criterion d' b0 (BasicCfg.after B h).goldenLower
      (BasicCfg.after B h).goldenUpper x y ∧
    ((BasicCfg.after B h).par = .SerialOnly →
      (BasicCfg.after B h).evaluate d' x y evs b = some (gwrCriterion (BasicCfg.after B h).criterion d' x y b)) ∧
    (B.openmp = true → (BasicCfg.after B h).par = .OpenMP →
      (BasicCfg.after B h).evaluate d' x y evs b = some (gwrCriterionOmp (BasicCfg.after B h).criterion d' x y evs b)) := by
  obtain ⟨h1, h2⟩ := inStep_after ho hr
  obtain ⟨-, -, h3, h4, -, -⟩ := implInStep_after B h
  refine ⟨by unfold BasicCfg.search; rw [h1], fun hp => ?_, fun hB hp => ?_⟩
  · rw [hp] at h2 h3 h4
    unfold BasicCfg.evaluate
    rw [h2, h1, h3, h4]
    simp only [ParType.hasMpi, ParType.bits, basicImpl]
    cases (BasicCfg.after B h).criterion <;> simp
  · rw [hp] at h2 h3 h4
    unfold BasicCfg.evaluate
    rw [h2, h1, h3, h4]
    simp only [ParType.hasMpi, ParType.bits, basicImpl, hB, if_true]
    cases (BasicCfg.after B h).criterion <;> simp

example (B : Build) (evs : List (OmpEv (Fin 3) (Fin 2))) (hB : B.openmp = true) (b : BandwidthWeight) :
    (BasicCfg.after B [.criterion .CV, .autoBandwidth true, .par .OpenMP, .criterion .AIC]).evaluate ⟨false, some (lineCoords 10, lineCoords 10)⟩
      exX ![1, 2, 4] evs b = some (gwrCriterionOmp .AIC ⟨false, some (lineCoords 10, lineCoords 10)⟩ exX ![1, 2, 4] evs b) := by
  have ha : accepted (cudaAbility B) .OpenMP = true := by
    obtain ⟨a, b, c⟩ := B
    cases hB
    cases b <;> cases c <;> decide
  refine (C47_basic_partial B _ (.criterion .CV) (by simp) trivial _ _ _ evs b b).2.2 hB ?_
  simp [BasicCfg.after, BasicCfg.step, BasicCfg.setPar, ha, BasicCfg.setCriterion]

/-- For a response that follows an exact linear law the AIC criterion is never finite: the residual sum of squares is zero. -/
theorem aic_exact_law (d' : CRSDistance) (x : Matrix (Fin n) (Fin k) ℝ) (β : Fin k → ℝ) (b : BandwidthWeight) :
    gwrCriterion .AIC d' x (x *ᵥ β) b = dblMax := by
  unfold gwrCriterion
  cases hW : weightRows d' b n n with
  | throw e => rfl
  | ub => rfl
  | nonfinite => rfl
  | ok W =>
    simp only
    cases hs : fitCoreSHatSerial x (x *ᵥ β) W 0 n (fun _ => false) with
    | throw e => rfl
    | ub => rfl
    | nonfinite => rfl
    | ok r =>
      obtain ⟨⟨bt, sh⟩, t⟩ := r
      cases t with
      | true => simp only [criterionAIC]; split <;> simp
      | false =>
        have hc := serialFor_complete _ _ _ _ hs
        choose lf hlf using fun i : Fin n => hc i (mem_workRange.2 ⟨Nat.zero_le _, i.isLt⟩)
        have he := serialFor_ok (upd := shatUpd) (stop := fun _ => false) lf (workRange n 0 n) 0 (0, 0) (fun _ _ => rfl) (fun i _ => hlf i)
        have hb : ∀ i, bt i = β := by
          intro i
          have e := congrArg (fun r => r.1.1) (Res.ok.inj (hs.symm.trans he))
          simp only at e
          have hfst : ∀ (l : List (Fin n)) (s : Matrix (Fin n) (Fin k) ℝ × (Fin 2 → ℝ)),
              (l.foldl (fun s i => shatUpd i (lf i) s) s).1 = l.foldl (fun a i => Function.update a i (lf i).beta) s.1 := by
            intro l
            induction l with
            | nil => exact fun s => rfl
            | cons a l ih => exact fun s => ih _
          rw [e, hfst]
          have hbeta : (lf i).beta = β := by
            obtain ⟨hp, hb, -, -⟩ := localFit_eq_ok.1 (hlf i)
            rw [hb, ← xtwx_mulVec, inv_mul_gram hp]
          have := foldl_rows (fun i => (lf i).beta) (workRange n 0 n) (nodup_workRange n 0 n) (0 : Matrix (Fin n) (Fin k) ℝ) i
          rw [if_pos (mem_workRange.2 ⟨Nat.zero_le _, i.isLt⟩)] at this
          exact this.trans hbeta
        have hrss : rss x (x *ᵥ β) bt = 0 := by
          unfold rss
          refine Finset.sum_eq_zero fun i _ => ?_
          have : (x *ᵥ β) i - fitted x bt i = 0 := by
            unfold fitted
            rw [hb i, mulVec_eq, sub_eq_zero]
            exact Finset.sum_congr rfl fun j _ => mul_comm _ _
          rw [this, mul_zero]
        have ha : ∀ v, aicc x (x *ᵥ β) bt (sh 0) ≠ .ok v := by
          intro v hv
          unfold aicc at hv
          obtain ⟨q, hq, hv⟩ := Res.bind_eq_ok'.1 hv
          obtain ⟨l, hl, -⟩ := Res.bind_eq_ok'.1 hv
          rw [hrss] at hq
          have hq0 : q = 0 := by
            unfold fdiv at hq
            split at hq
            · cases hq
            · rw [← Res.ok.inj hq, zero_div]
          rw [hq0, flog, if_pos le_rfl] at hl
          cases hl
        simp only [criterionAIC]

/-- The cross-validation criterion of the example on the line is zero for large bandwidths. -/
theorem line_cv (bw : ℝ) (hbw : 100 ≤ bw) : gwrCriterion .CV ⟨false, some (lineCoords 10, lineCoords 10)⟩ exX (exX *ᵥ ![2, 3])
    ⟨bw, false, .Boxcar⟩ = 0 := by
  have hW : ∀ i j : Fin 3, (if |(10 : ℝ)| * |((j : ℕ) : ℝ) - (i : ℕ)| < bw then (1 : ℝ) else 0) = 1 := by
    intro i j
    rw [if_pos]
    have h1 : |((j : ℕ) : ℝ) - (i : ℕ)| ≤ 2 := by
      have hi : ((i : ℕ) : ℝ) ≤ 2 := by exact_mod_cast Nat.lt_succ_iff.1 i.isLt
      have hj : ((j : ℕ) : ℝ) ≤ 2 := by exact_mod_cast Nat.lt_succ_iff.1 j.isLt
      have hi0 : (0 : ℝ) ≤ (i : ℕ) := Nat.cast_nonneg _
      have hj0 : (0 : ℝ) ≤ (j : ℕ) := Nat.cast_nonneg _
      rw [abs_le]; constructor <;> linarith
    rw [abs_of_pos (by norm_num : (0 : ℝ) < 10)]
    linarith
  unfold gwrCriterion
  rw [line_weights]
  simp only
  have e : fitCoreCVSerial exX (exX *ᵥ ![2, 3]) _ 0 3 (fun _ => false) = _ :=
    serialFor_ok (fun _ => (![2, 3] : Fin 2 → ℝ)) _ 0 _ (fun _ _ => rfl) (fun i _ => localBeta_eq_ok.2 ⟨exX_loo _ hW i, by
      rw [← xtwx_mulVec, inv_mul_gram (exX_loo _ hW i)]⟩)
  rw [e]
  have hb := betaLoop_ok (nodup_workRange 3 0 3) e
  simp only [criterionCV, and_self, if_true]
  have hr : ∀ i, (List.foldl (fun s i => setRow i (![2, 3] : Fin 2 → ℝ) s) (0 : Matrix (Fin 3) (Fin 2) ℝ) (workRange 3 0 3)) i =
      ![2, 3] := by
    intro i
    have := (localBeta_eq_ok.1 (hb.1 i (mem_workRange.2 ⟨Nat.zero_le _, i.isLt⟩))).2
    rw [← xtwx_mulVec, inv_mul_gram (exX_loo _ hW i)] at this
    exact this
  have hrss : rss exX (exX *ᵥ ![2, 3])
      (List.foldl (fun s i => setRow i (![2, 3] : Fin 2 → ℝ) s) (0 : Matrix (Fin 3) (Fin 2) ℝ) (workRange 3 0 3)) = 0 := by
    unfold rss
    refine Finset.sum_eq_zero fun i _ => ?_
    have : (exX *ᵥ ![2, 3]) i - fitted exX
        (List.foldl (fun s i => setRow i (![2, 3] : Fin 2 → ℝ) s) (0 : Matrix (Fin 3) (Fin 2) ℝ) (workRange 3 0 3)) i = 0 := by
      unfold fitted
      rw [hr i, mulVec_eq]
      rw [sub_eq_zero]
      exact Finset.sum_congr rfl fun j _ => mul_comm _ _
    rw [this, mul_zero]
  rw [hrss, finiteOrMax, abs_zero]
  split <;> [rfl; (rename_i h; exact absurd ((by norm_num : (0 : ℝ) ≤ 1000).trans dblMax_big) h)]

/-- **C47 fails for an object on which neither setter was called.** A new object reports AIC and minimises cross-validation; the two
differ. Choosing the parallel type it already reports changes the criterion it minimises. -/
theorem C47_default_violates (B : Build) (evs : List (OmpEv (Fin 3) (Fin T))) :
    (BasicCfg.after B []).criterion = .AIC ∧ (BasicCfg.after B []).par = .SerialOnly ∧
    (BasicCfg.after B []).evaluate ⟨false, some (lineCoords 10, lineCoords 10)⟩ exX (exX *ᵥ ![2, 3]) evs ⟨150, false, .Boxcar⟩ = some 0 ∧
    (BasicCfg.after B [.par .SerialOnly]).evaluate ⟨false, some (lineCoords 10, lineCoords 10)⟩ exX (exX *ᵥ ![2, 3]) evs
      ⟨150, false, .Boxcar⟩ = some dblMax := by
  refine ⟨rfl, rfl, ?_, ?_⟩
  · exact congrArg some (line_cv 150 (by norm_num))
  · have hacc : accepted (cudaAbility B) .SerialOnly = true := by
      obtain ⟨a, b, c⟩ := B
      cases a <;> cases b <;> cases c <;> decide
    have := (C47_basic_partial B [.par .SerialOnly] (.par .SerialOnly) (List.mem_singleton_self _)
      ((accepted_cuda B _).symm.trans hacc)
      ⟨false, some (lineCoords 10, lineCoords 10)⟩ exX (exX *ᵥ ![2, 3]) evs ⟨150, false, .Boxcar⟩ ⟨150, false, .Boxcar⟩).2.1
    have e1 : (BasicCfg.after B [.par .SerialOnly]).par = .SerialOnly := by
      simp [BasicCfg.after, BasicCfg.step, BasicCfg.setPar, hacc, BasicCfg.setCriterion]
    have e2 : (BasicCfg.after B [.par .SerialOnly]).criterion = .AIC := by
      simp [BasicCfg.after, BasicCfg.step, BasicCfg.setPar, hacc, BasicCfg.setCriterion, BasicCfg.new]
    rw [this e1, e2, aic_exact_law]

/-! ## Other classes -/

/-- **C47 (density regression).** After every sequence of setter calls the criterion minimised is the one reported. -/
theorem C47_gwdr (B : Build) (h : List OmpOp) :
    (h.foldl (gwdrStep B) gwdrNew).minimised = .ok (h.foldl (gwdrStep B) gwdrNew).criterion := by
  have key : ∀ (l : List OmpOp) (s : OmpCfg), s.minimised = .ok s.criterion →
      (l.foldl (gwdrStep B) s).minimised = .ok (l.foldl (gwdrStep B) s).criterion := by
    intro l
    induction l with
    | nil => exact fun s h => h
    | cons o l ih =>
      intro s _
      refine ih _ ?_
      cases o <;> rfl
  exact key h _ rfl

/-- **C47 (space-time regression), partial.** As soon as a criterion or an accepted parallel type was chosen the criterion minimised is the
one reported; a new object reports AIC and minimises cross-validation. -/
theorem C47_gtwr_partial (B : Build) (h : List OmpOp) :
    ((∃ o ∈ h, match o with | .criterion _ => True | .par t => takes B.openmp false t = true) →
      (h.foldl (gtwrStep B) gtwrNew).minimised = .ok (h.foldl (gtwrStep B) gtwrNew).criterion) ∧
    gtwrNew.criterion = .AIC ∧ gtwrNew.minimised = .ok .CV := by
  refine ⟨?_, rfl, rfl⟩
  rintro ⟨o, ho, hr⟩
  have key : ∀ (l : List OmpOp) (s : OmpCfg), s.minimised = .ok s.criterion →
      (l.foldl (gtwrStep B) s).minimised = .ok (l.foldl (gtwrStep B) s).criterion := by
    intro l
    induction l with
    | nil => exact fun s h => h
    | cons o l ih =>
      intro s hs
      refine ih _ ?_
      cases o with
      | criterion c => rfl
      | par t =>
        simp only [gtwrStep]
        split
        · rfl
        · exact hs
  obtain ⟨a, b, rfl⟩ := List.append_of_mem ho
  rw [List.foldl_append, List.foldl_cons]
  refine key b _ ?_
  cases o with
  | criterion c => rfl
  | par t =>
    have ht : accepted (ompAbility B) t = true := (accepted_omp B t).trans hr
    simp only [gtwrStep, ht, if_true]
    rfl

/-- **C47 (ridge regression), partial.** The criterion minimised is the one reported as long as it is cross-validation; after AIC was chosen
the search calls a null pointer, whatever else was called, until another criterion is chosen. -/
theorem C47_lcr_partial (B : Build) (h : List OmpOp) :
    ((h.foldl (lcrStep B) lcrNew).criterion = .CV → (h.foldl (lcrStep B) lcrNew).minimised = .ok .CV) ∧
    ((h.foldl (lcrStep B) lcrNew).criterion = .AIC → (h.foldl (lcrStep B) lcrNew).minimised = .ub) := by
  have key : ∀ (l : List OmpOp) (s : OmpCfg), s.minimised = (match s.criterion with | .CV => .ok .CV | .AIC => .ub) →
      (l.foldl (lcrStep B) s).minimised = (match (l.foldl (lcrStep B) s).criterion with | .CV => .ok .CV | .AIC => .ub) := by
    intro l
    induction l with
    | nil => exact fun s h => h
    | cons o l ih =>
      intro s _
      refine ih _ ?_
      have : ∀ (c : Crit) (s : OmpCfg), (lcrSetCriterion B c s).minimised = (match (lcrSetCriterion B c s).criterion with
          | .CV => .ok .CV | .AIC => .ub) := by
        intro c s; cases c <;> rfl
      cases o with
      | criterion c => exact this c s
      | par t => exact this _ _
  have := key h lcrNew rfl
  constructor <;> intro hc <;> rw [this, hc]

example (B : Build) : ([OmpOp.criterion .AIC].foldl (lcrStep B) lcrNew).minimised = .ub := rfl

/-! ## GWRGeneralized -/

/-- Pointers agree with the reported values; they are null if the parallel type has no entry in the tables. -/
structure GenInStep (B : Build) (s : GenCfg) : Prop where
  fit : ∀ f, s.family = some f → s.fitFn = (genImpl B s.par).map fun i => (f, i)
  wt : ∀ f, s.family = some f → s.wtFn = (genImpl B s.par).map fun i => (f, i)

theorem genInStep_step {B : Build} {s s' : GenCfg} {o : GenOp} (hs : GenInStep B s) (h : s.step B o = .ok s') : GenInStep B s' := by
  cases o with
  | family f =>
    have := Res.ok.inj h
    subst this
    exact ⟨fun g hg => by cases hg; rfl, fun g hg => by cases hg; rfl⟩
  | par t =>
    change s.setPar B t = .ok s' at h
    unfold GenCfg.setPar at h
    split at h
    · simp only [GenCfg.setCriterion] at h
      cases hf : s.family with
      | none => rw [hf] at h; cases h
      | some f =>
        rw [hf] at h
        have := Res.ok.inj h
        subst this
        exact ⟨fun g hg => by cases hg; rfl, fun g hg => by cases hg; rfl⟩
    · have := Res.ok.inj h
      subst this; exact hs
  | _ =>
    have := Res.ok.inj h
    subst this
    exact ⟨hs.fit, hs.wt⟩

theorem genInStep_run {B : Build} : ∀ (h : List GenOp) {s s' : GenCfg}, GenInStep B s → GenCfg.run B s h = .ok s' → GenInStep B s'
  | [], s, s', hs, h => by have := Res.ok.inj h; subst this; exact hs
  | o :: l, s, s', hs, h => by
    obtain ⟨s1, h1, h2⟩ := Res.bind_eq_ok'.1 h
    exact genInStep_run l (genInStep_step hs h1) h2

/-- The parallel types of the generalised regression after setter calls are accepted ones. -/
theorem gen_par_run {B : Build} : ∀ (h : List GenOp) {s s' : GenCfg}, GenCfg.run B s h = .ok s' →
    s'.par = s.par ∨ accepted (ompAbility B) s'.par = true
  | [], s, s', h => by have := Res.ok.inj h; subst this; exact Or.inl rfl
  | o :: l, s, s', h => by
    obtain ⟨s1, h1, h2⟩ := Res.bind_eq_ok'.1 h
    rcases gen_par_run l h2 with h3 | h3
    · rw [h3]
      cases o with
      | par t =>
        change s.setPar B t = .ok s1 at h1
        unfold GenCfg.setPar at h1
        split at h1
        · rename_i ht
          simp only [GenCfg.setCriterion] at h1
          cases hf : s.family with
          | none => rw [hf] at h1; cases h1
          | some f =>
            rw [hf] at h1
            have := Res.ok.inj h1
            subst this
            exact Or.inr ht
        · have := Res.ok.inj h1
          subst this; exact Or.inl rfl
      | _ => have := Res.ok.inj h1; subst this; exact Or.inl rfl
    · exact Or.inr h3

/-- **C95 (generalised regression), partial.** After setter calls that chose a family and left the parallel type serial, or multithreaded in a
library compiled with it, `fit` runs the function of the reported family in the reported mode. -/
theorem C95_generalized_partial (B : Build) (h : List GenOp) (s : GenCfg) (hr : GenCfg.run B .new h = .ok s) (f : Family)
    (hf : s.family = some f) :
    (s.par = .SerialOnly → s.fitCall = .ok (f, .serial)) ∧ (s.par = .OpenMP → s.fitCall = .ok (f, .omp)) := by
  have hs : GenInStep B s := genInStep_run h ⟨fun _ h => by simp [GenCfg.new] at h, fun _ h => by simp [GenCfg.new] at h⟩ hr
  have h1 := hs.fit f hf
  refine ⟨fun hp => ?_, fun hp => ?_⟩
  · unfold GenCfg.fitCall; rw [h1, hp]; rfl
  · have ha : B.openmp = true := by
      rcases gen_par_run h hr with h2 | h2
      · rw [hp] at h2; exact nomatch h2
      · rw [hp] at h2
        unfold accepted ompAbility at h2
        cases hB : B.openmp with
        | true => rfl
        | false => rw [hB] at h2; exact absurd h2 (by decide)
    unfold GenCfg.fitCall; rw [h1, hp]; simp [genImpl, ha]

/-- **C95 fails for the generalised regression.** The combined types `MPI_Serial` and `MPI_MP` are accepted, because they share a bit with the
ability, and reported; but the tables have no entry for them and `fit` calls a null pointer. -/
theorem C95_generalized_violates (B : Build) (f : Family) (t : ParType) (ht : t = .MPI_Serial ∨ (t = .MPI_MP ∧ B.openmp = true)) :
    ∃ s, GenCfg.run B .new [.family f, .par t] = .ok s ∧ s.par = t ∧ s.fitCall = .ub ∧ s.minimised = .ub := by
  have ha : accepted (ompAbility B) t = true := by
    rcases ht with rfl | ⟨rfl, hB⟩
    · unfold accepted ompAbility; cases B.openmp <;> rfl
    · unfold accepted ompAbility; rw [hB]; rfl
  have hn : genImpl B t = none := by rcases ht with rfl | ⟨rfl, -⟩ <;> rfl
  refine ⟨{ GenCfg.new with family := some f, par := t, criterionFn := none, fitFn := none, wtFn := none }, ?_, rfl, rfl, rfl⟩
  simp [GenCfg.run, GenCfg.step, Res.bind, GenCfg.setPar, ha, GenCfg.setCriterion, GenCfg.setFamily, hn, GenCfg.new]

/-- **C95 fails: order of calls.** Choosing the parallel type before the family reads an uninitialised member. -/
theorem C95_generalized_order (B : Build) : GenCfg.run B .new [.par .SerialOnly, .family .Poisson] = .ub := by
  have ha : accepted (ompAbility B) .SerialOnly = true := by unfold accepted ompAbility; cases B.openmp <;> rfl
  simp [GenCfg.run, GenCfg.step, GenCfg.setPar, ha, GenCfg.setCriterion, GenCfg.new, Res.bind]

/-- **C47 (generalised regression), partial.** If a criterion is chosen and afterwards only other members, the criterion minimised is the one
reported whenever the parallel type is serial. -/
theorem gen_minimised {B : Build} : ∀ (h : List GenOp) {s s' : GenCfg},
    s.criterionFn = (genImpl B s.par).map (fun i => (s.criterion, i)) → GenCfg.run B s h = .ok s' →
      s'.criterionFn = (genImpl B s'.par).map (fun i => (s'.criterion, i))
  | [], s, s', hs, h => by have := Res.ok.inj h; subst this; exact hs
  | o :: l, s, s', hs, h => by
    obtain ⟨s1, h1, h2⟩ := Res.bind_eq_ok'.1 h
    refine gen_minimised l ?_ h2
    cases o with
    | criterion c => have := Res.ok.inj h1; subst this; rfl
    | par t =>
      change s.setPar B t = .ok s1 at h1
      unfold GenCfg.setPar at h1
      split at h1
      · simp only [GenCfg.setCriterion] at h1
        cases hf : s.family with
        | none => rw [hf] at h1; cases h1
        | some f => rw [hf] at h1; have := Res.ok.inj h1; subst this; rfl
      · have := Res.ok.inj h1; subst this; exact hs
    | _ => have := Res.ok.inj h1; subst this; exact hs

/-- **C47 (generalised regression), partial.** Once a criterion was chosen, the criterion minimised is the one reported while the parallel
type is serial or multithreaded; a new object reports AIC and minimises cross-validation. -/
theorem C47_generalized_partial (B : Build) (c : Crit) (h1 h2 : List GenOp) (s : GenCfg)
    (hr : GenCfg.run B .new (h1 ++ .criterion c :: h2) = .ok s) :
    ((s.par = .SerialOnly ∨ (s.par = .OpenMP ∧ B.openmp = true)) → s.minimised = .ok s.criterion) ∧
    GenCfg.new.criterion = .AIC ∧ GenCfg.new.minimised = .ok .CV := by
  refine ⟨fun hp => ?_, rfl, rfl⟩
  have happ : ∀ (l1 : List GenOp) (s0 : GenCfg), GenCfg.run B s0 (l1 ++ .criterion c :: h2) = .ok s →
      ∃ s1 : GenCfg, GenCfg.run B (s1.setCriterion B c) h2 = .ok s := by
    intro l1
    induction l1 with
    | nil => exact fun s0 h => ⟨s0, h⟩
    | cons o l ih =>
      intro s0 h
      obtain ⟨s1, -, h⟩ := Res.bind_eq_ok'.1 h
      exact ih s1 h
  obtain ⟨s1, hs1⟩ := happ h1 _ hr
  have := gen_minimised h2 (s := s1.setCriterion B c) rfl hs1
  unfold GenCfg.minimised
  rcases hp with hp | ⟨hp, hB⟩
  · rw [this, hp]; rfl
  · rw [this, hp]; simp [genImpl, hB]

example (B : Build) : ∃ s, GenCfg.run B .new ([.family .Binomial] ++ .criterion .AIC :: [.par .SerialOnly]) = .ok s ∧
    s.minimised = .ok .AIC ∧ s.fitCall = .ok (.Binomial, .serial) := by
  have ha : accepted (ompAbility B) .SerialOnly = true := by unfold accepted ompAbility; cases B.openmp <;> rfl
  refine ⟨_, by simp only [List.singleton_append, GenCfg.run, GenCfg.step, GenCfg.setPar, ha, GenCfg.setCriterion, GenCfg.setFamily,
    Res.bind, if_true]; rfl, rfl, rfl⟩

/-! ## C95 for the other classes -/

/-- **C95 (basic GWR).** After every sequence of setter calls, fitting, prediction and the criteria run in the implementation that the reported
parallel type names, with the MPI version of fitting and of variable selection exactly when it names MPI and MPI was compiled in. A type
that shares no bit with what was compiled is never reported. -/
theorem C95_basic (B : Build) (h : List BasicOp) :
    (BasicCfg.after B h).predictFn = named B (BasicCfg.after B h).par ∧ (BasicCfg.after B h).fitCoreFn = named B (BasicCfg.after B h).par ∧
    (BasicCfg.after B h).fitCoreCVFn = named B (BasicCfg.after B h).par ∧ (BasicCfg.after B h).fitCoreSHatFn = named B (BasicCfg.after B h).par ∧
    ((BasicCfg.after B h).fitMpi = true ↔ B.mpi = true ∧ (BasicCfg.after B h).par ∈ [.MPI, .MPI_Serial, .MPI_MP, .MPI_CUDA]) ∧
    ((BasicCfg.after B h).varCriterionMpi = true ↔ B.mpi = true ∧ (BasicCfg.after B h).par ∈ [.MPI, .MPI_Serial, .MPI_MP, .MPI_CUDA]) ∧
    (BasicCfg.after B h).par ≠ .MPI := by
  obtain ⟨h1, h2, h3, h4, h5, h6⟩ := implInStep_after B h
  have hn : ∀ t, basicImpl B t = named B t := by intro t; cases t <;> rfl
  have hm : ∀ t : ParType, (B.mpi && t.hasMpi) = true ↔ B.mpi = true ∧ t ∈ [ParType.MPI, .MPI_Serial, .MPI_MP, .MPI_CUDA] := by
    intro t
    rw [Bool.and_eq_true]
    refine and_congr_right fun _ => ?_
    cases t <;> decide
  refine ⟨by rw [h1, hn], by rw [h2, hn], by rw [h3, hn], by rw [h4, hn], by rw [h5, hm], by rw [h6, hm], ?_⟩
  have key : ∀ (l : List BasicOp) (s : BasicCfg), s.par ≠ .MPI → (l.foldl (BasicCfg.step B) s).par ≠ .MPI := by
    intro l
    induction l with
    | nil => exact fun s h => h
    | cons o l ih =>
      intro s hs
      refine ih _ ?_
      cases o with
      | par t =>
        by_cases ht : accepted (cudaAbility B) t = true
        · simp only [BasicCfg.step, BasicCfg.setPar, if_pos ht, BasicCfg.setCriterion]
          rintro rfl
          obtain ⟨a, b, c⟩ := B
          cases a <;> cases b <;> cases c <;> exact absurd ht (by decide)
        · simp only [BasicCfg.step, BasicCfg.setPar, if_neg ht]; exact hs
      | _ => exact hs
  exact key h _ (by simp [BasicCfg.new])

/-- **C95 (summary statistics).** After every sequence of setter calls `run` computes the kind of statistics chosen last, in the mode that the
reported parallel type names; the reported type is the last one that was taken. -/
theorem C95_summary (B : Build) (h : List SummaryOp) :
    (h.foldl (SummaryCfg.step B) ⟨.Average, .SerialOnly, (.Average, .serial)⟩).mode =
      lastWrite (fun o => match o with | .mode m => some m | _ => none) .Average h ∧
    (h.foldl (SummaryCfg.step B) ⟨.Average, .SerialOnly, (.Average, .serial)⟩).par =
      lastWrite (typeWritten B.openmp false fun o => match o with | .par t => some t | _ => none) .SerialOnly h ∧
    (h.foldl (SummaryCfg.step B) ⟨.Average, .SerialOnly, (.Average, .serial)⟩).fn =
      (lastWrite (fun o => match o with | .mode m => some m | _ => none) .Average h,
        namedLocal B (lastWrite (typeWritten B.openmp false fun o => match o with | .par t => some t | _ => none) .SerialOnly h)) := by
  have h1 : (h.foldl (SummaryCfg.step B) ⟨.Average, .SerialOnly, (.Average, .serial)⟩).mode =
      lastWrite (fun o => match o with | .mode m => some m | _ => none) .Average h := by
    refine lastWrite_foldl (SummaryCfg.step B) SummaryCfg.mode _ (fun s o => ?_) _ h
    cases o with
    | mode m => rfl
    | par t => simp only [SummaryCfg.step]; split <;> rfl
  have h2 : (h.foldl (SummaryCfg.step B) ⟨.Average, .SerialOnly, (.Average, .serial)⟩).par =
      lastWrite (typeWritten B.openmp false fun o => match o with | .par t => some t | _ => none) .SerialOnly h := by
    refine lastWrite_foldl (SummaryCfg.step B) SummaryCfg.par _ (fun s o => ?_) _ h
    cases o with
    | mode m => rfl
    | par t =>
      simp only [SummaryCfg.step, accepted_omp, typeWritten, Option.bind_some]
      by_cases ht : takes B.openmp false t = true
      · simp [ht, SummaryCfg.update]
      · simp [ht]
  refine ⟨h1, h2, ?_⟩
  have key : ∀ (l : List SummaryOp) (s : SummaryCfg), s.fn = (s.mode, ompImpl B s.par) →
      (l.foldl (SummaryCfg.step B) s).fn = ((l.foldl (SummaryCfg.step B) s).mode, ompImpl B (l.foldl (SummaryCfg.step B) s).par) := by
    intro l
    induction l with
    | nil => exact fun s h => h
    | cons o l ih =>
      intro s hs
      refine ih _ ?_
      cases o with
      | mode m => rfl
      | par t =>
        simp only [SummaryCfg.step]
        split
        · rfl
        · exact hs
  rw [key h _ rfl, h1, h2, ompImpl_named]

example (B : Build) (hB : B.openmp = true) :
    ([SummaryOp.par .OpenMP, .mode .Correlation, .par .CUDA].foldl (SummaryCfg.step B) ⟨.Average, .SerialOnly, (.Average, .serial)⟩).fn =
      (.Correlation, .omp) := by
  rw [(C95_summary B _).2.2, hB]
  simp [lastWrite, typeWritten, takes, namedLocal, hB, List.filterMap_cons]

/-- What a class with a serial and a multithreaded version does after the calls `h`: the reported parallel type is the last one taken, and
fitting and prediction run in the mode it names. -/
def RunsAsReported (B : Build) (threads : Bool) (h : List OmpOp) (s : OmpCfg) : Prop :=
  s.par = lastWrite (typeWritten threads false fun o => match o with | .par t => some t | _ => none) .SerialOnly h ∧
    s.fitFn = namedLocal B s.par ∧ s.predictFn = namedLocal B s.par

theorem runsAsReported {B : Build} {threads : Bool} (step : OmpCfg → OmpOp → OmpCfg) (s0 : OmpCfg)
    (h0 : s0.par = .SerialOnly ∧ s0.fitFn = .serial ∧ s0.predictFn = .serial)
    (hc : ∀ s c, (step s (.criterion c)).par = s.par ∧ (step s (.criterion c)).fitFn = s.fitFn ∧
      (step s (.criterion c)).predictFn = s.predictFn)
    (hp : ∀ s t, takes threads false t = true → (step s (.par t)).par = t ∧ (step s (.par t)).fitFn = namedLocal B t ∧
      (step s (.par t)).predictFn = namedLocal B t)
    (hn : ∀ s t, ¬ takes threads false t = true → (step s (.par t)).par = s.par ∧ (step s (.par t)).fitFn = s.fitFn ∧
      (step s (.par t)).predictFn = s.predictFn) (h : List OmpOp) : RunsAsReported B threads h (h.foldl step s0) := by
  constructor
  · rw [← h0.1]
    refine lastWrite_foldl step OmpCfg.par _ (fun s o => ?_) _ h
    cases o with
    | criterion c => exact (hc s c).1
    | par t =>
      by_cases ht : takes threads false t = true
      · simp [typeWritten, ht, (hp s t ht).1]
      · simp [typeWritten, ht, (hn s t ht).1]
  · have key : ∀ (l : List OmpOp) (s : OmpCfg), (s.fitFn = namedLocal B s.par ∧ s.predictFn = namedLocal B s.par) →
        ((l.foldl step s).fitFn = namedLocal B (l.foldl step s).par ∧ (l.foldl step s).predictFn = namedLocal B (l.foldl step s).par) := by
      intro l
      induction l with
      | nil => exact fun s h => h
      | cons o l ih =>
        intro s hs
        refine ih _ ?_
        cases o with
        | criterion c => rw [(hc s c).1, (hc s c).2.1, (hc s c).2.2]; exact hs
        | par t =>
          by_cases ht : takes threads false t = true
          · rw [(hp s t ht).1]; exact (hp s t ht).2
          · rw [(hn s t ht).1, (hn s t ht).2.1, (hn s t ht).2.2]; exact hs
    refine key h s0 ?_
    rw [h0.1, h0.2.1, h0.2.2]
    exact ⟨rfl, rfl⟩

/-- **C95 (space-time, density and ridge regression).** After every sequence of setter calls the parallel type reported is the last one taken, and
fitting and prediction run in the mode it names. The criterion of density regression, and cross-validation of ridge regression, run in
that mode too; the criterion of space-time regression always runs serially. -/
theorem C95_omp (B : Build) (h : List OmpOp) :
    RunsAsReported B B.openmp h (h.foldl (gtwrStep B) gtwrNew) ∧ RunsAsReported B B.openmp h (h.foldl (gwdrStep B) gwdrNew) ∧
    RunsAsReported B true h (h.foldl (lcrStep B) lcrNew) ∧
    (∀ c i, (h.foldl (gtwrStep B) gtwrNew).criterionFn = some (c, i) → i = .serial) ∧
    (∀ c i, (h.foldl (gwdrStep B) gwdrNew).criterionFn = some (c, i) → i = namedLocal B (h.foldl (gwdrStep B) gwdrNew).par) ∧
    (∀ c i, (h.foldl (lcrStep B) lcrNew).criterionFn = some (c, i) → i = namedLocal B (h.foldl (lcrStep B) lcrNew).par) := by
  refine ⟨?_, ?_, ?_, ?_, ?_, ?_⟩
  · refine runsAsReported (gtwrStep B) gtwrNew ⟨rfl, rfl, rfl⟩ (fun s c => ⟨rfl, rfl, rfl⟩) (fun s t ht => ?_) (fun s t ht => ?_) h
    · simp [gtwrStep, accepted_omp, ht, gtwrSetCriterion, ompImpl_named]
    · simp [gtwrStep, accepted_omp, ht]
  · refine runsAsReported (gwdrStep B) gwdrNew ⟨rfl, rfl, rfl⟩ (fun s c => ⟨rfl, rfl, rfl⟩) (fun s t ht => ?_) (fun s t ht => ?_) h
    · simp [gwdrStep, accepted_omp, ht, gwdrSetCriterion, ompImpl_named]
    · simp [gwdrStep, accepted_omp, ht, gwdrSetCriterion]
  · refine runsAsReported (lcrStep B) lcrNew ⟨rfl, rfl, rfl⟩ (fun s c => ⟨rfl, rfl, rfl⟩) (fun s t ht => ?_) (fun s t ht => ?_) h
    · simp [lcrStep, accepted_lcr, ht, lcrSetCriterion, ompImpl_named]
    · simp [lcrStep, accepted_lcr, ht, lcrSetCriterion]
  · have key : ∀ (l : List OmpOp) (s : OmpCfg), (∀ c i, s.criterionFn = some (c, i) → i = .serial) →
        ∀ c i, (l.foldl (gtwrStep B) s).criterionFn = some (c, i) → i = .serial := by
      intro l
      induction l with
      | nil => exact fun s h => h
      | cons o l ih =>
        intro s hs
        refine ih _ ?_
        cases o with
        | criterion c => intro c' i hi; cases hi; rfl
        | par t =>
          simp only [gtwrStep]
          split
          · intro c' i hi; cases hi; rfl
          · exact hs
    exact key h gtwrNew (by intro c i hi; cases hi; rfl)
  · have key : ∀ (l : List OmpOp) (s : OmpCfg), (∀ c i, s.criterionFn = some (c, i) → i = namedLocal B s.par) →
        ∀ c i, (l.foldl (gwdrStep B) s).criterionFn = some (c, i) → i = namedLocal B (l.foldl (gwdrStep B) s).par := by
      intro l
      induction l with
      | nil => exact fun s h => h
      | cons o l ih =>
        intro s hs
        refine ih _ ?_
        have hset : ∀ (c : Crit) (s : OmpCfg) c' i, (gwdrSetCriterion B c s).criterionFn = some (c', i) →
            i = namedLocal B (gwdrSetCriterion B c s).par := by
          intro c s c' i hi
          cases hi
          exact ompImpl_named B s.par
        cases o with
        | criterion c => exact hset c s
        | par t => exact hset _ _
    exact key h gwdrNew (by intro c i hi; cases hi; rfl)
  · have key : ∀ (l : List OmpOp) (s : OmpCfg), (∀ c i, s.criterionFn = some (c, i) → i = namedLocal B s.par) →
        ∀ c i, (l.foldl (lcrStep B) s).criterionFn = some (c, i) → i = namedLocal B (l.foldl (lcrStep B) s).par := by
      intro l
      induction l with
      | nil => exact fun s h => h
      | cons o l ih =>
        intro s hs
        refine ih _ ?_
        have hset : ∀ (c : Crit) (s : OmpCfg) c' i, (lcrSetCriterion B c s).criterionFn = some (c', i) →
            i = namedLocal B (lcrSetCriterion B c s).par := by
          intro c s c' i hi
          cases c with
          | CV => cases hi; exact ompImpl_named B s.par
          | AIC => cases hi
        cases o with
        | criterion c => exact hset c s
        | par t => exact hset _ _
    exact key h lcrNew (by intro c i hi; cases hi; rfl)

example (B : Build) (hB : B.openmp = true) : ([OmpOp.par .OpenMP, .criterion .AIC, .par .CUDA].foldl (gwdrStep B) gwdrNew).fitFn = .omp := by
  obtain ⟨-, ⟨h1, h2, -⟩, -⟩ := C95_omp B [.par .OpenMP, .criterion .AIC, .par .CUDA]
  rw [h2, h1, hB]
  simp [lastWrite, typeWritten, takes, namedLocal, hB, List.filterMap_cons]

/-- **C95 (robust regression), partial.** After every sequence of setter calls the robust fit runs in the mode that the reported parallel type
names, and that type is the last one taken. Missing: prediction and the bandwidth criterion, which always run serially, and the
combined distributed types, which run like the serial one (`C95_robust_violates`). -/
theorem C95_robust_partial (B : Build) (h : List BasicOp) :
    (RobustCfg.after B h).base.par =
      lastWrite (typeWritten B.openmp B.cuda fun o => match o with | .par t => some t | _ => none) .SerialOnly h ∧
    (RobustCfg.after B h).robustFn = namedLocal B (RobustCfg.after B h).base.par ∧
    (RobustCfg.after B h).base.predictFn = .serial ∧ (RobustCfg.after B h).base.fitCoreCVFn = .serial ∧
    (RobustCfg.after B h).base.fitCoreSHatFn = .serial := by
  constructor
  · refine lastWrite_foldl (RobustCfg.step B) (fun s => s.base.par) _ (fun s o => ?_) ⟨.new, .serial⟩ h
    cases o with
    | par t =>
      by_cases ht : takes B.openmp B.cuda t = true
      · simp [RobustCfg.step, RobustCfg.setPar, accepted_cuda, typeWritten, ht]
      · simp [RobustCfg.step, RobustCfg.setPar, accepted_cuda, typeWritten, ht]
    | _ => rfl
  · have key : ∀ (l : List BasicOp) (s : RobustCfg), (s.robustFn = namedLocal B s.base.par ∧ s.base.predictFn = .serial ∧
        s.base.fitCoreCVFn = .serial ∧ s.base.fitCoreSHatFn = .serial) → ((l.foldl (RobustCfg.step B) s).robustFn =
        namedLocal B (l.foldl (RobustCfg.step B) s).base.par ∧ (l.foldl (RobustCfg.step B) s).base.predictFn = .serial ∧
        (l.foldl (RobustCfg.step B) s).base.fitCoreCVFn = .serial ∧ (l.foldl (RobustCfg.step B) s).base.fitCoreSHatFn = .serial) := by
      intro l
      induction l with
      | nil => exact fun s h => h
      | cons o l ih =>
        intro s hs
        refine ih _ ?_
        cases o with
        | par t =>
          simp only [RobustCfg.step, RobustCfg.setPar]
          split
          · refine ⟨?_, hs.2⟩
            cases t <;> rfl
          · exact hs
        | _ => exact hs
    exact key h _ ⟨rfl, rfl, rfl, rfl⟩

/-- **C95 fails for ridge regression compiled without OpenMP**: it accepts and reports the multithreaded type and runs serially. -/
theorem C95_lcr_reports_omp (B : Build) (hB : B.openmp = false) :
    ([OmpOp.par .OpenMP].foldl (lcrStep B) lcrNew).par = .OpenMP ∧ ([OmpOp.par .OpenMP].foldl (lcrStep B) lcrNew).fitFn = .serial := by
  constructor
  · rfl
  · simp [lcrStep, lcrSetCriterion, accepted, lcrAbility, ParType.bits, ompImpl, hB]

/-- **C95 (discriminant analysis).** After every sequence of choices of a parallel type the reported one is the last one taken, and the analysis
runs in the mode it names. -/
theorem C95_discriminant (B : Build) (h : List ParType) :
    (h.foldl (DiscCfg.setPar B) {}).par = lastWrite (typeWritten B.openmp false some) .SerialOnly h ∧
    (h.foldl (DiscCfg.setPar B) {}).fn = namedLocal B (lastWrite (typeWritten B.openmp false some) .SerialOnly h) := by
  have h1 : (h.foldl (DiscCfg.setPar B) {}).par = lastWrite (typeWritten B.openmp false some) .SerialOnly h := by
    refine lastWrite_foldl (DiscCfg.setPar B) DiscCfg.par _ (fun s t => ?_) {} h
    by_cases ht : takes B.openmp false t = true <;> simp [DiscCfg.setPar, accepted_omp, typeWritten, ht]
  refine ⟨h1, ?_⟩
  have key : ∀ (l : List ParType) (s : DiscCfg), s.fn = namedLocal B s.par →
      (l.foldl (DiscCfg.setPar B) s).fn = namedLocal B (l.foldl (DiscCfg.setPar B) s).par := by
    intro l
    induction l with
    | nil => exact fun s h => h
    | cons t l ih =>
      intro s hs
      refine ih _ ?_
      unfold DiscCfg.setPar
      split
      · exact ompImpl_named B t
      · exact hs
  rw [key h {} rfl, h1]

/-- **C95 (multiscale regression), partial.** After every sequence of choices of a parallel type the reported one is the last one taken. The
coefficients of a variable and both criteria run in the mode it names, unless it is one of the two combined distributed types with threads
or GPU; the distributed version runs exactly when the type is distributed and MPI was compiled in. The criterion is the one asked for.
Missing: the combined types (`C95_multiscale_violates`). -/
theorem C95_multiscale_partial (B : Build) (h : List ParType) (c : Crit) :
    (h.foldl (MultiParCfg.setPar B) {}).par = lastWrite (typeWritten B.openmp B.cuda some) .SerialOnly h ∧
    (h.foldl (MultiParCfg.setPar B) {}).fitVarCore = namedSingle B (h.foldl (MultiParCfg.setPar B) {}).par ∧
    ((h.foldl (MultiParCfg.setPar B) {}).fitVarMpi = true ↔ B.mpi = true ∧ distributed (h.foldl (MultiParCfg.setPar B) {}).par = true) ∧
    (h.foldl (MultiParCfg.setPar B) {}).criterion B c =
      (c, B.mpi && distributed (h.foldl (MultiParCfg.setPar B) {}).par, namedSingle B (h.foldl (MultiParCfg.setPar B) {}).par) := by
  constructor
  · refine lastWrite_foldl (MultiParCfg.setPar B) MultiParCfg.par _ (fun s t => ?_) {} h
    by_cases ht : takes B.openmp B.cuda t = true <;> simp [MultiParCfg.setPar, accepted_cuda, typeWritten, ht]
  · have key : ∀ (l : List ParType) (s : MultiParCfg), (s.fitVarCore = namedSingle B s.par ∧ s.fitVarCoreCV = namedSingle B s.par ∧
        s.fitVarCoreSHat = namedSingle B s.par ∧ s.fitVarMpi = (B.mpi && distributed s.par)) →
        ((l.foldl (MultiParCfg.setPar B) s).fitVarCore = namedSingle B (l.foldl (MultiParCfg.setPar B) s).par ∧
        (l.foldl (MultiParCfg.setPar B) s).fitVarCoreCV = namedSingle B (l.foldl (MultiParCfg.setPar B) s).par ∧
        (l.foldl (MultiParCfg.setPar B) s).fitVarCoreSHat = namedSingle B (l.foldl (MultiParCfg.setPar B) s).par ∧
        (l.foldl (MultiParCfg.setPar B) s).fitVarMpi = (B.mpi && distributed (l.foldl (MultiParCfg.setPar B) s).par)) := by
      intro l
      induction l with
      | nil => exact fun s h => h
      | cons t l ih =>
        intro s hs
        refine ih _ ?_
        unfold MultiParCfg.setPar
        split
        · obtain ⟨-, -, -, h4⟩ := hs
          have hi : multiImpl B t = namedSingle B t := by cases t <;> rfl
          refine ⟨hi, hi, hi, ?_⟩
          show (if B.mpi = true then t.hasMpi else s.fitVarMpi) = (B.mpi && distributed t)
          rw [hasMpi_distributed]
          cases hB : B.mpi with
          | true => simp
          | false => rw [h4, hB]; simp
        · exact hs
    obtain ⟨h1, h2, h3, h4⟩ := key h {} ⟨rfl, rfl, rfl, by simp [distributed]⟩
    refine ⟨h1, by rw [h4, Bool.and_eq_true], ?_⟩
    unfold MultiParCfg.criterion
    rw [hasMpi_distributed]
    cases c
    · rw [h2]
    · rw [h3]

/-- **C95 fails for the multiscale regression.** The distributed type with threads is accepted and reported, but its cores are the serial ones;
likewise the distributed type with GPU. Basic GWR runs the threads or the GPU version for the same types. -/
theorem C95_multiscale_violates (B : Build) :
    (B.openmp = true → (([.MPI_MP] : List ParType).foldl (MultiParCfg.setPar B) {}).par = .MPI_MP ∧
      (([.MPI_MP] : List ParType).foldl (MultiParCfg.setPar B) {}).fitVarCore = .serial ∧ (BasicCfg.after B [.par .MPI_MP]).fitCoreFn = .omp) ∧
    (B.cuda = true → (([.MPI_CUDA] : List ParType).foldl (MultiParCfg.setPar B) {}).par = .MPI_CUDA ∧
      (([.MPI_CUDA] : List ParType).foldl (MultiParCfg.setPar B) {}).fitVarCore = .serial ∧
      (BasicCfg.after B [.par .MPI_CUDA]).fitCoreFn = .cuda) := by
  refine ⟨fun hB => ⟨?_, ?_, ?_⟩, fun hB => ⟨?_, ?_, ?_⟩⟩
  all_goals
    simp [MultiParCfg.setPar, accepted_cuda, takes, hB, BasicCfg.after, BasicCfg.step, BasicCfg.setPar, BasicCfg.setCriterion, basicImpl, multiImpl]

/-- **C95 fails for the robust regression.** Its `setParallelType` leaves the inherited pointers alone: the bandwidth search of an object that
reports the multithreaded type runs serially, and with MPI compiled in the criterion stays the MPI one after going back to serial. -/
theorem C95_robust_violates (B : Build) :
    (B.openmp = true → (RobustCfg.after B [.par .OpenMP]).base.par = .OpenMP ∧
      (RobustCfg.after B [.par .OpenMP]).base.fitCoreCVFn = .serial ∧ (RobustCfg.after B [.par .OpenMP]).base.predictFn = .serial) ∧
    (B.mpi = true → (RobustCfg.after B [.par .MPI_Serial, .criterion .CV, .par .SerialOnly]).base.par = .SerialOnly ∧
      (RobustCfg.after B [.par .MPI_Serial, .criterion .CV, .par .SerialOnly]).base.criterionMpi = true) := by
  have h1 : accepted (cudaAbility B) .SerialOnly = true := by
    obtain ⟨a, b, c⟩ := B
    cases a <;> cases b <;> cases c <;> decide
  have h2 : accepted (cudaAbility B) .MPI_Serial = true := by
    obtain ⟨a, b, c⟩ := B
    cases a <;> cases b <;> cases c <;> decide
  constructor
  · intro hB
    have h3 : accepted (cudaAbility B) .OpenMP = true := by
      obtain ⟨a, b, c⟩ := B
      cases hB
      cases b <;> cases c <;> decide
    simp [RobustCfg.after, RobustCfg.step, RobustCfg.setPar, h3, BasicCfg.new]
  · intro hB
    simp [RobustCfg.after, RobustCfg.step, RobustCfg.setPar, h1, h2, BasicCfg.step, BasicCfg.setCriterion, hB, ParType.hasMpi, ParType.bits]

/-! ## C48 -/

/-- **C48 (basic GWR).** After every sequence of setter calls each getter returns the value set last, or the initial one if it was never set; the
parallel type returns the last one that the library as compiled takes. -/
theorem C48_basic (B : Build) (h : List BasicOp) :
    (BasicCfg.after B h).criterion = lastWrite (fun | .criterion c => some c | _ => none) .AIC h ∧
    (BasicCfg.after B h).par = lastWrite (fun | .par t => if takes B.openmp B.cuda t then some t else none | _ => none) .SerialOnly h ∧
    (BasicCfg.after B h).autoBandwidth = lastWrite (fun | .autoBandwidth b => some b | _ => none) false h ∧
    (BasicCfg.after B h).goldenUpper = lastWrite (fun | .goldenUpper v => some (some v) | _ => none) none h ∧
    (BasicCfg.after B h).goldenLower = lastWrite (fun | .goldenLower v => some (some v) | _ => none) none h ∧
    (BasicCfg.after B h).autoVars = lastWrite (fun | .autoVars b => some b | _ => none) false h ∧
    (BasicCfg.after B h).varThreshold = lastWrite (fun | .varThreshold v => some v | _ => none) 3 h ∧
    (BasicCfg.after B h).hasHat = lastWrite (fun | .hasHat b => some b | _ => none) true h ∧
    (BasicCfg.after B h).storeC = lastWrite (fun | .storeC b => some b | _ => none) false h ∧
    (BasicCfg.after B h).intercept = lastWrite (fun | .intercept b => some b | _ => none) true h ∧
    (BasicCfg.after B h).x = lastWrite (fun | .x m => some m | _ => none) .empty h ∧
    (BasicCfg.after B h).y = lastWrite (fun | .y v => some v | _ => none) [] h ∧
    (BasicCfg.after B h).coords = lastWrite (fun | .coords m => some m | _ => none) .empty h ∧
    (BasicCfg.after B h).worker = lastWrite (fun | .worker z => some z | _ => none) 0 h ∧
    (BasicCfg.after B h).threads = lastWrite (fun | .threads z => some z | _ => none) 8 h ∧
    (BasicCfg.after B h).gpu = lastWrite (fun | .gpu z => some z | _ => none) 0 h ∧
    (BasicCfg.after B h).group = lastWrite (fun | .group n => some n | _ => none) 64 h ∧
    (BasicCfg.after B h).workers = lastWrite (fun | .workers z => some z | _ => none) 1 h := by
  refine ⟨lastWrite_foldl _ BasicCfg.criterion _ (fun s o => ?_) _ h, lastWrite_foldl _ BasicCfg.par _ (fun s o => ?_) _ h,
    lastWrite_foldl _ BasicCfg.autoBandwidth _ (fun s o => ?_) _ h, lastWrite_foldl _ BasicCfg.goldenUpper _ (fun s o => ?_) _ h,
    lastWrite_foldl _ BasicCfg.goldenLower _ (fun s o => ?_) _ h, lastWrite_foldl _ BasicCfg.autoVars _ (fun s o => ?_) _ h,
    lastWrite_foldl _ BasicCfg.varThreshold _ (fun s o => ?_) _ h, lastWrite_foldl _ BasicCfg.hasHat _ (fun s o => ?_) _ h,
    lastWrite_foldl _ BasicCfg.storeC _ (fun s o => ?_) _ h, lastWrite_foldl _ BasicCfg.intercept _ (fun s o => ?_) _ h,
    lastWrite_foldl _ BasicCfg.x _ (fun s o => ?_) _ h, lastWrite_foldl _ BasicCfg.y _ (fun s o => ?_) _ h,
    lastWrite_foldl _ BasicCfg.coords _ (fun s o => ?_) _ h, lastWrite_foldl _ BasicCfg.worker _ (fun s o => ?_) _ h,
    lastWrite_foldl _ BasicCfg.threads _ (fun s o => ?_) _ h, lastWrite_foldl _ BasicCfg.gpu _ (fun s o => ?_) _ h,
    lastWrite_foldl _ BasicCfg.group _ (fun s o => ?_) _ h, lastWrite_foldl _ BasicCfg.workers _ (fun s o => ?_) _ h⟩ <;>
  (cases o with
    | par t => simp only [BasicCfg.step, BasicCfg.setPar, accepted_cuda]; split <;> simp [BasicCfg.setCriterion, *]
    | _ => rfl)

/-- **C48 fails for storing the hat matrix.** After `setStoreS(false)` the getter returns true as long as the hat matrix is wanted and there are
fewer than 8192 observations. -/
theorem C48_storeS_violates (B : Build) : (BasicCfg.after B [.storeS false]).isStoreS = true := rfl

/-- **C48 (storing the hat matrix), partial.** What the getter returns after every sequence of calls. -/
theorem C48_storeS_partial (B : Build) (h : List BasicOp) : (BasicCfg.after B h).isStoreS = true ↔
    lastWrite (fun | .storeS b => some b | _ => none) false h = true ∨
      ((BasicCfg.after B h).hasHat = true ∧ (BasicCfg.after B h).coords.nRows < 8192) := by
  have : (BasicCfg.after B h).storeS = lastWrite (fun | .storeS b => some b | _ => none) false h := by
    refine lastWrite_foldl _ BasicCfg.storeS _ (fun s o => ?_) _ h
    cases o with
    | par t => simp only [BasicCfg.step, BasicCfg.setPar]; split <;> rfl
    | _ => rfl
  unfold BasicCfg.isStoreS
  rw [this]
  split <;> simp [*]

/-- A getter of the generalised regression returns the last value written. -/
theorem lastWrite_run {α : Type} (B : Build) (get : GenCfg → α) (f : GenOp → Option α)
    (h : ∀ s o s', s.step B o = .ok s' → get s' = (f o).getD (get s)) : ∀ (l : List GenOp) (s s' : GenCfg), GenCfg.run B s l = .ok s' →
      get s' = lastWrite f (get s) l := by
  have key : ∀ (l : List GenOp) (s s' : GenCfg) (a : α), GenCfg.run B s l = .ok s' → get s = a →
      get s' = l.foldl (fun a o => (f o).getD a) a := by
    intro l
    induction l with
    | nil => intro s s' a hr ha; have := Res.ok.inj hr; subst this; exact ha
    | cons o l ih =>
      intro s s' a hr ha
      obtain ⟨s1, h1, h2⟩ := Res.bind_eq_ok'.1 hr
      exact ih s1 s' _ h2 (by rw [h s o s1 h1, ha])
  intro l s s' hr
  rw [key l s s' _ hr rfl]
  exact lastWrite_foldl (fun a o => (f o).getD a) id f (fun _ _ => rfl) (get s) l

theorem genStep_par {B : Build} {s s' : GenCfg} {t : ParType} (h : s.step B (.par t) = .ok s') : s'.tol = s.tol ∧ s'.maxiter = s.maxiter ∧
    s'.hasHat = s.hasHat ∧ s'.hasRegressionData = s.hasRegressionData ∧ s'.regressionData = s.regressionData ∧
    s'.autoBandwidth = s.autoBandwidth ∧ s'.criterion = s.criterion ∧ s'.family = s.family ∧ s'.threads = s.threads ∧
    s'.par = if takes B.openmp false t then t else s.par := by
  rw [← accepted_omp]
  change s.setPar B t = .ok s' at h
  unfold GenCfg.setPar at h
  split at h
  · rename_i ht
    simp only [GenCfg.setCriterion] at h
    cases hf : s.family with
    | none => rw [hf] at h; cases h
    | some f =>
      rw [hf] at h
      have := Res.ok.inj h
      subst this
      simp [GenCfg.setFamily, ht]
  · rename_i ht
    have := Res.ok.inj h
    subst this
    simp [ht]

/-- **C48 (generalised regression), partial.** After every sequence of setter calls that ends normally, family, tolerance, iteration limit, hat
matrix flag, automatic bandwidth, criterion and parallel type are the values last set. Missing: the regression data and their flag
(`C48_regression_data_violates`). -/
theorem C48_generalized_partial (B : Build) (h : List GenOp) (s : GenCfg) (hr : GenCfg.run B .new h = .ok s) :
    s.family = lastWrite (fun | .family f => some (some f) | _ => none) none h ∧
    s.tol = lastWrite (fun | .tol v => some v | _ => none) (1 / 100000) h ∧
    s.maxiter = lastWrite (fun | .maxiter m => some m | _ => none) 20 h ∧
    s.hasHat = lastWrite (fun | .hasHat b => some b | _ => none) true h ∧
    s.autoBandwidth = lastWrite (fun | .autoBandwidth b => some b | _ => none) false h ∧
    s.criterion = lastWrite (fun | .criterion c => some c | _ => none) .AIC h ∧
    s.par = lastWrite (fun | .par t => if takes B.openmp false t then some t else none | _ => none) .SerialOnly h ∧
    s.threads = lastWrite (fun | .threads z => some z | _ => none) 8 h := by
  refine ⟨lastWrite_run B GenCfg.family _ (fun s o s' h => ?_) h _ s hr, lastWrite_run B GenCfg.tol _ (fun s o s' h => ?_) h _ s hr,
    lastWrite_run B GenCfg.maxiter _ (fun s o s' h => ?_) h _ s hr, lastWrite_run B GenCfg.hasHat _ (fun s o s' h => ?_) h _ s hr,
    lastWrite_run B GenCfg.autoBandwidth _ (fun s o s' h => ?_) h _ s hr, lastWrite_run B GenCfg.criterion _ (fun s o s' h => ?_) h _ s hr,
    lastWrite_run B GenCfg.par _ (fun s o s' h => ?_) h _ s hr, lastWrite_run B GenCfg.threads _ (fun s o s' h => ?_) h _ s hr⟩ <;>
  (cases o with
    | par t =>
      obtain ⟨e1, e2, e3, e4, e5, e6, e7, e8, e9, e10⟩ := genStep_par h
      first | exact e1 | exact e2 | exact e3 | exact e6 | exact e7 | exact e8 | exact e9 | (rw [e10]; split <;> simp [*])
    | _ => have := Res.ok.inj h; subst this; rfl)

/-- **C48 fails for the regression data of the generalised regression.** Whatever is called, the flag stays false; and setting the flag replaces
the stored data by a 1 by 1 matrix. -/
theorem C48_regression_data_violates (B : Build) :
    (∀ (h : List GenOp) (s : GenCfg), GenCfg.run B .new h = .ok s → s.hasRegressionData = false) ∧
    ∀ (m : DynMat) (b : Bool), ∃ s, GenCfg.run B .new [.regressionData m, .hasRegressionData b] = .ok s ∧ s.regressionData.nRows = 1 ∧
      s.regressionData.nCols = 1 := by
  refine ⟨fun h s hr => ?_, fun m b => ⟨_, rfl, rfl, rfl⟩⟩
  have := lastWrite_run B GenCfg.hasRegressionData (fun _ => none) (fun s o s' h => ?_) h _ s hr
  · rw [this]; unfold lastWrite; simp [GenCfg.new]
  · cases o with
    | par t => exact (genStep_par h).2.2.2.1
    | _ => have := Res.ok.inj h; subst this; rfl

/-- **C48 fails for the multiscale regression.** Setting the weights replaces the initial weight set before; and the per-variable settings throw
when they come before the data. -/
theorem C48_multiscale_violates {S : Type} (s : MultiCfg S) (w w' : S) (c : Crit) (l : List Crit) :
    (∃ s1 s2, s.step (.initWeight w) = .ok s1 ∧ s1.step (.weights [w']) = .ok s2 ∧ s1.initWeight = some w ∧ s2.initWeight = some w') ∧
    (s.x = .empty → s.step (.approach (c :: l)) = .throw .length) := by
  refine ⟨⟨_, _, rfl, rfl, rfl, rfl⟩, fun h => ?_⟩
  simp [MultiCfg.step, h, DynMat.empty]

/-! ## C96 -/

/-- **C96 (basic GWR).** After every sequence of setter calls that sets both bounds, a search with a fixed bandwidth kernel evaluates only
bandwidths between the bounds set last, and returns one of these or the starting one. (Adaptive bandwidths: C15.) -/
theorem C96_basic (B : Build) (h : List BasicOp) (lo up : ℝ) (hl : lastWrite (fun | .goldenLower v => some (some v) | _ => none) none h = some lo)
    (hu : lastWrite (fun | .goldenUpper v => some (some v) | _ => none) none h = some up) (hlu : lo ≤ up) (d' : CRSDistance)
    (b0 : BandwidthWeight) (hb : b0.mAdaptive = false) (x : Matrix (Fin n) (Fin k) ℝ) (y : Fin n → ℝ) :
    ∃ r, (BasicCfg.after B h).search d' b0 x y = .ok r ∧ 2 ≤ r.evals.length ∧ (∀ e ∈ r.evals, lo ≤ e.x ∧ e.x ≤ up) ∧
      ∀ b, r.out = .ok b → b = b0 ∨ (lo ≤ b.mBandwidth ∧ b.mBandwidth ≤ up) := by
  obtain ⟨-, -, -, h1, h2, -⟩ := C48_basic B h
  refine ⟨optimize b0 lo up (fun _ b => (true, gwrCriterion (BasicCfg.after B h).criterionFn d' x y b)) [], ?_, (C16_call_bound _ _ _ _ _).1,
    C15_fixed_within_bounds b0 hb lo up hlu _ _⟩
  unfold BasicCfg.search gwrSelectBandwidth
  rw [h1, h2, hl, hu]
  rfl

example (B : Build) (x : Matrix (Fin 3) (Fin 2) ℝ) (y : Fin 3 → ℝ) :
    ∃ r, (BasicCfg.after B [.goldenLower 1, .goldenUpper 7, .goldenLower 2]).search ⟨false, some (lineCoords 10, lineCoords 10)⟩
      ⟨5, false, .Gaussian⟩ x y = .ok r ∧ ∀ e ∈ r.evals, 2 ≤ e.x ∧ e.x ≤ 7 := by
  obtain ⟨r, h1, -, h2, -⟩ := C96_basic B [.goldenLower 1, .goldenUpper 7, .goldenLower 2] 2 7 rfl rfl (by norm_num)
    ⟨false, some (lineCoords 10, lineCoords 10)⟩ ⟨5, false, .Gaussian⟩ rfl x y
  exact ⟨r, h1, h2⟩

/-- **C96 fails for the robust regression.** The bounds have no effect on its search: with a lower bound above the largest distance every bandwidth
evaluated lies below the bound. -/
theorem C96_robust_violates (B : Build) (h : List BasicOp) (lo up : ℝ) (d' : CRSDistance) (b0 : BandwidthWeight)
    (x : Matrix (Fin n) (Fin k) ℝ) (y : Fin n → ℝ) :
    (RobustCfg.after B (h ++ [.goldenLower lo, .goldenUpper up])).search d' b0 x y = (RobustCfg.after B h).search d' b0 x y ∧
    ∀ M, b0.mAdaptive = false → d'.maxDistance = .ok M → 0 ≤ M → M < lo →
      ∃ r, (RobustCfg.after B (h ++ [.goldenLower lo, .goldenUpper up])).search d' b0 x y = .ok r ∧ 2 ≤ r.evals.length ∧
        ∀ e ∈ r.evals, e.x < lo := by
  constructor
  · unfold RobustCfg.after
    rw [List.foldl_append]
    rfl
  · intro M hb hM h0 hlo
    refine ⟨optimize b0 0 M (fun _ b => (true, gwrCriterion (RobustCfg.after B (h ++ [.goldenLower lo, .goldenUpper up])).base.criterionFn d' x y b))
      [], ?_, (C16_call_bound _ _ _ _ _).1, fun e he => lt_of_le_of_lt ((C15_fixed_within_bounds b0 hb 0 M h0 _ _).1 e he).2 hlo⟩
    unfold RobustCfg.search gwrSelectBandwidth
    simp only [hb, Bool.false_eq_true, if_false, hM, Option.getD_none]
    rfl

end Verif.Props

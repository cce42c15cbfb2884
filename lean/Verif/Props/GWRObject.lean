import Verif.Spec.ObjectHistory
import Verif.Props.GWRBasicRun

/-! # C123: the status of an object, and repeated runs -/

namespace Verif.Props
open Verif Verif.Model Verif.Spec Matrix Classical

variable {n k m : ℕ} {ι ρ σ T α β : Type*}

/-! ## Loops with stop requests -/

theorem serialFor_unstopped {g : ι → Res ρ} {upd : ι → ρ → σ → σ} {stop : ℕ → Bool} : ∀ (l : List ι) (p : ℕ) (s : σ),
    sawStop (serialFor g upd stop l p s) = false → serialFor g upd stop l p s = serialFor g upd (fun _ => false) l p s := by
  intro l
  induction l with
  | nil => intro p s _; rfl
  | cons i is ih =>
    intro p s h
    by_cases hs : stop p = true
    · simp [serialFor, hs, sawStop] at h
    · simp only [serialFor, if_neg hs, Bool.false_eq_true, if_false] at h ⊢
      cases hg : g i with
      | ok r => rw [hg] at h; exact ih _ _ h
      | throw e => rfl
      | ub => rfl
      | nonfinite => rfl

theorem sawStop_quiet {g : ι → Res ρ} {upd : ι → ρ → σ → σ} : ∀ (l : List ι) (p : ℕ) (s : σ),
    sawStop (serialFor g upd (fun _ => false) l p s) = false := by
  intro l
  induction l with
  | nil => intro p s; rfl
  | cons i is ih =>
    intro p s
    simp only [serialFor, Bool.false_eq_true, if_false]
    cases hg : g i with
    | ok r => exact ih _ _
    | throw e => rfl
    | ub => rfl
    | nonfinite => rfl

theorem ompStep_terminated [DecidableEq ι] {g : ι → Res ρ} {upd : T → ι → ρ → σ → σ} {stop : ℕ → Bool} (s : OmpState ι σ) (e : OmpEv ι T)
    (h : s.terminated = true) : (ompStep g upd stop s e).terminated = true := by
  cases e with
  | start i => unfold ompStep; dsimp only; split <;> simp [h]
  | finish t i =>
    unfold ompStep; dsimp only
    split
    · split <;> exact h
    · exact h

theorem foldl_terminated [DecidableEq ι] {g : ι → Res ρ} {upd : T → ι → ρ → σ → σ} {stop : ℕ → Bool} : ∀ (evs : List (OmpEv ι T)) (s : OmpState ι σ),
    s.terminated = true → (evs.foldl (ompStep g upd stop) s).terminated = true := by
  intro evs
  induction evs with
  | nil => intro s h; exact h
  | cons e es ih => intro s h; exact ih _ (ompStep_terminated s e h)

theorem foldl_unstopped [DecidableEq ι] {g : ι → Res ρ} {upd : T → ι → ρ → σ → σ} {stop : ℕ → Bool} : ∀ (evs : List (OmpEv ι T)) (s : OmpState ι σ),
    (evs.foldl (ompStep g upd stop) s).terminated = false →
    evs.foldl (ompStep g upd stop) s = evs.foldl (ompStep g upd fun _ => false) s := by
  intro evs
  induction evs with
  | nil => intro s _; rfl
  | cons e es ih =>
    intro s h
    have he : ompStep g upd stop s e = ompStep g upd (fun _ => false) s e := by
      cases e with
      | finish t i => rfl
      | start i =>
        by_cases hs : stop s.polls = true
        · have : (ompStep g upd stop s (.start i)).terminated = true := by simp [ompStep, hs]
          rw [List.foldl_cons, foldl_terminated es _ this] at h
          cases h
        · simp [ompStep, hs]
    rw [List.foldl_cons, List.foldl_cons, ← he]
    exact ih _ h

theorem ompRun_unstopped [DecidableEq ι] {g : ι → Res ρ} {upd : T → ι → ρ → σ → σ} {stop : ℕ → Bool} {evs : List (OmpEv ι T)} {s : σ}
    (h : (ompRun g upd stop evs s).terminated = false) : ompRun g upd stop evs s = ompRun g upd (fun _ => false) evs s :=
  foldl_unstopped evs _ h

theorem foldl_quiet [DecidableEq ι] {g : ι → Res ρ} {upd : T → ι → ρ → σ → σ} : ∀ (evs : List (OmpEv ι T)) (s : OmpState ι σ),
    (evs.foldl (ompStep g upd fun _ => false) s).terminated = s.terminated := by
  intro evs
  induction evs with
  | nil => intro s; rfl
  | cons e es ih =>
    intro s
    rw [List.foldl_cons, ih]
    cases e with
    | start i => simp [ompStep]
    | finish t i =>
      unfold ompStep; dsimp only
      split
      · split <;> rfl
      · rfl

theorem ompRun_quiet [DecidableEq ι] {g : ι → Res ρ} {upd : T → ι → ρ → σ → σ} (evs : List (OmpEv ι T)) (s : σ) :
    (ompRun g upd (fun _ => false) evs s).terminated = false := foldl_quiet evs _

/-! ## Searches -/

/-- A search in which every evaluation succeeded is the same for any oracle that agrees on successful evaluations. -/
theorem golden_congr {b : BandwidthWeight} {o o' : Oracle} (ho : ∀ j w, (o j w).1 = true → o' j w = o j w) (s : GS)
    (h : ∀ e ∈ (goldenLoop b o s).evals, e.success = true) : goldenLoop b o' s = goldenLoop b o s := by
  have grow : ∀ s : GS, ∀ e ∈ s.evals, e ∈ (goldenLoop b o s).evals := fun s =>
    (goldenLoop_induct (bw := b) (o := o) (P := fun t => ∀ e ∈ s.evals, e ∈ t.evals)
      (fun t ht _ e he => by unfold goldenStep; dsimp only; split <;> exact List.mem_append_left _ (ht e he)) (fun e he => he)).1
  fun_induction goldenLoop b o s with
  | case1 s hc ih =>
    have hstep : goldenStep b o' s = goldenStep b o s := by
      have hin := grow (goldenStep b o s)
      by_cases hf : s.f1 < s.f2
      · simp only [goldenStep, if_pos hf] at hin h ⊢
        have := ho s.evals.length _ (h _ (hin _ (List.mem_append_right _ (List.mem_singleton_self _))))
        simp only [this]
      · simp only [goldenStep, if_neg hf] at hin h ⊢
        have := ho s.evals.length _ (h _ (hin _ (List.mem_append_right _ (List.mem_singleton_self _))))
        simp only [this]
    rw [goldenLoop, if_pos hc, hstep]
    exact ih h
  | case2 s hc => rw [goldenLoop, if_neg hc]

theorem optimize_congr {b : BandwidthWeight} {l u : ℝ} {o o' : Oracle} {m : List (ℝ × ℝ)} (ho : ∀ j w, (o j w).1 = true → o' j w = o j w)
    (h : ∀ e ∈ (optimize b l u o m).evals, e.success = true) : optimize b l u o' m = optimize b l u o m := by
  have grow : ∀ s : GS, ∀ e ∈ s.evals, e ∈ (goldenLoop b o s).evals := fun s =>
    (goldenLoop_induct (bw := b) (o := o) (P := fun t => ∀ e ∈ s.evals, e ∈ t.evals)
      (fun t ht _ e he => by unfold goldenStep; dsimp only; split <;> exact List.mem_append_left _ (ht e he)) (fun e he => he)).1
  have h0 : ∀ e ∈ (goldenInit b l u o m).evals, e.success = true := by
    rcases optimize_cases b l u o m with ⟨-, he⟩ | ⟨-, -, -, -, he⟩ | ⟨-, -, -, -, -, he⟩ | ⟨-, -, -, -, he⟩ <;> rw [he] at h
    · exact h
    · exact h
    · exact fun e he => h e (grow (goldenStart b l u o m) e he)
    · exact fun e he => h e (grow (goldenStart b l u o m) e he)
  have hinit : goldenInit b l u o' m = goldenInit b l u o m := by
    have a1 := ho 0 _ (h0 ⟨_, _, _⟩ (List.mem_cons_self ..))
    have a2 := ho 1 _ (h0 ⟨_, _, _⟩ (List.mem_cons_of_mem _ (List.mem_cons_self ..)))
    unfold goldenInit
    simp only [a1, a2]
  unfold optimize at h ⊢
  simp only [hinit] at h ⊢
  by_cases c1 : ¬ ((goldenInit b l u o m).s1 = true ∧ (goldenInit b l u o m).s2 = true)
  · rw [if_pos c1, if_pos c1]
  · rw [if_neg c1] at h ⊢
    rw [if_neg c1]
    by_cases c2 : (goldenInit b l u o m).f1 = dblMax ∧ (goldenInit b l u o m).f2 = dblMax
    · rw [if_pos c2, if_pos c2]
    · rw [if_neg c2] at h ⊢
      rw [if_neg c2]
      have : ∀ e ∈ (goldenLoop b o (goldenStart b l u o m)).evals, e.success = true := by
        split at h <;> exact h
      have hg := golden_congr ho _ this
      unfold goldenStart at hg
      rw [hg]

theorem golden_kind {b b' : BandwidthWeight} {o : Oracle} (h1 : b'.mAdaptive = b.mAdaptive) (h2 : b'.mKernel = b.mKernel) (s : GS) :
    goldenLoop b' o s = goldenLoop b o s := by
  have hstep : ∀ s, goldenStep b' o s = goldenStep b o s := fun s => by unfold goldenStep; simp only [h1, h2]
  fun_induction goldenLoop b o s with
  | case1 s hc ih => rw [goldenLoop, if_pos hc, hstep, ih]
  | case2 s hc => rw [goldenLoop, if_neg hc]

/-- A search in which no evaluation is cancelled does not depend on the bandwidth it starts from. -/
theorem optimize_start {b b' : BandwidthWeight} {l u : ℝ} {o : Oracle} {m : List (ℝ × ℝ)} (h1 : b'.mAdaptive = b.mAdaptive)
    (h2 : b'.mKernel = b.mKernel) (ho : ∀ j w, (o j w).1 = true) : optimize b' l u o m = optimize b l u o m := by
  have hinit : goldenInit b' l u o m = goldenInit b l u o m := by unfold goldenInit; simp only [h1, h2]
  have hs : (goldenInit b l u o m).s1 = true ∧ (goldenInit b l u o m).s2 = true := ⟨ho _ _, ho _ _⟩
  unfold optimize
  simp only [hinit]
  simp only [if_neg (not_not.2 hs)]
  by_cases c2 : (goldenInit b l u o m).f1 = dblMax ∧ (goldenInit b l u o m).f2 = dblMax
  · rw [if_pos c2, if_pos c2]
  · rw [if_neg c2, if_neg c2, golden_kind h1 h2]
    have hl : ∀ s : GS, s.s1 = true ∧ s.s2 = true → (goldenLoop b o s).s1 = true ∧ (goldenLoop b o s).s2 = true := fun s hs =>
      (goldenLoop_induct (bw := b) (o := o) (P := fun t => t.s1 = true ∧ t.s2 = true)
        (fun t ht _ => by
          unfold goldenStep; dsimp only
          split
          · exact ⟨ho _ _, ht.2⟩
          · exact ⟨ht.1, ho _ _⟩) hs).1
    have hs' := hl (goldenStart b l u o m) hs
    unfold goldenStart at hs'
    rw [if_pos hs', if_pos hs', h1, h2]

/-! ## Parts of a run -/

theorem objCriterion_unstopped (c : Crit) (d' : CRSDistance) (x : Matrix (Fin n) (Fin k) ℝ) (y : Fin n → ℝ) (b : BandwidthWeight) (t : Bool)
    (stop : ℕ → Bool) (ex : Exec n) (h : (objCriterion c d' x y b t stop ex).1 = false) :
    t = false ∧ objCriterion c d' x y b t stop ex = objCriterion c d' x y b t (fun _ => false) ex := by
  cases ex with
  | serial =>
    cases c with
    | CV =>
      obtain ⟨h1, h2⟩ := Bool.or_eq_false_iff.1 h
      refine ⟨h1, ?_⟩
      have := serialFor_unstopped _ _ _ h2
      simp only [objCriterion, cvLoop] at this ⊢
      rw [this]
    | AIC =>
      obtain ⟨h1, h2⟩ := Bool.or_eq_false_iff.1 h
      refine ⟨h1, ?_⟩
      have := serialFor_unstopped _ _ _ h2
      simp only [objCriterion, aicLoop] at this ⊢
      rw [this]
  | omp evs =>
    cases c with
    | CV =>
      obtain ⟨h1, h2⟩ := Bool.or_eq_false_iff.1 h
      refine ⟨h1, ?_⟩
      have := ompRun_unstopped h2
      simp only [objCriterion]
      rw [this]
    | AIC =>
      obtain ⟨h1, h2⟩ := Bool.or_eq_false_iff.1 h
      refine ⟨h1, ?_⟩
      have := ompRun_unstopped h2
      simp only [objCriterion]
      rw [this]

theorem objCriterion_quiet (c : Crit) (d' : CRSDistance) (x : Matrix (Fin n) (Fin k) ℝ) (y : Fin n → ℝ) (b : BandwidthWeight) (t : Bool) (ex : Exec n) :
    (objCriterion c d' x y b t (fun _ => false) ex).1 = t := by
  cases ex with
  | serial =>
    cases c with
    | CV => simp only [objCriterion, cvLoop, sawStop_quiet, Bool.or_false]
    | AIC => simp only [objCriterion, aicLoop, sawStop_quiet, Bool.or_false]
  | omp evs =>
    cases c with
    | CV => simp only [objCriterion, ompRun_quiet, Bool.or_false]
    | AIC => simp only [objCriterion, ompRun_quiet, Bool.or_false]

theorem objCriterion_terminated (c : Crit) (d' : CRSDistance) (x : Matrix (Fin n) (Fin k) ℝ) (y : Fin n → ℝ) (b : BandwidthWeight)
    (stop : ℕ → Bool) (ex : Exec n) : (objCriterion c d' x y b true stop ex).1 = true := by
  cases ex <;> cases c <;> simp [objCriterion]

theorem objCore_unstopped (d' : CRSDistance) (b : BandwidthWeight) (x : Matrix (Fin n) (Fin k) ℝ) (y : Fin n → ℝ) (sS sC : Bool)
    (stop : ℕ → Bool) (ex : Exec n) (h : (objCore d' b x y sS sC stop ex).1 = false) :
    objCore d' b x y sS sC stop ex = objCore d' b x y sS sC (fun _ => false) ex := by
  cases ex with
  | serial =>
    have := serialFor_unstopped _ _ _ h
    simp only [objCore, fitLoop] at this ⊢
    rw [this]
  | omp evs =>
    simp only [objCore] at h ⊢
    cases hW : weightRows d' b n n with
    | ok W =>
      rw [hW] at h
      have := ompRun_unstopped h
      simp only [fitLoopOmp, fitCoreOmp]
      rw [this]
    | throw e => rfl
    | ub => rfl
    | nonfinite => rfl

theorem objCore_quiet (d' : CRSDistance) (b : BandwidthWeight) (x : Matrix (Fin n) (Fin k) ℝ) (y : Fin n → ℝ) (sS sC : Bool) (ex : Exec n) :
    (objCore d' b x y sS sC (fun _ => false) ex).1 = false := by
  cases ex with
  | serial => simp only [objCore, fitLoop, sawStop_quiet]
  | omp evs =>
    simp only [objCore]
    cases hW : weightRows d' b n n with
    | ok W => exact ompRun_quiet _ _
    | throw e => rfl
    | ub => rfl
    | nonfinite => rfl

theorem objPredictCore_unstopped (d' : CRSDistance) (b : BandwidthWeight) (x : Matrix (Fin n) (Fin k) ℝ) (y : Fin n → ℝ)
    (stop : ℕ → Bool) (ex : Exec m) (h : (objPredictCore d' b x y stop ex).1 = false) :
    objPredictCore d' b x y stop ex = objPredictCore d' b x y (fun _ => false) ex := by
  cases ex with
  | serial =>
    have := serialFor_unstopped _ _ _ h
    simp only [objPredictCore, predictLoop] at this ⊢
    rw [this]
  | omp evs =>
    simp only [objPredictCore] at h ⊢
    cases hW : weightRows d' b n m with
    | ok W =>
      rw [hW] at h
      have := ompRun_unstopped h
      simp only [predictOmp]
      rw [this]
    | throw e => rfl
    | ub => rfl
    | nonfinite => rfl

theorem objPredictCore_quiet (d' : CRSDistance) (b : BandwidthWeight) (x : Matrix (Fin n) (Fin k) ℝ) (y : Fin n → ℝ) (ex : Exec m) :
    (objPredictCore d' b x y (fun _ => false) ex).1 = false := by
  cases ex with
  | serial => simp only [objPredictCore, predictLoop, sawStop_quiet]
  | omp evs =>
    simp only [objPredictCore]
    cases hW : weightRows d' b n m with
    | ok W => exact ompRun_quiet _ _
    | throw e => rfl
    | ub => rfl
    | nonfinite => rfl

/-- Every part of a run keeps a status Terminated. -/
def Sticky (p : ObjRun α) : Prop := ∀ o, o.terminated = true → (p o).1.terminated = true

theorem sticky_bind {p : ObjRun α} {f : α → ObjRun β} (hp : Sticky p) (hf : ∀ a, Sticky (f a)) : Sticky (p.bind f) := by
  intro o ho
  have h := hp o ho
  unfold ObjRun.bind
  rcases hpo : p o with ⟨o', r⟩
  rw [hpo] at h
  cases r with
  | ok a => exact hf a o' h
  | throw e => exact h
  | ub => exact h
  | nonfinite => exact h

theorem sticky_ret (a : α) : Sticky (ObjRun.ret a) := fun _ h => h

theorem sticky_poll (b : Bool) : Sticky (objPoll b) := fun o h => by simp [objPoll, h]

theorem sticky_bindLoc (l c : DynMat) : Sticky (objBind l c) := fun o h => by
  unfold objBind
  rcases o.distance.makeParameter [.mat l, .mat c] with ⟨d', r⟩
  cases r <;> exact h

theorem sticky_select (c : FitCall n k) : Sticky (objSelect c) := by
  unfold objSelect
  cases c.auto with
  | none => exact sticky_ret _
  | some cr =>
    intro o h
    dsimp only
    cases gwrUpper o.distance o.weight n c.upper <;> simp [h]

theorem sticky_fit (c : FitCall n k) : Sticky (objFit c) := by
  refine sticky_bind (sticky_bindLoc _ _) fun _ => sticky_bind (sticky_poll _) fun s1 => ?_
  split
  · exact sticky_ret _
  refine sticky_bind (sticky_select c) fun r => sticky_bind (sticky_poll _) fun s2 => ?_
  split
  · exact sticky_ret _
  exact sticky_bind (fun o h => by simp [objFinish, h]) fun g => sticky_ret _

theorem sticky_predict (c : PredictCall n k m) : Sticky (objPredict c) := by
  refine sticky_bind (sticky_bindLoc _ _) fun _ => sticky_bind (sticky_poll _) fun s1 => ?_
  split
  · exact sticky_ret _
  refine sticky_bind (fun o h => by simp [h]) fun B => sticky_bind (sticky_poll _) fun s2 => ?_
  split
  · exact sticky_ret _
  · exact sticky_ret _

theorem bind_state {p : ObjRun α} {f : α → ObjRun β} (hf : ∀ a, Sticky (f a)) {o : GWRObj} (h : (p.bind f o).1.terminated = false) :
    (p o).1.terminated = false := by
  by_contra hn
  rw [Bool.not_eq_false] at hn
  unfold ObjRun.bind at h
  rcases hpo : p o with ⟨o', r⟩
  rw [hpo] at h hn
  cases r with
  | ok a => rw [hf a o' hn] at h; cases h
  | throw e => rw [hn] at h; cases h
  | ub => rw [hn] at h; cases h
  | nonfinite => rw [hn] at h; cases h

/-- Replace the second part of a run by one that agrees whenever the status stays Success. -/
theorem bind_congr {p p' : ObjRun α} {f f' : α → ObjRun β} (hf : ∀ a, Sticky (f a)) {o : GWRObj} (h : (p.bind f o).1.terminated = false)
    (hp : (p o).1.terminated = false → p' o = p o) (hff : ∀ a o', p o = (o', .ok a) → (f a o').1.terminated = false → f' a o' = f a o') :
    p'.bind f' o = p.bind f o := by
  have hp' := hp (bind_state hf h)
  unfold ObjRun.bind at h ⊢
  rw [hp']
  rcases hpo : p o with ⟨o', r⟩
  rw [hpo] at h
  cases r with
  | ok a => exact hff a o' hpo h
  | throw e => rfl
  | ub => rfl
  | nonfinite => rfl

theorem poll_unstopped {b : Bool} {o : GWRObj} (h : (objPoll b o).1.terminated = false) : objPoll false o = objPoll b o := by
  obtain ⟨-, rfl⟩ := Bool.or_eq_false_iff.1 h
  rfl

theorem select_unstopped {c : FitCall n k} {o : GWRObj} (h : (objSelect c o).1.terminated = false) :
    objSelect (undisturbedFit c) o = objSelect c o := by
  unfold objSelect at h ⊢
  rw [show (undisturbedFit c).auto = c.auto from rfl]
  cases hc : c.auto with
  | none => rfl
  | some cr =>
    rw [hc] at h
    rw [show (undisturbedFit c).upper = c.upper from rfl]
    dsimp only at h ⊢
    cases hu : gwrUpper o.distance o.weight n c.upper with
    | ok u =>
      rw [hu] at h
      obtain ⟨h1, h2⟩ := Bool.or_eq_false_iff.1 h
      have : objSearch (undisturbedFit c) cr o u = objSearch c cr o u := by
        refine optimize_congr (fun j w hw => ?_) fun e he => ?_
        · have := (objCriterion_unstopped _ _ _ _ _ _ _ _ (Bool.not_eq_true' _ ▸ hw)).2
          simp only [undisturbedFit]
          rw [this]
        · rw [List.any_eq_false] at h2
          simpa using h2 e he
      dsimp only
      rw [this]
    | throw e => rfl
    | ub => rfl
    | nonfinite => rfl

/-- **C123 (status of a fit).** If the status is Success after a fit, it was Success before, and the fit returned (or threw) exactly what it would
have without any stop request. In particular it did not return a matrix of zeros because of one. Any mode, schedule and setting. -/
theorem C123_success_certifies_fit (c : FitCall n k) (o : GWRObj) (h : (objFit c o).1.terminated = false) :
    o.terminated = false ∧ objFit (undisturbedFit c) o = objFit c o := by
  refine ⟨?_, ?_⟩
  · by_contra hn
    rw [Bool.not_eq_false] at hn
    rw [sticky_fit c o hn] at h
    cases h
  have s3 : ∀ (r : Option SearchResult) (g : GWRReport n k), Sticky (ObjRun.ret (FitOut.full r g)) := fun _ _ => sticky_ret _
  have s2 : ∀ (r : Option SearchResult) (s2 : Bool), Sticky (α := FitOut n k) (if s2 = true then ObjRun.ret .zeros
      else (objFinish c).bind fun g => ObjRun.ret (.full r g)) := fun r s2 => by
    split
    · exact sticky_ret _
    · exact sticky_bind (fun o h => by simp [objFinish, h]) fun g => sticky_ret _
  have s1 : ∀ s1 : Bool, Sticky (α := FitOut n k) (if s1 = true then ObjRun.ret .zeros
    else (objSelect c).bind fun r => (objPoll (c.auto.isSome && c.pollMid)).bind fun s2 =>
      if s2 = true then ObjRun.ret .zeros
      else (objFinish c).bind fun g => ObjRun.ret (.full r g)) := fun s1 => by
    split
    · exact sticky_ret _
    · exact sticky_bind (sticky_select c) fun r => sticky_bind (sticky_poll _) (s2 r)
  refine bind_congr (fun _ => sticky_bind (sticky_poll _) s1) h (fun _ => rfl) fun _ o1 _ h1 => ?_
  refine bind_congr s1 h1 (fun hp => poll_unstopped hp) fun a1 o2 _ h2 => ?_
  cases a1 with
  | true => rfl
  | false =>
    simp only [Bool.false_eq_true, if_false] at h2 ⊢
    refine bind_congr (fun r => sticky_bind (sticky_poll _) (s2 r)) h2 (fun hp => select_unstopped hp) fun r o3 _ h3 => ?_
    refine bind_congr (s2 r) h3 (fun hp => ?_) fun a2 o4 _ h4 => ?_
    · have := poll_unstopped hp
      rw [← this]
      show objPoll (c.auto.isSome && false) o3 = _
      rw [Bool.and_false]
    cases a2 with
    | true => rfl
    | false =>
      simp only [Bool.false_eq_true, if_false] at h4 ⊢
      refine bind_congr (s3 r) h4 (fun hp => ?_) fun _ _ _ _ => rfl
      have := objCore_unstopped _ _ _ _ _ _ _ _ (Bool.or_eq_false_iff.1 hp).2
      simp only [objFinish, undisturbedFit]
      rw [this]

/-- **C123 (status of a prediction).** The same for a prediction. -/
theorem C123_success_certifies_prediction (c : PredictCall n k m) (o : GWRObj) (h : (objPredict c o).1.terminated = false) :
    o.terminated = false ∧ objPredict (undisturbedPredict c) o = objPredict c o := by
  refine ⟨?_, ?_⟩
  · by_contra hn
    rw [Bool.not_eq_false] at hn
    rw [sticky_predict c o hn] at h
    cases h
  have s3 : ∀ (B : Matrix (Fin m) (Fin k) ℝ) (s2 : Bool), Sticky (α := Σ r : ℕ, Matrix (Fin r) (Fin k) ℝ)
      (if s2 = true then ObjRun.ret ⟨n, 0⟩ else ObjRun.ret ⟨m, B⟩) := fun B s2 => by
    split <;> exact sticky_ret _
  have s1 : ∀ s1 : Bool, Sticky (α := Σ r : ℕ, Matrix (Fin r) (Fin k) ℝ) (if s1 = true then ObjRun.ret ⟨n, 0⟩
    else ObjRun.bind (fun o => ({ o with terminated := o.terminated || (objPredictCore (m := m) o.distance o.weight c.x c.y c.pollCore c.ex).1 },
        (objPredictCore o.distance o.weight c.x c.y c.pollCore c.ex).2)) fun B =>
      (objPoll c.pollEnd).bind fun s2 => if s2 = true then ObjRun.ret ⟨n, 0⟩ else ObjRun.ret ⟨m, B⟩) := fun s1 => by
    split
    · exact sticky_ret _
    · exact sticky_bind (fun o h => by simp [h]) fun B => sticky_bind (sticky_poll _) (s3 B)
  refine bind_congr (fun _ => sticky_bind (sticky_poll _) s1) h (fun _ => rfl) fun _ o1 _ h1 => ?_
  refine bind_congr s1 h1 (fun hp => poll_unstopped hp) fun a1 o2 _ h2 => ?_
  cases a1 with
  | true => rfl
  | false =>
    simp only [Bool.false_eq_true, if_false] at h2 ⊢
    refine bind_congr (fun B => sticky_bind (sticky_poll _) (s3 B)) h2 (fun hp => ?_) fun B o3 _ h3 => ?_
    · have := objPredictCore_unstopped _ _ _ _ _ _ (Bool.or_eq_false_iff.1 hp).2
      simp only [undisturbedPredict]
      rw [this]
    refine bind_congr (s3 B) h3 (fun hp => poll_unstopped hp) fun a2 o4 _ h4 => rfl

/-! ## Histories -/

theorem bind_cases (p : ObjRun α) (f : α → ObjRun β) (o : GWRObj) :
    (∃ a o', p o = (o', .ok a) ∧ p.bind f o = f a o') ∨ (p.bind f o).1 = (p o).1 := by
  unfold ObjRun.bind
  rcases p o with ⟨o', r⟩
  cases r with
  | ok a => exact .inl ⟨a, o', rfl, rfl⟩
  | throw e => exact .inr rfl
  | ub => exact .inr rfl
  | nonfinite => exact .inr rfl

/-- What runs without stop requests keep: the status, and the kind of the weight and of the coordinates. -/
def Keeps (p : ObjRun α) : Prop := ∀ o, (p o).1.terminated = o.terminated ∧ (p o).1.weight.mAdaptive = o.weight.mAdaptive ∧
  (p o).1.weight.mKernel = o.weight.mKernel ∧ (p o).1.distance.mGeographic = o.distance.mGeographic

theorem keeps_bind {p : ObjRun α} {f : α → ObjRun β} (hp : Keeps p) (hf : ∀ a, Keeps (f a)) : Keeps (p.bind f) := by
  intro o
  obtain ⟨p1, p2, p3, p4⟩ := hp o
  rcases bind_cases p f o with ⟨a, o', h, e⟩ | e
  · rw [e]
    rw [h] at p1 p2 p3 p4
    obtain ⟨f1, f2, f3, f4⟩ := hf a o'
    exact ⟨f1.trans p1, f2.trans p2, f3.trans p3, f4.trans p4⟩
  · rw [e]; exact ⟨p1, p2, p3, p4⟩

theorem keeps_ret (a : α) : Keeps (ObjRun.ret a) := fun _ => ⟨rfl, rfl, rfl, rfl⟩

theorem keeps_poll : Keeps (objPoll false) := fun _ => ⟨Bool.or_false _, rfl, rfl, rfl⟩

theorem geographic_makeParameter (d : CRSDistance) (l : List DistParam) : (d.makeParameter l).1.mGeographic = d.mGeographic := by
  unfold CRSDistance.makeParameter
  split
  · split
    · split <;> rfl
    · rfl
  · rfl

theorem keeps_bindLoc (l c : DynMat) : Keeps (objBind l c) := fun o => by
  have := geographic_makeParameter o.distance [.mat l, .mat c]
  unfold objBind
  rcases h : o.distance.makeParameter [.mat l, .mat c] with ⟨d', r⟩
  rw [h] at this
  cases r <;> exact ⟨rfl, rfl, rfl, this⟩

theorem quiet_oracle {c : FitCall n k} (hc : FitUndisturbed c) (cr : Crit) (o : GWRObj) (j : ℕ) (b : BandwidthWeight) :
    (objCriterion cr o.distance c.x c.y b o.terminated (c.pollCrit j) (c.sched j)).1 = o.terminated := by
  rw [show c.pollCrit j = fun _ => false from funext (hc.2.1 j)]
  exact objCriterion_quiet ..

theorem keeps_select {c : FitCall n k} (hc : FitUndisturbed c) : Keeps (objSelect c) := by
  unfold objSelect
  cases c.auto with
  | none => exact keeps_ret _
  | some cr =>
    intro o
    dsimp only
    cases gwrUpper o.distance o.weight n c.upper with
    | ok u =>
      have hkind : (afterSearch o.weight (objSearch c cr o u).out).mAdaptive = o.weight.mAdaptive ∧
          (afterSearch o.weight (objSearch c cr o u).out).mKernel = o.weight.mKernel := by
        cases ho : (objSearch c cr o u).out with
        | ok b => exact (C17_kernel_kind_kept _ _ _ _ _ _ ho).symm
        | throw e => exact ⟨rfl, rfl⟩
        | ub => exact ⟨rfl, rfl⟩
        | nonfinite => exact ⟨rfl, rfl⟩
      refine ⟨?_, hkind.1, hkind.2, rfl⟩
      dsimp only
      by_cases ht : o.terminated = true
      · rw [ht, Bool.true_or]
      · rw [Bool.not_eq_true] at ht
        rw [ht, Bool.false_or, List.any_eq_false]
        intro e he
        obtain ⟨j, hj⟩ := evals_oracle _ _ _ _ _ e he
        have h1 := (Prod.mk.inj hj).1
        rw [quiet_oracle hc, ht] at h1
        rw [← h1]
        decide
    | throw e => exact ⟨rfl, rfl, rfl, rfl⟩
    | ub => exact ⟨rfl, rfl, rfl, rfl⟩
    | nonfinite => exact ⟨rfl, rfl, rfl, rfl⟩

theorem keeps_fit {c : FitCall n k} (hc : FitUndisturbed c) : Keeps (objFit c) := by
  obtain ⟨h1, h2, h3, h4⟩ := hc
  unfold objFit
  rw [h1, h3, Bool.and_false]
  refine keeps_bind (keeps_bindLoc _ _) fun _ => keeps_bind keeps_poll fun s1 => ?_
  split
  · exact keeps_ret _
  refine keeps_bind (keeps_select ⟨h1, h2, h3, h4⟩) fun r => keeps_bind keeps_poll fun s2 => ?_
  split
  · exact keeps_ret _
  refine keeps_bind (fun o => ⟨?_, rfl, rfl, rfl⟩) fun g => keeps_ret _
  simp only [objFinish, show c.pollCore = fun _ => false from funext h4, objCore_quiet, Bool.or_false]

theorem keeps_predict {c : PredictCall n k m} (hc : PredictUndisturbed c) : Keeps (objPredict c) := by
  obtain ⟨h1, h2, h3⟩ := hc
  unfold objPredict
  rw [h1, h3]
  refine keeps_bind (keeps_bindLoc _ _) fun _ => keeps_bind keeps_poll fun s1 => ?_
  split
  · exact keeps_ret _
  refine keeps_bind (fun o => ⟨?_, rfl, rfl, rfl⟩) fun B => keeps_bind keeps_poll fun s2 => ?_
  · simp only [show c.pollCore = fun _ => false from funext h2, objPredictCore_quiet, Bool.or_false]
  · split <;> exact keeps_ret _

theorem keeps_step {o : GWRObj} {call : ObjCall} (hu : Undisturbed call) (hr : IsRun call) :
    (objStep o call).terminated = o.terminated ∧ (objStep o call).weight.mAdaptive = o.weight.mAdaptive ∧
    (objStep o call).weight.mKernel = o.weight.mKernel ∧ (objStep o call).distance.mGeographic = o.distance.mGeographic := by
  cases call with
  | fit n k c => exact keeps_fit hu o
  | predict n k m c => exact keeps_predict hu o
  | setSpatialWeight b d => cases hr

theorem keeps_after : ∀ (calls : List ObjCall) (o : GWRObj), (∀ c ∈ calls, Undisturbed c) → (∀ c ∈ calls, IsRun c) →
    (objAfter o calls).terminated = o.terminated ∧ (objAfter o calls).weight.mAdaptive = o.weight.mAdaptive ∧
    (objAfter o calls).weight.mKernel = o.weight.mKernel ∧ (objAfter o calls).distance.mGeographic = o.distance.mGeographic := by
  intro calls
  induction calls with
  | nil => intro o _ _; exact ⟨rfl, rfl, rfl, rfl⟩
  | cons c cs ih =>
    intro o hu hr
    obtain ⟨a1, a2, a3, a4⟩ := ih (objStep o c) (fun c' h => hu c' (List.mem_cons_of_mem _ h)) fun c' h => hr c' (List.mem_cons_of_mem _ h)
    obtain ⟨b1, b2, b3, b4⟩ := keeps_step (o := o) (hu c (List.mem_cons_self ..)) (hr c (List.mem_cons_self ..))
    exact ⟨a1.trans b1, a2.trans b2, a3.trans b3, a4.trans b4⟩

theorem sticky_step {o : GWRObj} (h : o.terminated = true) (call : ObjCall) : (objStep o call).terminated = true := by
  cases call with
  | fit n k c => exact sticky_fit c o h
  | predict n k m c => exact sticky_predict c o h
  | setSpatialWeight b d => exact h

theorem sticky_after : ∀ (calls : List ObjCall) (o : GWRObj), o.terminated = true → (objAfter o calls).terminated = true := by
  intro calls
  induction calls with
  | nil => intro o h; exact h
  | cons c cs ih => intro o h; exact ih _ (sticky_step h c)

/-- **C123 (status of an object).** An object none of whose runs was asked to stop has status Success after every sequence of calls. Once the status is
Terminated, it is so after every further sequence of calls, whether these are asked to stop or not. A fit or prediction that is asked to stop at its
first poll leaves it Terminated. -/
theorem C123_status (b : BandwidthWeight) (d : CRSDistance) (o : GWRObj) (calls : List ObjCall) :
    ((∀ c ∈ calls, Undisturbed c) → (objAfter (GWRObj.new b d) calls).terminated = false) ∧
    (o.terminated = true → (objAfter o calls).terminated = true) ∧
    (∀ (n k : ℕ) (c : FitCall n k), c.coords.nCols = 2 → c.pollInit = true → (objFit c o).1.terminated = true ∧ (objFit c o).2 = .ok .zeros) ∧
    (∀ (n k m : ℕ) (c : PredictCall n k m), c.locations.nCols = 2 → c.coords.nCols = 2 → c.pollInit = true → (objPredict c o).1.terminated = true) := by
  refine ⟨fun h => ?_, sticky_after calls o, fun n k c hc hp => ?_, fun n k m c hl hc hp => ?_⟩
  · have : ∀ (calls : List ObjCall) (o : GWRObj), o.terminated = false → (∀ c ∈ calls, Undisturbed c) → (objAfter o calls).terminated = false := by
      intro calls
      induction calls with
      | nil => intro o h _; exact h
      | cons c cs ih =>
        intro o h hu
        refine ih _ ?_ fun c' h => hu c' (List.mem_cons_of_mem _ h)
        have huc := hu c (List.mem_cons_self ..)
        cases c with
        | fit n k c => exact (keeps_fit huc o).1.trans h
        | predict n k m c => exact (keeps_predict huc o).1.trans h
        | setSpatialWeight b d => exact h
    exact this calls _ rfl h
  · simp [objFit, ObjRun.bind, objBind, CRSDistance.makeParameter, DistParam.getMat, hc, objPoll, hp, ObjRun.ret]
  · simp [objPredict, ObjRun.bind, objBind, CRSDistance.makeParameter, DistParam.getMat, hc, hl, objPoll, hp, ObjRun.ret]

/-! ## Repeated fits -/

theorem bind_result (p : ObjRun α) (f : α → ObjRun β) (o : GWRObj) :
    (p.bind f o).2 = (p o).2.bind fun a => (f a (p o).1).2 := by
  unfold ObjRun.bind
  rcases p o with ⟨o', r⟩
  cases r <;> rfl

theorem bindLoc_cases (o : GWRObj) (l c : DynMat) :
    (l.nCols = 2 ∧ c.nCols = 2 ∧ objBind l c o = ({ o with distance := ⟨o.distance.mGeographic, some (l, c)⟩ }, .ok ())) ∨
    (¬ (l.nCols = 2 ∧ c.nCols = 2) ∧ (objBind l c o).2 = .throw .runtime) := by
  by_cases h : l.nCols = 2 ∧ c.nCols = 2
  · exact .inl ⟨h.1, h.2, by simp [objBind, CRSDistance.makeParameter, DistParam.getMat, h]⟩
  · exact .inr ⟨h, by simp [objBind, CRSDistance.makeParameter, DistParam.getMat, h]⟩

/-- The part of a fit after the distance has its parameter. -/
noncomputable def fitTail (c : FitCall n k) : ObjRun (FitOut n k) :=
  (objPoll c.pollInit).bind fun s1 =>
    if s1 = true then ObjRun.ret .zeros
    else (objSelect c).bind fun r => (objPoll (c.auto.isSome && c.pollMid)).bind fun s2 =>
      if s2 = true then ObjRun.ret .zeros
      else (objFinish c).bind fun g => ObjRun.ret (.full r g)

theorem fit_result (c : FitCall n k) (o : GWRObj) :
    (objFit c o).2 = if c.coords.nCols = 2 then (fitTail c { o with distance := ⟨o.distance.mGeographic, some (c.coords, c.coords)⟩ }).2 else .throw .runtime := by
  unfold objFit
  rw [bind_result]
  rcases bindLoc_cases o c.coords c.coords with ⟨h1, -, h2⟩ | ⟨h1, h2⟩
  · rw [h2, if_pos h1]; rfl
  · rw [h2, if_neg (fun h => h1 ⟨h, h⟩)]; rfl

theorem fit_same {c : FitCall n k} (hc : FitUndisturbed c) {o o' : GWRObj} (h0 : o.terminated = false) (h0' : o'.terminated = false)
    (h1 : o'.weight.mAdaptive = o.weight.mAdaptive) (h2 : o'.weight.mKernel = o.weight.mKernel)
    (h3 : o'.distance.mGeographic = o.distance.mGeographic) (h4 : c.auto.isSome = true) : (objFit c o').2 = (objFit c o).2 := by
  rw [fit_result, fit_result, h3]
  split
  swap
  · rfl
  obtain ⟨cr, hcr⟩ := Option.isSome_iff_exists.1 h4
  generalize (⟨o.distance.mGeographic, some (c.coords, c.coords)⟩ : CRSDistance) = D
  have hsel : objSelect c { o' with distance := D } = (({ (objSelect c { o with distance := D }).1 with
      weight := (match (objSelect c { o with distance := D }).2 with | .ok _ => (objSelect c { o with distance := D }).1.weight | _ => o'.weight) }),
      (objSelect c { o with distance := D }).2) := by
    unfold objSelect
    rw [hcr]
    dsimp only
    have hu : gwrUpper D o'.weight n c.upper = gwrUpper D o.weight n c.upper := by
      unfold gwrUpper; rw [h1]
    rw [hu]
    cases gwrUpper D o.weight n c.upper with
    | ok u =>
      have hs : objSearch c cr { o' with distance := D } u = objSearch c cr { o with distance := D } u := by
        unfold objSearch
        dsimp only
        rw [h0, h0', h1]
        refine optimize_start h1 h2 fun j w => ?_
        have := quiet_oracle hc cr ⟨false, o.weight, D⟩ j w
        dsimp only at this ⊢
        rw [this]; rfl
      dsimp only
      rw [hs, h0, h0']
      rcases objSearch c cr ⟨false, o.weight, D⟩ u with ⟨out, evals, crit⟩
      cases out <;> rfl
    | throw e => dsimp only; rw [h0, h0']
    | ub => dsimp only; rw [h0, h0']
    | nonfinite => dsimp only; rw [h0, h0']
  unfold fitTail
  rw [hc.1, hc.2.2.1, Bool.and_false]
  simp only [bind_result, objPoll, Res.bind, Bool.false_eq_true, if_false, Bool.or_false]
  rw [hsel]
  cases hr : (objSelect c { o with distance := D }).2 with
  | ok r => rfl
  | throw e => rfl
  | ub => rfl
  | nonfinite => rfl

/-- **C123 (repeated fits).** Fits and predictions leave no trace in later fits, unless one was asked to stop: after any sequence of fits and predictions,
with whatever data and settings, completed or failed, a fit with automatic selection of the bandwidth returns (or throws) exactly what it does on a
new object. -/
theorem C123_refit (b : BandwidthWeight) (d : CRSDistance) (calls : List ObjCall) (hu : ∀ c ∈ calls, Undisturbed c) (hr : ∀ c ∈ calls, IsRun c)
    (c : FitCall n k) (hc : FitUndisturbed c) (ha : c.auto.isSome = true) :
    (objFit c (objAfter (GWRObj.new b d) calls)).2 = (objFit c (GWRObj.new b d)).2 := by
  obtain ⟨a1, a2, a3, a4⟩ := keeps_after calls (GWRObj.new b d) hu hr
  exact fit_same hc rfl a1 a2 a3 a4 ha

/-- The part of a prediction after the distance has its parameter. -/
noncomputable def predictTail (c : PredictCall n k m) : ObjRun (Σ r : ℕ, Matrix (Fin r) (Fin k) ℝ) :=
  (objPoll c.pollInit).bind fun s1 =>
    if s1 = true then ObjRun.ret ⟨n, 0⟩
    else ObjRun.bind (fun o => ({ o with terminated := o.terminated || (objPredictCore (m := m) o.distance o.weight c.x c.y c.pollCore c.ex).1 },
        (objPredictCore o.distance o.weight c.x c.y c.pollCore c.ex).2)) fun B =>
      (objPoll c.pollEnd).bind fun s2 => if s2 = true then ObjRun.ret ⟨n, 0⟩ else ObjRun.ret ⟨m, B⟩

theorem predict_result (c : PredictCall n k m) (o : GWRObj) :
    (objPredict c o).2 = if c.locations.nCols = 2 ∧ c.coords.nCols = 2 then
      (predictTail c { o with distance := ⟨o.distance.mGeographic, some (c.locations, c.coords)⟩ }).2 else .throw .runtime := by
  unfold objPredict
  rw [bind_result]
  rcases bindLoc_cases o c.locations c.coords with ⟨h1, h1', h2⟩ | ⟨h1, h2⟩
  · rw [h2, if_pos ⟨h1, h1'⟩]; rfl
  · rw [h2, if_neg h1]; rfl

/-- **C123 (given bandwidth).** A fit with a given bandwidth, or a prediction, returns what it does on a new object with the weight in force: nothing else
of the past matters, not even a stop request. -/
theorem C123_given_bandwidth (o : GWRObj) (c : FitCall n k) (ha : c.auto = none) (p : PredictCall n k m) :
    (objFit c o).2 = (objFit c (GWRObj.new o.weight o.distance)).2 ∧ (objPredict p o).2 = (objPredict p (GWRObj.new o.weight o.distance)).2 := by
  constructor
  · rw [fit_result, fit_result]
    split
    · cases hp : c.pollInit with
      | true => simp only [fitTail, hp, bind_result, objPoll, Res.bind, if_true, ObjRun.ret]
      | false => simp only [fitTail, hp, bind_result, objPoll, Res.bind, Bool.false_eq_true, if_false, ObjRun.ret, objSelect, ha, Option.isSome_none, Bool.false_and, objFinish, GWRObj.new]
    · rfl
  · rw [predict_result, predict_result]
    split
    · cases hp : p.pollInit with
      | true => simp only [predictTail, hp, bind_result, objPoll, Res.bind, if_true, ObjRun.ret]
      | false =>
        simp only [predictTail, hp, bind_result, objPoll, Res.bind, Bool.false_eq_true, if_false, GWRObj.new]
        congr 1
        funext B
        split <;> rfl
    · rfl

theorem search_terminated {o : GWRObj} (ho : o.terminated = true) (c : FitCall n k) (cr : Crit) (D : CRSDistance) (u : ℝ) :
    (objSearch c cr ⟨o.terminated, o.weight, D⟩ u).evals.length = 2 ∧ (objSearch c cr ⟨o.terminated, o.weight, D⟩ u).out = .ok o.weight ∧
      ∀ e ∈ (objSearch c cr ⟨o.terminated, o.weight, D⟩ u).evals, e.f = dblMax := by
  have hev : ∀ j w, (!(objCriterion cr D c.x c.y w true (c.pollCrit j) (c.sched j)).1) = false := fun j w => by
    rw [objCriterion_terminated]; rfl
  have hval : ∀ j w, (objCriterion cr D c.x c.y w true (c.pollCrit j) (c.sched j)).2 = dblMax := fun j w => by
    cases c.sched j <;> cases cr <;> simp only [objCriterion, criterionCV, criterionAIC, Bool.true_eq_false, false_and, if_false]
    · split <;> rfl
    · split
      · split <;> rfl
      · rfl
    · split <;> rfl
  unfold objSearch
  dsimp only
  rw [ho]
  simp only [hev, hval]
  refine ⟨?_, ?_, fun e he => ?_⟩
  · simp [optimize, goldenInit]
  · simp [optimize, goldenInit]
  · obtain ⟨j, hj⟩ := evals_oracle _ _ _ _ _ e he
    exact (Prod.mk.inj hj).2.symm

/-- **C123 (after a stop request), refuted.** Once the status is Terminated, automatic selection is switched off for good: a later fit that nobody asks to stop
evaluates the criterion twice, ignores the values and fits with the bandwidth it had. -/
theorem C123_terminated_never_searches (o : GWRObj) (ho : o.terminated = true) (c : FitCall n k) (s : Option SearchResult)
    (g : GWRReport n k) (h : (objFit c o).2 = .ok (.full s g)) :
    g.weight = o.weight ∧ ∀ r, s = some r → r.evals.length = 2 ∧ r.out = .ok o.weight ∧ ∀ e ∈ r.evals, e.f = dblMax := by
  rw [fit_result] at h
  split at h
  swap
  · cases h
  generalize (⟨o.distance.mGeographic, some (c.coords, c.coords)⟩ : CRSDistance) = D at h
  unfold fitTail at h
  cases hp : c.pollInit with
  | true => simp [hp, bind_result, objPoll, Res.bind, ObjRun.ret] at h
  | false =>
    simp only [hp, bind_result, objPoll, Res.bind, Bool.false_eq_true, if_false, Bool.or_false] at h
    cases hc : c.auto with
    | none =>
      simp only [objSelect, hc, ObjRun.ret, Res.bind, Option.isSome_none, Bool.false_and, Bool.false_eq_true, if_false, bind_result] at h
      obtain ⟨g', h1, h2⟩ := Res.bind_eq_ok'.1 h
      obtain ⟨a, -, h3⟩ := Res.bind_eq_ok'.1 h1
      cases Res.ok.inj h2
      refine ⟨by rw [← Res.ok.inj h3], fun r hr => by cases hr⟩
    | some cr =>
      obtain ⟨r, h1, h⟩ := Res.bind_eq_ok'.1 h
      simp only [objSelect, hc] at h1 h
      cases hu : gwrUpper D o.weight n c.upper with
      | throw e => simp only [hu] at h1; cases h1
      | ub => simp only [hu] at h1; cases h1
      | nonfinite => simp only [hu] at h1; cases h1
      | ok u =>
        simp only [hu] at h1 h
        obtain ⟨s1, s2, s3⟩ := search_terminated ho c cr D u
        rw [s2] at h1 h
        cases Res.ok.inj h1
        dsimp only [Option.isSome_some, afterSearch] at h
        simp only [Bool.true_and] at h
        cases hm : c.pollMid with
        | true => simp [hm, ObjRun.ret] at h
        | false =>
          simp only [hm, Bool.false_eq_true, if_false, bind_result, Bool.or_false, ObjRun.ret] at h
          obtain ⟨g', h1, h2⟩ := Res.bind_eq_ok'.1 h
          obtain ⟨a, -, h3⟩ := Res.bind_eq_ok'.1 h1
          cases Res.ok.inj h2
          refine ⟨by rw [← Res.ok.inj h3], fun r hr => ?_⟩
          cases hr
          exact ⟨s1, s2, s3⟩

/-! ## The runs of a new object are the runs described in C118 and C119 -/

theorem res_bind_ok {α β : Type*} (a : α) (f : α → Res β) : (Res.ok a).bind f = f a := rfl

theorem rows_or {d' : CRSDistance} {b : BandwidthWeight} (m : ℕ) :
    (∃ W, weightRows d' b n m = .ok W) ∨ ∃ i : Fin m, ∀ w, weightVector d' b n i ≠ .ok w := by
  by_cases h : ∀ i : Fin m, ∃ w, weightVector d' b n i = .ok w
  · choose W hW using h
    exact .inl ⟨W, Res.tabulate_eq_ok.2 hW⟩
  · push Not at h
    exact .inr h

theorem loop_fails {g : (Fin n → ℝ) → Fin n → Res ρ} {d' : CRSDistance} {b : BandwidthWeight} {upd : Fin n → ρ → σ → σ} {s : σ} {i : Fin n}
    (hi : ∀ w, weightVector d' b n i ≠ .ok w) (p : σ × Bool) :
    serialFor (fun i : Fin n => (weightVector d' b n i).bind fun w => g w i) upd (fun _ => false) (workRange n 0 n) 0 s ≠ .ok p := by
  intro h
  obtain ⟨s', t⟩ := p
  have ht : t = false := by
    have := sawStop_quiet (g := fun i : Fin n => (weightVector d' b n i).bind fun w => g w i) (upd := upd) (workRange n 0 n) 0 s
    rw [h] at this
    exact this
  subst ht
  obtain ⟨r, hr⟩ := serialFor_complete _ _ _ _ h i (by rw [workRange_all]; exact List.mem_finRange i)
  obtain ⟨w, hw, -⟩ := Res.bind_eq_ok'.1 hr
  exact hi w hw

theorem objCriterion_new (c : Crit) (d' : CRSDistance) (x : Matrix (Fin n) (Fin k) ℝ) (y : Fin n → ℝ) (b : BandwidthWeight) (ex : Exec n) :
    objCriterion c d' x y b false (fun _ => false) ex = (false, gwrCriterionEx c d' x y b ex) := by
  refine Prod.ext (objCriterion_quiet ..) ?_
  cases ex with
  | serial =>
    rcases rows_or (d' := d') (b := b) (n := n) n with ⟨W, hW⟩ | ⟨i, hi⟩
    · have hi : ∀ i : Fin n, weightVector d' b n i = .ok (W i) := fun i => Res.tabulate_eq_ok.1 hW i
      cases c <;> simp only [objCriterion, gwrCriterionEx, gwrCriterion, hW, cvLoop, aicLoop, hi, Res.bind] <;> rfl
    · have hW : ∀ W, weightRows d' b n n ≠ .ok W := fun W h => hi _ (Res.tabulate_eq_ok.1 h i)
      have e : gwrCriterion c d' x y b = dblMax := by
        unfold gwrCriterion
        cases h : weightRows d' b n n with
        | ok W => exact absurd h (hW W)
        | throw e => rfl
        | ub => rfl
        | nonfinite => rfl
      simp only [gwrCriterionEx, e]
      cases c with
      | CV =>
        have := loop_fails (g := fun w i => localBeta x y (Function.update w i 0)) (upd := setRow) (s := (0 : Matrix (Fin n) (Fin k) ℝ)) hi
        simp only [objCriterion, cvLoop, criterionCV]
        split
        · rename_i h; exact absurd h (this _)
        · rfl
      | AIC =>
        have := loop_fails (g := fun w i => localFit x y w (x i)) (upd := shatUpd) (s := ((0, 0) : Matrix (Fin n) (Fin k) ℝ × (Fin 2 → ℝ))) hi
        simp only [objCriterion, aicLoop, criterionAIC]
        split
        · rename_i h; exact absurd h (this _)
        · rfl
  | omp evs => cases c <;> rfl

theorem objCore_new (d' : CRSDistance) (b : BandwidthWeight) (x : Matrix (Fin n) (Fin k) ℝ) (y : Fin n → ℝ) (sS sC : Bool) (ex : Exec n)
    (a : FitAcc n k) : (objCore d' b x y sS sC (fun _ => false) ex).2 = .ok a ↔
      ∃ W, summaryEscape ex (weightRows d' b n n) = .ok W ∧ gwrCoreEx x y W sS sC ex = .ok a := by
  cases ex with
  | serial =>
    rcases rows_or (d' := d') (b := b) (n := n) n with ⟨W, hW⟩ | ⟨i, hi⟩
    · have hi : ∀ i : Fin n, weightVector d' b n i = .ok (W i) := fun i => Res.tabulate_eq_ok.1 hW i
      simp only [objCore, fitLoop, hi, Res.bind, hW, summaryEscape, gwrCoreEx, fitCoreSerial]
      constructor
      · intro h; exact ⟨W, rfl, h⟩
      · rintro ⟨W', e, h⟩; cases Res.ok.inj e; exact h
    · have hW : ∀ W, weightRows d' b n n ≠ .ok W := fun W h => hi _ (Res.tabulate_eq_ok.1 h i)
      constructor
      · intro h
        obtain ⟨p, hp, -⟩ := Res.bind_eq_ok'.1 h
        exact absurd hp (loop_fails (g := fun w i => localFit x y w (x i)) hi p)
      · rintro ⟨W, h, -⟩; exact absurd h (hW W)
  | omp evs =>
    simp only [objCore]
    cases hW : weightRows d' b n n with
    | ok W =>
      simp only [fitLoopOmp, summaryEscape, gwrCoreEx]
      constructor
      · intro h; exact ⟨W, rfl, h⟩
      · rintro ⟨W', e, h⟩; cases Res.ok.inj e; exact h
    | throw e => constructor <;> intro h <;> [cases h; (obtain ⟨W, h, -⟩ := h; cases h)]
    | ub => constructor <;> intro h <;> [cases h; (obtain ⟨W, h, -⟩ := h; cases h)]
    | nonfinite => constructor <;> intro h <;> [cases h; (obtain ⟨W, h, -⟩ := h; cases h)]

theorem finish_new {c : FitCall n k} (hc : FitUndisturbed c) (o : GWRObj) (g : GWRReport n k) :
    (objFinish c o).2 = .ok g ↔ gwrFinish c.ex o.distance o.weight c.x c.y c.sS c.sC = .ok g := by
  unfold objFinish gwrFinish
  rw [show c.pollCore = fun _ => false from funext hc.2.2.2]
  constructor
  · intro h
    obtain ⟨a, h1, h2⟩ := Res.bind_eq_ok'.1 h
    obtain ⟨W, e1, e2⟩ := (objCore_new ..).1 h1
    exact Res.bind_eq_ok'.2 ⟨W, e1, Res.bind_eq_ok'.2 ⟨a, e2, h2⟩⟩
  · intro h
    obtain ⟨W, e1, h⟩ := Res.bind_eq_ok'.1 h
    obtain ⟨a, e2, h2⟩ := Res.bind_eq_ok'.1 h
    exact Res.bind_eq_ok'.2 ⟨a, (objCore_new ..).2 ⟨W, e1, e2⟩, h2⟩

/-- **C123 (new object).** What a fit that is not asked to stop reports on a new object is the run of C118 and C119: with a given bandwidth, and with automatic
selection. -/
theorem C123_new_object (c : FitCall n k) (hc : FitUndisturbed c) (b : BandwidthWeight) (d : CRSDistance) (s : Option SearchResult)
    (g : GWRReport n k) :
    (c.auto = none → ((objFit c (GWRObj.new b d)).2 = .ok (.full s g) ↔
      s = none ∧ gwrRun c.ex d b c.coords c.x c.y c.sS c.sC = .ok g)) ∧
    (∀ cr, c.auto = some cr → ((objFit c (GWRObj.new b d)).2 = .ok (.full s g) ↔
      ∃ r, s = some r ∧ gwrAutoRun cr c.sched c.ex d b c.lower c.upper c.coords c.x c.y c.sS c.sC = .ok (r, g))) := by
  have hbind : bindLocations d c.coords c.coords = if c.coords.nCols = 2 then .ok ⟨d.mGeographic, some (c.coords, c.coords)⟩ else .throw .runtime := by
    by_cases h : c.coords.nCols = 2 <;> simp [bindLocations, CRSDistance.makeParameter, DistParam.getMat, h]
  have hfit := fit_result c (GWRObj.new b d)
  simp only [GWRObj.new] at hfit ⊢
  rw [hfit]
  unfold gwrRun gwrAutoRun
  rw [hbind]
  by_cases h2 : c.coords.nCols = 2
  swap
  · rw [if_neg h2, if_neg h2]
    refine ⟨fun _ => ⟨fun h => (by cases h), fun h => (by cases h.2)⟩, fun cr _ => ⟨fun h => (by cases h), ?_⟩⟩
    rintro ⟨r, -, h⟩
    cases h
  rw [if_pos h2, if_pos h2]
  generalize (⟨d.mGeographic, some (c.coords, c.coords)⟩ : CRSDistance) = D
  simp only [fitTail, hc.1, hc.2.2.1, Bool.and_false, bind_result, objPoll, Res.bind, Bool.false_eq_true, if_false, Bool.or_false, ObjRun.ret]
  constructor
  · intro ha
    simp only [objSelect, ha, ObjRun.ret]
    constructor
    · intro h
      obtain ⟨g', h1, h2⟩ := Res.bind_eq_ok'.1 h
      cases Res.ok.inj h2
      exact ⟨rfl, (finish_new hc _ _).1 h1⟩
    · rintro ⟨rfl, h⟩
      exact Res.bind_eq_ok'.2 ⟨g, (finish_new hc ⟨false, b, D⟩ g).2 h, rfl⟩
  · intro cr ha
    have hS : ∀ u, gwrUpper D b n c.upper = .ok u → gwrSearchEx cr c.sched D b c.lower c.upper c.x c.y = .ok (objSearch c cr ⟨false, b, D⟩ u) := by
      intro u hu
      unfold gwrSearchEx objSearch
      rw [hu, Res.bind]
      have : ∀ j w, objCriterion cr D c.x c.y w false (c.pollCrit j) (c.sched j) = (false, gwrCriterionEx cr D c.x c.y w (c.sched j)) := fun j w => by
        rw [show c.pollCrit j = fun _ => false from funext (hc.2.1 j), objCriterion_new]
      simp only [this]
      rfl
    simp only [objSelect, ha]
    cases hu : gwrUpper D b n c.upper with
    | ok u =>
      simp only [hS u hu]
      cases ho : (objSearch c cr ⟨false, b, D⟩ u).out with
      | ok b' =>
        simp only [Res.bind]
        constructor
        · intro h
          obtain ⟨g', h1, h2⟩ := Res.bind_eq_ok'.1 h
          cases Res.ok.inj h2
          refine ⟨_, rfl, Res.bind_eq_ok'.2 ⟨g, (finish_new hc _ _).1 h1, rfl⟩⟩
        · rintro ⟨r, rfl, h⟩
          obtain ⟨g', h1, h2⟩ := Res.bind_eq_ok'.1 h
          cases Res.ok.inj h2
          refine Res.bind_eq_ok'.2 ⟨g, (finish_new hc _ g).2 h1, rfl⟩
      | throw e => refine ⟨fun h => (by cases h), ?_⟩; rintro ⟨r, -, h⟩; cases h
      | ub => refine ⟨fun h => (by cases h), ?_⟩; rintro ⟨r, -, h⟩; cases h
      | nonfinite => refine ⟨fun h => (by cases h), ?_⟩; rintro ⟨r, -, h⟩; cases h
    | throw e => simp only [gwrSearchEx, hu, Res.bind]; refine ⟨fun h => (by cases h), ?_⟩; rintro ⟨r, -, h⟩; cases h
    | ub => simp only [gwrSearchEx, hu, Res.bind]; refine ⟨fun h => (by cases h), ?_⟩; rintro ⟨r, -, h⟩; cases h
    | nonfinite => simp only [gwrSearchEx, hu, Res.bind]; refine ⟨fun h => (by cases h), ?_⟩; rintro ⟨r, -, h⟩; cases h

/-- **C123 (shape of a cancelled prediction), refuted.** A prediction that is asked to stop at its first poll returns zeros with a row per observation, not per
location. -/
theorem C123_cancelled_prediction_shape (c : PredictCall n k m) (o : GWRObj) (hl : c.locations.nCols = 2) (hc : c.coords.nCols = 2)
    (hp : c.pollInit = true) : (objPredict c o).2 = .ok ⟨n, 0⟩ := by
  rw [predict_result, if_pos ⟨hl, hc⟩]
  simp [predictTail, hp, bind_result, objPoll, Res.bind, ObjRun.ret]

/-- **C123 (after a stop request, what is done instead).** On an object whose status is Terminated a fit with automatic selection that nobody asks to stop
returns, whenever its search interval can be set up, what a new object with a given bandwidth returns. -/
theorem C123_terminated_fit (o : GWRObj) (ho : o.terminated = true) (c : FitCall n k) (hc : FitUndisturbed c) (ha : c.auto.isSome = true)
    (hu : ∃ u, gwrUpper ⟨o.distance.mGeographic, some (c.coords, c.coords)⟩ o.weight n c.upper = .ok u) (g : GWRReport n k) :
    (∃ s, (objFit c o).2 = .ok (.full s g)) ↔ gwrRun c.ex o.distance o.weight c.coords c.x c.y c.sS c.sC = .ok g := by
  obtain ⟨cr, hcr⟩ := Option.isSome_iff_exists.1 ha
  obtain ⟨u, hu⟩ := hu
  have hbind : bindLocations o.distance c.coords c.coords =
      if c.coords.nCols = 2 then .ok ⟨o.distance.mGeographic, some (c.coords, c.coords)⟩ else .throw .runtime := by
    by_cases h : c.coords.nCols = 2 <;> simp [bindLocations, CRSDistance.makeParameter, DistParam.getMat, h]
  rw [fit_result]
  unfold gwrRun
  rw [hbind]
  by_cases h2 : c.coords.nCols = 2
  swap
  · rw [if_neg h2, if_neg h2]
    exact ⟨fun h => (by obtain ⟨s, h⟩ := h; cases h), fun h => by cases h⟩
  rw [if_pos h2, if_pos h2]
  generalize (⟨o.distance.mGeographic, some (c.coords, c.coords)⟩ : CRSDistance) = D at hu ⊢
  obtain ⟨s1, s2, s3⟩ := search_terminated ho c cr D u
  simp only [fitTail, hc.1, hc.2.2.1, Bool.and_false, bind_result, objPoll, res_bind_ok, Bool.false_eq_true, if_false, Bool.or_false, objSelect, hcr,
    hu, s2, afterSearch, ObjRun.ret]
  constructor
  · rintro ⟨s, h⟩
    obtain ⟨g', h1, h3⟩ := Res.bind_eq_ok'.1 h
    cases Res.ok.inj h3
    exact (finish_new hc _ _).1 h1
  · intro h
    exact ⟨_, Res.bind_eq_ok'.2 ⟨g, (finish_new hc _ g).2 h, rfl⟩⟩

/-! ## A concrete history -/

/-- A fit of three places on a line with automatic selection between 5 and 10. -/
noncomputable def lineCall (stopped : Bool) : FitCall 3 2 where
  coords := lineCoords 1
  x := exX
  y := exX *ᵥ ![2, 3]
  sS := true
  sC := true
  auto := some .CV
  lower := some 5
  upper := some 10
  sched := fun _ => .serial
  ex := .serial
  pollInit := stopped
  pollCrit := fun _ _ => false
  pollMid := false
  pollCore := fun _ => false

/-- **C123 (after a stop request), refuted on data.** The fit selects a bandwidth of at least 5. On an object whose previous fit was cancelled the same fit,
which nobody asks to stop, reports the bandwidth 1 it started from, and the status stays Terminated. -/
theorem C123_cancelled_object : ∃ s g s' g', (objFit (lineCall false) (GWRObj.new ⟨1, false, .Gaussian⟩ ⟨false, none⟩)).2 = .ok (.full s g) ∧
    5 ≤ g.weight.mBandwidth ∧
    (objFit (lineCall false) (objAfter (GWRObj.new ⟨1, false, .Gaussian⟩ ⟨false, none⟩) [.fit 3 2 (lineCall true)])).2 = .ok (.full s' g') ∧
    g'.weight.mBandwidth = 1 ∧
    (objAfter (GWRObj.new ⟨1, false, .Gaussian⟩ ⟨false, none⟩) [.fit 3 2 (lineCall true), .fit 3 2 (lineCall false)]).terminated = true := by
  have hq : FitUndisturbed (lineCall false) := ⟨rfl, fun _ _ => rfl, rfl, fun _ => rfl⟩
  obtain ⟨r, g, h, -, -, hlt⟩ := ex_autoRun (D := 1) (some 5) (some 10) rfl rfl (by norm_num) (by norm_num) (fun _ => .serial) (fun _ => trivial) .serial trivial
    ![2, 3] true true
  have hfit := ((C123_new_object (lineCall false) hq ⟨1, false, .Gaussian⟩ ⟨false, none⟩ (some r) g).2 .CV rfl).2 ⟨r, rfl, h⟩
  obtain ⟨t1, -⟩ := (C123_status ⟨1, false, .Gaussian⟩ ⟨false, none⟩ (GWRObj.new ⟨1, false, .Gaussian⟩ ⟨false, none⟩) []).2.2.1 3 2 (lineCall true) rfl rfl
  set o := objAfter (GWRObj.new ⟨1, false, .Gaussian⟩ ⟨false, none⟩) [.fit 3 2 (lineCall true)] with ho
  have hw : o.weight = ⟨1, false, .Gaussian⟩ := by
    simp [ho, objAfter, objStep, objFit, ObjRun.bind, objBind, objPoll, lineCall, GWRObj.new, CRSDistance.makeParameter, DistParam.getMat,
      lineCoords, ObjRun.ret]
  have hg : o.distance.mGeographic = false := by
    simp [ho, objAfter, objStep, objFit, ObjRun.bind, objBind, objPoll, lineCall, GWRObj.new, CRSDistance.makeParameter, DistParam.getMat,
      lineCoords, ObjRun.ret]
  have hot : o.terminated = true := t1
  have hb := usable_fixed (m := 3) (n := 3) one_pos .Gaussian (fun i j => |(1 : ℝ)| * |((j : ℕ) : ℝ) - (i : ℕ)|)
  obtain ⟨W, -, hW, -⟩ := kernelRows (show (lineCoords 1).nRows = 3 from rfl) (show (lineCoords 1).nRows = 3 from rfl) (line_mapDistance 1) hb id
  have hdet : ∀ i, Determined exX (W i) := fun i => exX_determined _ fun l => by
    obtain ⟨r, -, e⟩ := hW i
    rw [e]; exact Real.exp_pos _
  obtain ⟨g', C, hrun, hgw, -⟩ := (C118_fit .serial trivial false o.distance.mParameter ⟨1, false, .Gaussian⟩ (lineCoords 1) ⟨rfl, rfl⟩ _ W (line_mapDistance 1) hb hW exX
    (exX *ᵥ ![2, 3]) true true).1 hdet
  obtain ⟨s', hs'⟩ := (C123_terminated_fit o hot (lineCall false) hq rfl ⟨10, rfl⟩ g').2 (by
    rw [hw]
    rw [← hg] at hrun
    exact hrun)
  refine ⟨some r, g, s', g', hfit, hlt.le, hs', by rw [hgw], ?_⟩
  exact sticky_after [.fit 3 2 (lineCall false)] o hot

/-- The data of the example meet `C123_refit` with a history of two fits, the second without data of a possible map. -/
example : (objFit (lineCall false) (objAfter (GWRObj.new ⟨1, false, .Gaussian⟩ ⟨false, none⟩)
      [.fit 3 2 (lineCall false), .fit 3 2 { lineCall false with coords := ⟨3, 1, 0⟩ }])).2 =
    (objFit (lineCall false) (GWRObj.new ⟨1, false, .Gaussian⟩ ⟨false, none⟩)).2 :=
  C123_refit _ _ _ (by simp [Undisturbed, FitUndisturbed, lineCall]) (by simp [IsRun]) _ ⟨rfl, fun _ _ => rfl, rfl, fun _ => rfl⟩ rfl

/-- The object of the example meets `C123_success_certifies_fit`: its status after a fit is Success. -/
example : (objFit (lineCall false) (GWRObj.new ⟨1, false, .Gaussian⟩ ⟨false, none⟩)).1.terminated = false :=
  (C123_status ⟨1, false, .Gaussian⟩ ⟨false, none⟩ (GWRObj.new ⟨1, false, .Gaussian⟩ ⟨false, none⟩) [.fit 3 2 (lineCall false)]).1
    (by simp [Undisturbed, FitUndisturbed, lineCall])

end Verif.Props

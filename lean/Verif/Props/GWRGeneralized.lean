import Verif.Model.GWRGeneralized
import Verif.Props.GLM
import Verif.Props.GTWR
import Verif.Lemmas.Rows

/-! # Geographically weighted generalised regression -/

namespace Verif.Props
open Verif Verif.Model Verif.Spec Matrix Classical

variable {n k T : ℕ}

theorem tab_ok {α : Type} {f : Fin n → Res α} (v : Fin n → α) (h : ∀ i, f i = .ok (v i)) : Res.tabulate n f = .ok v :=
  Res.tabulate_eq_ok.2 h

/-! ## Schedules -/

/-- Iterations run one after the other, iteration `i` by thread `tid i`. -/
def seqEvents {ι T : Type _} (tid : ι → T) : List ι → List (OmpEv ι T)
  | [] => []
  | i :: is => .start i :: .finish (tid i) i :: seqEvents tid is

theorem seqEvents_schedule {ι T : Type _} (tid : ι → T) (l : List ι) : Schedule l (seqEvents tid l) := by
  refine ⟨?_, ?_, ?_⟩
  · induction l with
    | nil => exact List.Perm.refl _
    | cons i l ih => exact ih.cons i
  · induction l with
    | nil => exact List.Perm.refl _
    | cons i l ih => exact ih.cons i
  · induction l with
    | nil => intro pre post t i h; simp [seqEvents] at h
    | cons j l ih =>
      intro pre post t i h
      rcases pre with _ | ⟨a, pre⟩
      · simp [seqEvents] at h
      rcases pre with _ | ⟨b, pre⟩
      · simp only [seqEvents, List.cons_append, List.nil_append, List.cons.injEq, OmpEv.finish.injEq] at h
        rw [← h.1, h.2.1.2]; simp
      · simp only [seqEvents, List.cons_append, List.cons.injEq] at h
        exact List.mem_cons_of_mem _ (List.mem_cons_of_mem _ (ih _ _ _ _ h.2.2))

/-- Every location is run exactly once, in any order, by any thread. -/
def _root_.Verif.Model.Exec.Valid : Exec n → Prop
  | .serial => True
  | .omp evs => Schedule (List.finRange n) evs

/-! ## The calibration -/

theorem locDen_pos (F : Family) (nu : ℝ) : 0 < locDen F (locMean F nu) := by
  have h := Real.exp_pos nu
  cases F
  · exact h
  · have h1 : 1 - Real.exp nu / (1 + Real.exp nu) = 1 / (1 + Real.exp nu) := by field_simp; ring
    change 0 < Real.exp nu / (1 + Real.exp nu) * (1 - Real.exp nu / (1 + Real.exp nu))
    rw [h1]; positivity

theorem locWork_pos (F : Family) (nu : ℝ) : 0 < locWork F (locMean F nu) := by
  cases F
  · exact Real.exp_pos nu
  · have := locDen_pos .Binomial nu
    change 0 < 1 * _ * _
    rwa [one_mul]

theorem wtStep_ok {F : Family} {x : Matrix (Fin n) (Fin k) ℝ} {y : Fin n → ℝ} {W : Fin n → Fin n → ℝ} {s s' : WtState n k}
    (h : wtStep F x y W s = .ok s') :
    s'.wt2 = s.wt2 ∧ (∀ l, locDen F (s.mu l) ≠ 0 ∧ s'.yAdj l = s.nu l + (y l - s.mu l) / locDen F (s.mu l)) ∧
    (∀ i, gwPredict x s'.yAdj (fun l => W i l * s.wt2 l) = .ok (s'.betas i)) ∧ (∀ i, s'.nu i = ∑ j, x i j * s'.betas i j) ∧
    (∀ i, s'.mu i = locMean F (s'.nu i)) ∧ locLLik F y s'.mu = .ok s'.llik := by
  unfold wtStep at h
  obtain ⟨ya, h1, h⟩ := Res.bind_eq_ok'.1 h
  obtain ⟨b, h2, h⟩ := Res.bind_eq_ok'.1 h
  obtain ⟨ll, h3, h⟩ := Res.bind_eq_ok'.1 h
  cases h
  refine ⟨rfl, fun l => ?_, fun i => Res.tabulate_eq_ok.1 h2 i, fun _ => rfl, fun _ => rfl, h3⟩
  have := Res.tabulate_eq_ok.1 h1 l
  unfold fdiv at this
  by_cases h0 : locDen F (s.mu l) = 0
  · rw [if_pos h0] at this; cases this
  · rw [if_neg h0, Res.bind] at this; exact ⟨h0, (Res.ok.inj this).symm⟩

/-- What the calibration guarantees about its result. -/
structure Calibrated (F : Family) (x : Matrix (Fin n) (Fin k) ℝ) (y : Fin n → ℝ) (W : Fin n → Fin n → ℝ) (s : WtState n k)
    (conv : Bool) : Prop where
  wt2 : ∀ l, 0 < s.wt2 l
  nu : ∀ i, s.nu i = ∑ j, x i j * s.betas i j
  mu : ∀ i, s.mu i = locMean F (s.nu i)
  llik : locLLik F y s.mu = .ok s.llik
  betas : conv = true → ∀ i, gwPredict x s.yAdj (fun l => W i l * s.wt2 l) = .ok (s.betas i)
  work : conv = false → ∀ l, s.wt2 l = locWork F (s.mu l)

theorem wtLoop_inv {F : Family} {tol : ℝ} {x : Matrix (Fin n) (Fin k) ℝ} {y : Fin n → ℝ} {W : Fin n → Fin n → ℝ} (fuel : ℕ) :
    ∀ (s : WtState n k) (r : WtState n k × Bool), (∀ l, 0 < s.wt2 l) → 0 < fuel → wtLoop F tol x y W fuel s = .ok r →
      Calibrated F x y W r.1 r.2 := by
  induction fuel with
  | zero => intro s r _ h; exact absurd h (lt_irrefl 0)
  | succ fuel ih =>
    intro s r hw _ h
    unfold wtLoop at h
    obtain ⟨s', hs, h⟩ := Res.bind_eq_ok'.1 h
    obtain ⟨e1, _, e3, e4, e5, e6⟩ := wtStep_ok hs
    by_cases hc : wtConverged tol s.llik s'.llik
    · rw [if_pos hc] at h
      cases h
      exact ⟨fun l => by rw [e1]; exact hw l, e4, e5, e6, fun _ i => by rw [e1]; exact e3 i, fun h => by cases h⟩
    · rw [if_neg hc] at h
      have hp : ∀ l, 0 < locWork F (s'.mu l) := fun l => by rw [e5]; exact locWork_pos F _
      rcases Nat.eq_zero_or_pos fuel with h0 | h0
      · subst h0
        cases h
        exact ⟨hp, e4, e5, e6, fun h => (by cases h), fun _ _ => rfl⟩
      · exact ih _ r hp h0 h

theorem wtCalc_inv {F : Family} {tol : ℝ} {m : ℕ} {x : Matrix (Fin n) (Fin k) ℝ} {y : Fin n → ℝ} {W : Fin n → Fin n → ℝ}
    {s : WtState n k} {c : Bool} (hm : 0 < m) (h : wtCalc F tol m x y W = .ok (s, c)) : Calibrated F x y W s c := by
  unfold wtCalc at h
  obtain ⟨nu, _, h⟩ := Res.bind_eq_ok'.1 h
  exact wtLoop_inv m _ _ (fun _ => one_pos) hm h

theorem wtCalc_wt2 {F : Family} {tol : ℝ} {m : ℕ} {x : Matrix (Fin n) (Fin k) ℝ} {y : Fin n → ℝ} {W : Fin n → Fin n → ℝ}
    {s : WtState n k} {c : Bool} (h : wtCalc F tol m x y W = .ok (s, c)) (l : Fin n) : 0 < s.wt2 l := by
  rcases Nat.eq_zero_or_pos m with h0 | h0
  · subst h0
    unfold wtCalc at h
    obtain ⟨nu, _, h⟩ := Res.bind_eq_ok'.1 h
    cases h
    exact one_pos
  · exact (wtCalc_inv h0 h).wt2 l

/-! ## One location -/

theorem localFitInv_ok {x : Matrix (Fin n) (Fin k) ℝ} {y w : Fin n → ℝ} {xi : Fin k → ℝ} {lf : LocalFit n k}
    (h : localFitInv x y w xi = .ok lf) : gwPredict x y w = .ok lf.beta := by
  unfold localFitInv at h
  obtain ⟨inv, hi, h⟩ := Res.bind_eq_ok'.1 h
  cases h
  unfold gwPredict
  rw [hi]; rfl

theorem localFitInv_cases (x : Matrix (Fin n) (Fin k) ℝ) (y w : Fin n → ℝ) (xi : Fin k → ℝ) :
    (∃ lf, localFitInv x y w xi = .ok lf) ∨ localFitInv x y w xi = .throw .singular := by
  unfold localFitInv invGeneral
  by_cases h : IsUnit (xtwx x w).det
  · rw [if_pos h]; exact Or.inl ⟨_, rfl⟩
  · rw [if_neg h]; exact Or.inr rfl

/-- With positive working weights one location either succeeds or throws for a singular matrix. -/
theorem ggwrLoc_cases (x : Matrix (Fin n) (Fin k) ℝ) (W : Fin n → Fin n → ℝ) (st : WtState n k) (hp : ∀ l, 0 < st.wt2 l) (i : Fin n) :
    (∃ lf, localFitInv x st.yAdj (fun l => W i l * st.wt2 l) (x i) = .ok lf ∧
      ggwrLoc x W st i = .ok (lf, fun j => Real.sqrt (∑ l, lf.ci j l ^ 2 / st.wt2 l))) ∨
    (localFitInv x st.yAdj (fun l => W i l * st.wt2 l) (x i) = .throw .singular ∧ ggwrLoc x W st i = .throw .singular) := by
  unfold ggwrLoc
  rcases localFitInv_cases x st.yAdj (fun l => W i l * st.wt2 l) (x i) with ⟨lf, h⟩ | h
  · refine Or.inl ⟨lf, h, ?_⟩
    rw [h, Res.bind, tab_ok (fun l => 1 / st.wt2 l) fun l => fdiv_ne (hp l).ne', Res.bind]
    have e : ∀ j, ∑ l, lf.ci j l * (1 / st.wt2 l) * lf.ci j l = ∑ l, lf.ci j l ^ 2 / st.wt2 l := fun j =>
      Finset.sum_congr rfl fun l _ => by ring
    rw [tab_ok (fun j => Real.sqrt (∑ l, lf.ci j l ^ 2 / st.wt2 l)) fun j => by
      unfold fsqrt
      rw [if_neg (not_lt.2 (by rw [e]; exact Finset.sum_nonneg fun l _ => div_nonneg (sq_nonneg _) (hp l).le)), e]]
    rfl
  · refine Or.inr ⟨h, ?_⟩
    rw [h]; rfl

theorem fold_ggwrUpd (r : Fin n → LocalFit n k × (Fin k → ℝ)) : ∀ (l : List (Fin n)) (a : GgwrAcc n k),
    l.foldl (fun a i => ggwrUpd i (r i) a) a =
      ⟨l.foldl (fun f i => Function.update f i (r i).1.beta) a.betas, l.foldl (fun f i => Function.update f i (r i).2) a.se,
        l.foldl (fun s i => s + shatRow i (r i).1) a.shat⟩
  | [], _ => rfl
  | i :: l, a => by rw [List.foldl_cons, fold_ggwrUpd r l]; rfl

theorem fold_ggwrUpdOmp (r : Fin n → LocalFit n k × (Fin k → ℝ)) : ∀ (l : List (Fin T × Fin n)) (a : GgwrAccOmp n k T),
    l.foldl (fun a ti => ggwrUpdOmp ti.1 ti.2 (r ti.2) a) a =
      ⟨l.foldl (fun f ti => Function.update f ti.2 (r ti.2).1.beta) a.betas, l.foldl (fun f ti => Function.update f ti.2 (r ti.2).2) a.se,
        l.foldl (fun s ti => Function.update s ti.1 (s ti.1 + shatRow ti.2 (r ti.2).1)) a.shat⟩
  | [], _ => rfl
  | i :: l, a => by rw [List.foldl_cons, fold_ggwrUpdOmp r l]; rfl

theorem foldl_rows_finRange {ρ : Type _} (r : Fin n → ρ) (a : Fin n → ρ) :
    (List.finRange n).foldl (fun f i => Function.update f i (r i)) a = r := by
  funext i
  rw [foldl_rows r _ (List.nodup_finRange n), if_pos (List.mem_finRange i)]

theorem foldl_rows_perm {ρ : Type _} (r : Fin n → ρ) (a : Fin n → ρ) (l : List (Fin T × Fin n))
    (h : (l.map Prod.snd).Perm (List.finRange n)) : l.foldl (fun f ti => Function.update f ti.2 (r ti.2)) a = r := by
  funext i
  have : l.foldl (fun s ti => Function.update s ti.2 (r ti.2)) a = (l.map Prod.snd).foldl (fun s i => Function.update s i (r i)) a := by
    rw [List.foldl_map]
  rw [this, foldl_rows r _ (h.nodup_iff.2 (List.nodup_finRange n)), if_pos (h.mem_iff.2 (List.mem_finRange i))]

theorem acc_ext {b b' e e' : Matrix (Fin n) (Fin k) ℝ} {h h' : Fin 2 → ℝ} (h1 : b = b') (h2 : e = e') (h3 : h = h') :
    GgwrAcc.mk b e h = ⟨b', e', h'⟩ := by subst h1 h2 h3; rfl

/-- The loop over the locations, serial or parallel, when every location succeeds. -/
theorem ggwrHat_ok {x : Matrix (Fin n) (Fin k) ℝ} {W : Fin n → Fin n → ℝ} {st : WtState n k} {ex : Exec n} (hex : ex.Valid)
    (r : Fin n → LocalFit n k × (Fin k → ℝ)) (hr : ∀ i, ggwrLoc x W st i = .ok (r i)) :
    ggwrHat x W st (fun _ => false) ex = .ok (⟨fun i => (r i).1.beta, fun i => (r i).2, ∑ i, shatRow i (r i).1⟩, false) := by
  cases ex with
  | serial =>
    change rethrown _ = _
    rw [serialFor_ok r _ 0 _ (fun _ _ => rfl) fun i _ => hr i, fold_ggwrUpd, foldl_add, zero_add]
    simp only [rethrown]
    have e1 := foldl_rows_finRange (fun i => (r i).1.beta) (0 : Matrix (Fin n) (Fin k) ℝ)
    have e2 := foldl_rows_finRange (fun i => (r i).2) (0 : Matrix (Fin n) (Fin k) ℝ)
    rw [← List.ofFn_eq_map, List.sum_ofFn]
    refine congrArg (fun z => Res.ok (z, false)) ?_
    exact acc_ext e1 e2 rfl
  | omp evs =>
    have hsch : Schedule (List.finRange n) evs := hex
    change (if (ompRun (ggwrLoc x W st) ggwrUpdOmp (fun _ => false) evs ⟨0, 0, 0⟩).success = true then _ else _) = _
    obtain ⟨h1, h2, h3⟩ := omp_ok (upd := ggwrUpdOmp) (fun _ => rfl) r ⟨0, 0, 0⟩ hsch fun i _ => hr i
    rw [if_pos h1, h2, h3, fold_ggwrUpdOmp]
    have e1 := foldl_rows_perm (fun i => (r i).1.beta) (0 : Matrix (Fin n) (Fin k) ℝ) _ hsch.finishes
    have e2 := foldl_rows_perm (fun i => (r i).2) (0 : Matrix (Fin n) (Fin k) ℝ) _ hsch.finishes
    refine congrArg (fun z => Res.ok (z, false)) ?_
    refine acc_ext e1 e2 ?_
    simp only
    rw [sum_foldl_thread (fun i => shatRow i (r i).1)]
    have e3 : (List.map (fun ti : _ × Fin n => shatRow ti.2 (r ti.2).1) (finishes evs)).sum = ∑ i, shatRow i (r i).1 := by
      have : List.map (fun ti : _ × Fin n => shatRow ti.2 (r ti.2).1) (finishes evs)
          = ((finishes evs).map Prod.snd).map fun i => shatRow i (r i).1 := by rw [List.map_map]; rfl
      rw [this, (hsch.finishes.map _).sum_eq, ← List.ofFn_eq_map, List.sum_ofFn]
    rw [e3]
    simp

/-- …and when one fails. -/
theorem ggwrHat_fail {x : Matrix (Fin n) (Fin k) ℝ} {W : Fin n → Fin n → ℝ} {st : WtState n k} {ex : Exec n} (hex : ex.Valid)
    (hp : ∀ l, 0 < st.wt2 l) (i : Fin n) (hi : ggwrLoc x W st i = .throw .singular) :
    ggwrHat x W st (fun _ => false) ex = .throw .runtime := by
  have hc : ∀ i, (∃ r, ggwrLoc x W st i = .ok r) ∨ ggwrLoc x W st i = .throw .singular := fun i => by
    rcases ggwrLoc_cases x W st hp i with ⟨lf, _, h⟩ | ⟨_, h⟩
    · exact Or.inl ⟨_, h⟩
    · exact Or.inr h
  cases ex with
  | serial =>
    change rethrown _ = _
    rw [serialFor_fail hc _ 0 _ (fun _ _ => rfl) ⟨i, List.mem_finRange i, hi⟩]
    rfl
  | omp evs =>
    have hsch : Schedule (List.finRange n) evs := hex
    change (if (ompRun (ggwrLoc x W st) ggwrUpdOmp (fun _ => false) evs ⟨0, 0, 0⟩).success = true then _ else _) = _
    rw [if_neg (by
      rw [omp_fail (upd := ggwrUpdOmp) (fun _ => rfl) ⟨0, 0, 0⟩ (List.nodup_finRange n) hsch i (List.mem_finRange i) fun r h => by
        rw [hi] at h; cases h]
      simp)]

/-- C90: with the hat matrix the parallel fit gives, for all data and every assignment of the locations to threads in every order, what the
serial fit gives: the same coefficients, standard errors, traces and diagnostics, or the same failure. -/
theorem C90_parallel_fit (F : Family) (tol : ℝ) (m : ℕ) (x : Matrix (Fin n) (Fin k) ℝ) (y : Fin n → ℝ) (W : Fin n → Fin n → ℝ)
    (evs : List (OmpEv (Fin n) (Fin T))) (hs : Schedule (List.finRange n) evs) :
    ggwrFit F tol m x y W (.omp evs) = ggwrFit F tol m x y W .serial := by
  unfold ggwrFit
  cases hg : calGlm (glmOf n F) x y <;> try rfl
  simp only [Res.bind]
  cases hc : wtCalc F tol m x y W with
  | ok c =>
    simp only
    have hp := wtCalc_wt2 (s := c.1) (c := c.2) hc
    have : ggwrHat x W c.1 (fun _ => false) (.omp evs) = ggwrHat x W c.1 (fun _ => false) .serial := by
      by_cases h : ∀ i, ∃ r, ggwrLoc x W c.1 i = .ok r
      · choose r hr using h
        rw [ggwrHat_ok (ex := .omp evs) hs r hr, ggwrHat_ok (ex := .serial) trivial r hr]
      · rw [not_forall] at h
        obtain ⟨i, hi⟩ := h
        have hi' : ggwrLoc x W c.1 i = .throw .singular := by
          rcases ggwrLoc_cases x W c.1 hp i with ⟨lf, _, h⟩ | ⟨_, h⟩
          · exact absurd ⟨_, h⟩ hi
          · exact h
        rw [ggwrHat_fail (ex := .omp evs) hs hp i hi', ggwrHat_fail (ex := .serial) trivial hp i hi']
    rw [this]
  | throw e => rfl
  | ub => rfl
  | nonfinite => rfl

example : Schedule (List.finRange 3) (seqEvents (fun i : Fin 3 => if i = 1 then (1 : Fin 2) else 0) (List.finRange 3)) :=
  seqEvents_schedule _ _

/-! ## What a completed fit reports -/

theorem ggwrFit_ok {F : Family} {tol : ℝ} {m : ℕ} {x : Matrix (Fin n) (Fin k) ℝ} {y : Fin n → ℝ} {W : Fin n → Fin n → ℝ} {ex : Exec n}
    {r : GgwrResult n k} (hex : ex.Valid) (h : ggwrFit F tol m x y W ex = .ok r) :
    calGlm (glmOf n F) x y = .ok r.glm ∧ wtCalc F tol m x y W = .ok (r.cal, r.converged) ∧
    gwDev F x y r.cal r.betas = .ok r.dev ∧ fdiv r.dev r.glm.nullDev = .ok (1 - r.rSquare) ∧ r.aic = r.dev + 2 * r.shat 0 ∧
    fdiv (2 * r.shat 0 * (r.shat 0 + 1)) (n - r.shat 0 - 1) = .ok (r.aicc - r.aic) ∧
    ∃ lf : Fin n → LocalFit n k, (∀ i, localFitInv x r.cal.yAdj (fun l => W i l * r.cal.wt2 l) (x i) = .ok (lf i)) ∧
      (∀ i, r.betas i = (lf i).beta) ∧ (∀ i j, r.se i j = Real.sqrt (∑ l, (lf i).ci j l ^ 2 / r.cal.wt2 l)) ∧
      r.shat = ∑ i, shatRow i (lf i) := by
  unfold ggwrFit at h
  obtain ⟨glm, h1, h⟩ := Res.bind_eq_ok'.1 h
  obtain ⟨c, h2, h⟩ := Res.bind_eq_ok'.1 h
  obtain ⟨a, h3, h⟩ := Res.bind_eq_ok'.1 h
  obtain ⟨dev, h4, h⟩ := Res.bind_eq_ok'.1 h
  obtain ⟨corr, h5, h⟩ := Res.bind_eq_ok'.1 h
  obtain ⟨q, h6, h⟩ := Res.bind_eq_ok'.1 h
  cases h
  have hp := wtCalc_wt2 (s := c.1) (c := c.2) h2
  have hall : ∀ i, ∃ lf, localFitInv x c.1.yAdj (fun l => W i l * c.1.wt2 l) (x i) = .ok lf ∧
      ggwrLoc x W c.1 i = .ok (lf, fun j => Real.sqrt (∑ l, lf.ci j l ^ 2 / c.1.wt2 l)) := by
    intro i
    rcases ggwrLoc_cases x W c.1 hp i with h | ⟨_, h⟩
    · exact h
    · rw [ggwrHat_fail hex hp i h] at h3; cases h3
  choose lf hlf hr using hall
  rw [ggwrHat_ok hex _ hr] at h3
  cases h3
  exact ⟨h1, h2, h4, by simp only [sub_sub_cancel]; exact h6, rfl, by simp only [add_sub_cancel_left]; exact h5, lf, hlf,
    fun _ => rfl, fun _ _ => rfl, rfl⟩

/-- C92: for non-negative spatial weights the coefficients returned for location `i` are the unique weighted least squares fit of the working
response with weights spatial weight times working weight; the working weights are positive. -/
theorem C92_coefficients_wls {F : Family} {tol : ℝ} {m : ℕ} {x : Matrix (Fin n) (Fin k) ℝ} {y : Fin n → ℝ} {W : Fin n → Fin n → ℝ}
    {ex : Exec n} {r : GgwrResult n k} (hex : ex.Valid) (hW : ∀ i l, 0 ≤ W i l) (h : ggwrFit F tol m x y W ex = .ok r) :
    (∀ l, 0 < r.cal.wt2 l) ∧ ∀ i, IsWLS x r.cal.yAdj (fun l => W i l * r.cal.wt2 l) (r.betas i) := by
  obtain ⟨_, h2, _, _, _, _, lf, e1, e2, _, _⟩ := ggwrFit_ok hex h
  have hp := wtCalc_wt2 h2
  refine ⟨hp, fun i => ?_⟩
  rw [e2 i]
  exact (gwPredict_ok (fun l => mul_nonneg (hW i l) (hp l).le) (localFitInv_ok (e1 i))).1

/-- C88, partial: when the calibration converged, the fitted means of the returned coefficients are the means it ended with.
Missing: the case that the iteration limit was reached (`C88_limit_violates`). -/
theorem C88_means_partial {F : Family} {tol : ℝ} {m : ℕ} (hm : 0 < m) {x : Matrix (Fin n) (Fin k) ℝ} {y : Fin n → ℝ}
    {W : Fin n → Fin n → ℝ} {ex : Exec n} {r : GgwrResult n k} (hex : ex.Valid) (h : ggwrFit F tol m x y W ex = .ok r)
    (hc : r.converged = true) (i : Fin n) : locMean F (∑ j, x i j * r.betas i j) = r.cal.mu i := by
  obtain ⟨_, h2, _, _, _, _, lf, e1, e2, _, _⟩ := ggwrFit_ok hex h
  have hcal := wtCalc_inv hm h2
  have hb : r.betas i = r.cal.betas i := by
    rw [e2 i]
    exact Res.ok.inj ((localFitInv_ok (e1 i)).symm.trans (hcal.betas hc i))
  rw [hb, hcal.mu i, hcal.nu i]

theorem gwDevPoisson_eq (y mu : Fin n → ℝ) (hy : ∀ i, 0 ≤ y i) (hm : ∀ i, 0 < mu i) :
    gwDevPoisson y mu = .ok (∑ i, poissonUnitDev (y i) (mu i)) := by
  unfold gwDevPoisson
  rw [tab_ok (fun i => poissonUnitDev (y i) (mu i)) fun i => ?_]
  · rfl
  · unfold poissonUnitDev
    by_cases h : y i = 0
    · rw [if_neg (not_not.2 h), h]; congr 1; ring
    · rw [if_pos h, fdiv_ne (hm i).ne', Res.bind, flog_pos (div_pos (lt_of_le_of_ne (hy i) (Ne.symm h)) (hm i)), Res.bind]
      congr 1; ring

/-- C89: for non-negative counts the deviance reported by the Poisson fit is non-negative; if the calibration converged it is the deviance
of the means `exp(x·β)` of the returned coefficients. -/
theorem C89_poisson_deviance {tol : ℝ} {m : ℕ} (hm : 0 < m) {x : Matrix (Fin n) (Fin k) ℝ} {y : Fin n → ℝ} {W : Fin n → Fin n → ℝ}
    {ex : Exec n} {r : GgwrResult n k} (hex : ex.Valid) (hy : ∀ i, 0 ≤ y i) (h : ggwrFit .Poisson tol m x y W ex = .ok r) :
    0 ≤ r.dev ∧ (r.converged = true → r.dev = ∑ i, poissonUnitDev (y i) (Real.exp (∑ j, x i j * r.betas i j))) := by
  obtain ⟨_, h2, h3, _⟩ := ggwrFit_ok hex h
  have hcal := wtCalc_inv hm h2
  have hmu : ∀ i, 0 < r.cal.mu i := fun i => by rw [hcal.mu i]; exact Real.exp_pos _
  have hd : r.dev = ∑ i, poissonUnitDev (y i) (r.cal.mu i) := Res.ok.inj (h3.symm.trans (gwDevPoisson_eq y _ hy hmu))
  refine ⟨?_, fun hc => ?_⟩
  · rw [hd]; exact Finset.sum_nonneg fun i _ => (poissonUnitDev_nonneg (hy i) (hmu i)).1
  · rw [hd]
    refine Finset.sum_congr rfl fun i _ => ?_
    rw [← C88_means_partial hm hex h hc i]; rfl

theorem binom_abs {p y : ℝ} (hy : y = 0 ∨ y = 1) (hp : 0 < p ∧ p < 1) :
    (fdiv 1 ((y - 1 + p) * (y - 1 + p))).bind flog = .ok (binomialUnitDev y p) := by
  rcases hy with h | h
  · subst h
    have : (0 - 1 + p) * (0 - 1 + p) = (1 - p) * (1 - p) := by ring
    have hq : 0 < 1 - p := by linarith [hp.2]
    rw [this, fdiv_ne (by positivity), Res.bind, flog_pos (by positivity)]
    unfold binomialUnitDev
    rw [one_div, Real.log_inv, Real.log_mul hq.ne' hq.ne']
    simp only [zero_mul, sub_zero, one_mul, zero_add, one_div, Real.log_inv]
    congr 1; ring
  · subst h
    have : (1 - 1 + p) * (1 - 1 + p) = p * p := by ring
    rw [this, fdiv_ne (by have := hp.1; positivity), Res.bind, flog_pos (by have := hp.1; positivity)]
    unfold binomialUnitDev
    rw [one_div, Real.log_inv, Real.log_mul hp.1.ne' hp.1.ne']
    simp only [sub_self, zero_mul, add_zero, one_mul, one_div, Real.log_inv]
    congr 1; ring

/-- C89: for responses 0 and 1 the deviance reported by the Binomial fit is the deviance of the fitted probabilities of the returned
coefficients, converged or not, and it is non-negative. -/
theorem C89_binomial_deviance {tol : ℝ} {m : ℕ} {x : Matrix (Fin n) (Fin k) ℝ} {y : Fin n → ℝ} {W : Fin n → Fin n → ℝ}
    {ex : Exec n} {r : GgwrResult n k} (hex : ex.Valid) (hy : ∀ i, y i = 0 ∨ y i = 1) (h : ggwrFit .Binomial tol m x y W ex = .ok r) :
    r.dev = ∑ i, binomialUnitDev (y i) (binomialLinkinv (fun i => ∑ j, x i j * r.betas i j) i) ∧ 0 ≤ r.dev := by
  obtain ⟨_, _, h3, _⟩ := ggwrFit_ok hex h
  have hr := C46_binomial_range fun i => ∑ j, x i j * r.betas i j
  have hd : r.dev = ∑ i, binomialUnitDev (y i) (binomialLinkinv (fun i => ∑ j, x i j * r.betas i j) i) := by
    have h3' : gwDevBinomial x y r.betas = .ok r.dev := h3
    unfold gwDevBinomial at h3'
    obtain ⟨t, ht, h3'⟩ := Res.bind_eq_ok'.1 h3'
    rw [← Res.ok.inj h3']
    refine Finset.sum_congr rfl fun i _ => ?_
    exact Res.ok.inj ((Res.tabulate_eq_ok.1 ht i).symm.trans (binom_abs (hy i) (hr i)))
  refine ⟨hd, ?_⟩
  rw [hd]
  exact Finset.sum_nonneg fun i _ => (binomialUnitDev_nonneg (by rcases hy i with h | h <;> rw [h] <;> norm_num) (hr i)).1

/-- C89 fails for proportions: a perfectly fitted proportion of one half has an infinite reported deviance instead of zero. -/
theorem C89_proportion_violates (x : Matrix (Fin n) (Fin k) ℝ) (y : Fin n → ℝ) (b : Matrix (Fin n) (Fin k) ℝ) (i : Fin n)
    (hi : y i = 1 / 2) (hb : ∑ j, x i j * b i j = 0) :
    binomialUnitDev (y i) (binomialLinkinv (fun i => ∑ j, x i j * b i j) i) = 0 ∧ ∀ d, gwDevBinomial x y b ≠ .ok d := by
  constructor
  · have : binomialLinkinv (fun i => ∑ j, x i j * b i j) i = 1 / 2 := by
      change Real.exp (∑ j, x i j * b i j) / (1 + Real.exp (∑ j, x i j * b i j)) = 1 / 2
      rw [hb, Real.exp_zero]; norm_num
    rw [this, hi]
    unfold binomialUnitDev; norm_num
  · intro d h
    unfold gwDevBinomial at h
    obtain ⟨t, h, _⟩ := Res.bind_eq_ok'.1 h
    have := Res.tabulate_eq_ok.1 h i
    simp only [hi, hb, Real.exp_zero] at this
    rw [fdiv, if_pos (by norm_num)] at this
    cases this

/-- C89: the pseudo coefficient of determination of the Poisson fit never exceeds one for positive counts. -/
theorem C89_poisson_pseudo_r2 {tol : ℝ} {m : ℕ} (hm : 0 < m) (hn : n ≠ 0) {x : Matrix (Fin n) (Fin k) ℝ} {y : Fin n → ℝ}
    {W : Fin n → Fin n → ℝ} {ex : Exec n} {r : GgwrResult n k} (hex : ex.Valid) (hy : ∀ i, 0 < y i)
    (h : ggwrFit .Poisson tol m x y W ex = .ok r) : r.rSquare ≤ 1 := by
  obtain ⟨h1, _, _, h4, _⟩ := ggwrFit_ok hex h
  obtain ⟨_, hnd, _⟩ := C46_poisson_pseudo_r2 hn hy h1
  have hd := (C89_poisson_deviance hm hex (fun i => (hy i).le) h).1
  rw [fdiv_ne hnd.ne'] at h4
  have := Res.ok.inj h4
  have := div_nonneg hd hnd.le
  linarith

/-! ## Without the hat matrix -/

theorem ggwrPlain_fails (hn : 2 ≤ n) (F : Family) (x : Matrix (Fin n) (Fin k) ℝ) (W : Fin n → Fin n → ℝ) (st : WtState n k)
    (ex : Exec n) (hex : ex.Valid) : ggwrPlain F x W st (fun _ => false) ex = .throw .runtime := by
  have hl : ∀ i, ggwrPlainLoc x W st i = .throw .size := fun i => by unfold ggwrPlainLoc; rw [if_neg (by omega)]
  cases ex with
  | serial =>
    change rethrown _ = _
    rw [serialFor_fail (e := .size) (fun i => Or.inr (hl i)) _ 0 _ (fun _ _ => rfl) ⟨⟨0, by omega⟩, List.mem_finRange _, hl _⟩]
    rfl
  | omp evs =>
    have hsch : Schedule (List.finRange n) evs := hex
    change (if (ompRun (ggwrPlainLoc x W st) (fun _ => ggwrPlainUpd F) (fun _ => false) evs 0).success = true then _ else _) = _
    rw [if_neg (by
      rw [omp_fail (upd := fun _ => ggwrPlainUpd F) (fun _ => rfl) (0 : Matrix (Fin n) (Fin k) ℝ) (List.nodup_finRange n) hsch
        ⟨0, by omega⟩ (List.mem_finRange _) fun r h => by rw [hl] at h; cases h]
      simp)]

/-- C87 fails: with two or more observations, fitting without the hat matrix never delivers coefficients, whatever the family, the data, the
weights and the schedule. -/
theorem C87_fit_without_hat_matrix_fails (hn : 2 ≤ n) (F : Family) (tol : ℝ) (m : ℕ) (x : Matrix (Fin n) (Fin k) ℝ) (y : Fin n → ℝ)
    (W : Fin n → Fin n → ℝ) (ex : Exec n) (hex : ex.Valid) (b : Matrix (Fin n) (Fin k) ℝ) : ggwrFitPlain F tol m x y W ex ≠ .ok b := by
  intro h
  unfold ggwrFitPlain at h
  obtain ⟨_, _, h⟩ := Res.bind_eq_ok'.1 h
  obtain ⟨c, _, h⟩ := Res.bind_eq_ok'.1 h
  rw [ggwrPlain_fails hn F x W c.1 ex hex] at h
  cases h

/-- C87 fails: with two or more observations `predict` never delivers coefficients, for any locations, before or after a fit. -/
theorem C87_predict_fails (hn : 2 ≤ n) (F : Family) (tol : ℝ) (m : ℕ) (x : Matrix (Fin n) (Fin k) ℝ) (y : Fin n → ℝ)
    (last : Option (Fin n → Fin n → ℝ)) (ex : Exec n) (hex : ex.Valid) (locs : List (ℝ × ℝ)) (b : Matrix (Fin n) (Fin k) ℝ) :
    ggwrPredict F tol m x y last ex locs ≠ .ok b := by
  intro h
  unfold ggwrPredict at h
  cases last with
  | none => cases h
  | some W =>
    obtain ⟨c, _, h⟩ := Res.bind_eq_ok'.1 h
    rw [ggwrPlain_fails hn F x W c.1 ex hex] at h
    cases h

/-! ## Fits complete -/

theorem tabulate_fail {α : Type} {e : Err} : ∀ {n : ℕ} {f : Fin n → Res α}, (∀ i, (∃ a, f i = .ok a) ∨ f i = .throw e) →
    (∃ i, f i = .throw e) → Res.tabulate n f = .throw e
  | 0, _, _, ⟨i, _⟩ => i.elim0
  | n + 1, f, h, ⟨i, hi⟩ => by
    rw [Res.tabulate]
    rcases h 0 with ⟨a, ha⟩ | h0
    · rw [ha, Res.bind]
      have : ∃ j : Fin n, f j.succ = .throw e := by
        rcases Fin.eq_zero_or_eq_succ i with h0 | ⟨j, hj⟩
        · rw [h0, ha] at hi; cases hi
        · exact ⟨j, hj ▸ hi⟩
      rw [tabulate_fail (fun j => h j.succ) this]
      rfl
    · rw [h0]; rfl

theorem gwPredict_cases (x : Matrix (Fin n) (Fin k) ℝ) (y w : Fin n → ℝ) :
    (∃ b, gwPredict x y w = .ok b) ∨ gwPredict x y w = .throw .singular := by
  unfold gwPredict invGeneral
  by_cases h : IsUnit (xtwx x w).det
  · rw [if_pos h]; exact Or.inl ⟨_, rfl⟩
  · rw [if_neg h]; exact Or.inr rfl

theorem gwPredict_singular {x : Matrix (Fin n) (Fin k) ℝ} {w : Fin n → ℝ} (hw : ∀ l, 0 ≤ w l) (hd : ¬ Determined x w) (y : Fin n → ℝ) :
    gwPredict x y w = .throw .singular := by
  rcases gwPredict_cases x y w with ⟨b, h⟩ | h
  · exact absurd (gwPredict_ok hw h).2.1 hd
  · exact h

/-- Responses the family accepts. -/
def Accepts (F : Family) (y : Fin n → ℝ) : Prop :=
  match F with
  | .Poisson => ∀ i, 0 ≤ y i
  | .Binomial => ∀ i, 0 ≤ y i ∧ y i ≤ 1

theorem lgam_pos {t : ℝ} (h : 0 < t) : ∃ v, lgam t = .ok v := by
  unfold lgam
  rw [if_neg]
  · exact ⟨_, rfl⟩
  · rintro ⟨m, rfl⟩
    have : (0 : ℝ) ≤ m := Nat.cast_nonneg m
    linarith

theorem locLLik_total (F : Family) {y : Fin n → ℝ} (hy : Accepts F y) (nu : Fin n → ℝ) :
    ∃ v, locLLik F y (fun i => locMean F (nu i)) = .ok v := by
  cases F with
  | Poisson =>
    change ∃ v, ((Res.tabulate n fun i => dpois (y i) (locMean .Poisson (nu i))).bind fun t => Res.ok (∑ i, t i)) = .ok v
    rw [tab_ok _ fun i => by
      change dpois (y i) (Real.exp (nu i)) = .ok (-Real.exp (nu i) + y i * Real.log (Real.exp (nu i)) - Real.log (Real.Gamma (y i + 1)))
      unfold dpois
      rw [flog_pos (Real.exp_pos _)]; rfl]
    exact ⟨_, rfl⟩
  | Binomial =>
    have h : ∀ i, ∃ v, binomTerm (y i) (locMean .Binomial (nu i)) = .ok v := by
      intro i
      have hr : 0 < locMean .Binomial (nu i) ∧ locMean .Binomial (nu i) < 1 := C46_binomial_range nu i
      obtain ⟨a, ha⟩ := lgam_pos (t := 2) (by norm_num)
      obtain ⟨b, hb⟩ := lgam_pos (t := 1 - y i + 1) (by linarith [(hy i).2])
      obtain ⟨c, hc⟩ := lgam_pos (t := y i + 1) (by linarith [(hy i).1])
      unfold binomTerm
      rw [ha, Res.bind, hb, Res.bind, hc, Res.bind, flog_pos (by rw [div_one]; linarith [hr.2]), Res.bind,
        flog_pos (by rw [div_one]; exact hr.1)]
      exact ⟨_, rfl⟩
    choose v hv using h
    change ∃ v, ((Res.tabulate n fun i => binomTerm (y i) (locMean .Binomial (nu i))).bind fun t => Res.ok (∑ i, t i)) = .ok v
    rw [tab_ok v hv]
    exact ⟨_, rfl⟩

theorem wtStep_total {F : Family} {x : Matrix (Fin n) (Fin k) ℝ} {y : Fin n → ℝ} {W : Fin n → Fin n → ℝ} (hy : Accepts F y)
    (hW : ∀ i l, 0 ≤ W i l) (hd : ∀ i, Determined x (W i)) (s : WtState n k) (hm : ∀ l, 0 < locDen F (s.mu l)) (hp : ∀ l, 0 < s.wt2 l) :
    ∃ s', wtStep F x y W s = .ok s' := by
  unfold wtStep
  rw [tab_ok (fun l => s.nu l + (y l - s.mu l) / locDen F (s.mu l)) fun l => by rw [fdiv_ne (hm l).ne']; rfl, Res.bind]
  have hb : ∀ i, ∃ b, gwPredict x (fun l => s.nu l + (y l - s.mu l) / locDen F (s.mu l)) (fun l => W i l * s.wt2 l) = .ok b := fun i =>
    gwPredict_of_determined (fun l => mul_nonneg (hW i l) (hp l).le) (fun c hc => hd i c fun l hl => hc l (mul_pos hl (hp l))) _
  choose b hb using hb
  rw [tab_ok b hb, Res.bind]
  obtain ⟨v, hv⟩ := locLLik_total F hy fun i => ∑ j, x i j * b i j
  rw [hv]
  exact ⟨_, rfl⟩

theorem wtLoop_total {F : Family} {tol : ℝ} {x : Matrix (Fin n) (Fin k) ℝ} {y : Fin n → ℝ} {W : Fin n → Fin n → ℝ} (hy : Accepts F y)
    (hW : ∀ i l, 0 ≤ W i l) (hd : ∀ i, Determined x (W i)) (fuel : ℕ) : ∀ (s : WtState n k), (∀ l, 0 < locDen F (s.mu l)) →
      (∀ l, 0 < s.wt2 l) → ∃ r, wtLoop F tol x y W fuel s = .ok r := by
  induction fuel with
  | zero => exact fun s _ _ => ⟨_, rfl⟩
  | succ fuel ih =>
    intro s hm hp
    obtain ⟨s', hs⟩ := wtStep_total hy hW hd s hm hp
    obtain ⟨_, _, _, _, e5, _⟩ := wtStep_ok hs
    unfold wtLoop
    rw [hs, Res.bind]
    by_cases hc : wtConverged tol s.llik s'.llik
    · rw [if_pos hc]; exact ⟨_, rfl⟩
    · rw [if_neg hc]
      exact ih _ (fun l => by simp only; rw [e5]; exact locDen_pos F _) fun l => by simp only; rw [e5]; exact locWork_pos F _

theorem loc_start {F : Family} {y : Fin n → ℝ} (hy : Accepts F y) :
    (∃ nu, locNu0 F y = .ok nu) ∧ ∀ l, 0 < locDen F (locMu0 F y l) := by
  cases F with
  | Poisson =>
    have h : ∀ l, 0 < y l + 1 / 10 := fun l => by have := hy l; linarith
    exact ⟨⟨_, tab_ok _ fun i => flog_pos (h i)⟩, h⟩
  | Binomial => exact ⟨⟨_, rfl⟩, fun l => by change (0 : ℝ) < 1 * (1 / 2) * (1 - 1 * (1 / 2)); norm_num⟩

/-- C92: for responses the family accepts, non-negative spatial weights and local data that determine the coefficients, the calibration
completes for every iteration limit and every tolerance. -/
theorem C92_calibration_completes {F : Family} (tol : ℝ) (m : ℕ) {x : Matrix (Fin n) (Fin k) ℝ} {y : Fin n → ℝ} {W : Fin n → Fin n → ℝ}
    (hy : Accepts F y) (hW : ∀ i l, 0 ≤ W i l) (hd : ∀ i, Determined x (W i)) : ∃ s c, wtCalc F tol m x y W = .ok (s, c) := by
  obtain ⟨⟨nu, hnu⟩, hm⟩ := loc_start hy
  unfold wtCalc
  rw [hnu, Res.bind]
  obtain ⟨r, hr⟩ := wtLoop_total (tol := tol) hy hW hd m ⟨nu, locMu0 F y, fun _ => 1, 0, 0, 0⟩ hm fun _ => one_pos
  exact ⟨r.1, r.2, hr⟩

/-! ## Candidate bandwidths -/

theorem wtCalc_singular {F : Family} (tol : ℝ) {m : ℕ} (hm : 0 < m) {x : Matrix (Fin n) (Fin k) ℝ} {y : Fin n → ℝ}
    {W : Fin n → Fin n → ℝ} (hy : Accepts F y) (hW : ∀ i l, 0 ≤ W i l) (i : Fin n) (hd : ¬ Determined x (W i)) :
    wtCalc F tol m x y W = .throw .singular := by
  obtain ⟨⟨nu, hnu⟩, hs⟩ := loc_start hy
  unfold wtCalc
  rw [hnu, Res.bind]
  obtain ⟨m, rfl⟩ : ∃ m', m = m' + 1 := ⟨m - 1, by omega⟩
  have : wtStep F x y W ⟨nu, locMu0 F y, fun _ => 1, 0, 0, 0⟩ = .throw .singular := by
    unfold wtStep
    rw [tab_ok (fun l => nu l + (y l - locMu0 F y l) / locDen F (locMu0 F y l)) fun l => by rw [fdiv_ne (hs l).ne']; rfl, Res.bind]
    rw [tabulate_fail (fun i => gwPredict_cases x _ _) ⟨i, gwPredict_singular (fun l => by simpa using hW i l) (by simpa using hd) _⟩]
    rfl
  unfold wtLoop
  rw [this]
  rfl

/-- C94 fails: a candidate bandwidth that leaves some location without enough neighbours does not get the worst score. The
cross-validation criterion throws, serial and parallel alike, and so ends the whole fit. -/
theorem C94_cv_throws {F : Family} (tol : ℝ) {m : ℕ} (hm : 0 < m) {x : Matrix (Fin n) (Fin k) ℝ} {y : Fin n → ℝ}
    {W : Fin n → Fin n → ℝ} (hy : Accepts F y) (hW : ∀ i l, 0 ≤ W i l) (i : Fin n) (hd : ¬ Determined x (cvWeight W i))
    (evs : List (OmpEv (Fin n) (Fin T))) :
    ggwrCVSerial F tol m x y W = .throw .singular ∧ ggwrCVOmp F tol m x y W evs = .throw .singular := by
  have hcv : ∀ i l, 0 ≤ cvWeight W i l := fun i l => by
    unfold cvWeight
    by_cases h : l = i
    · rw [h, Function.update_self]
    · rw [Function.update_of_ne h]; exact hW i l
  have := wtCalc_singular tol hm hy hcv i hd
  unfold ggwrCVSerial ggwrCVOmp
  rw [this]
  exact ⟨rfl, rfl⟩

/-- C94 fails in the same way for the information criterion. -/
theorem C94_aic_throws {F : Family} (tol : ℝ) {m : ℕ} (hm : 0 < m) {x : Matrix (Fin n) (Fin k) ℝ} {y : Fin n → ℝ}
    {W : Fin n → Fin n → ℝ} (hy : Accepts F y) (hW : ∀ i l, 0 ≤ W i l) (i : Fin n) (hd : ¬ Determined x (W i))
    (evs : List (OmpEv (Fin n) (Fin (T + 1)))) :
    ggwrAICSerial F tol m x y W = .throw .singular ∧ ggwrAICOmp F tol m x y W evs = .throw .singular := by
  have := wtCalc_singular tol hm hy hW i hd
  unfold ggwrAICSerial ggwrAICOmp
  rw [this]
  exact ⟨rfl, rfl⟩

/-- The situation exists: three observations, none of which has a neighbour. -/
example : Accepts (n := 3) .Poisson ![0, 1, 4] ∧ (∀ i l : Fin 3, (0 : ℝ) ≤ (if l = i then 1 else 0)) ∧
    ¬ Determined exX (cvWeight (fun i l : Fin 3 => if l = i then 1 else 0) 0) := by
  refine ⟨fun i => by fin_cases i <;> norm_num, fun i l => by split_ifs <;> norm_num, fun h => ?_⟩
  have := h (fun _ => 1) fun l hl => by
    fin_cases l <;> simp [cvWeight] at hl
  have := congrFun this 0
  norm_num at this

theorem cv_nonneg {W : Fin n → Fin n → ℝ} (hW : ∀ i l, 0 ≤ W i l) (i l : Fin n) : 0 ≤ cvWeight W i l := by
  unfold cvWeight
  by_cases h : l = i
  · rw [h, Function.update_self]
  · rw [Function.update_of_ne h]; exact hW i l

/-- C90: the parallel cross-validation criterion has the serial value for every schedule, whenever the serial one has a value. -/
theorem C90_parallel_cv (F : Family) (tol : ℝ) (m : ℕ) (x : Matrix (Fin n) (Fin k) ℝ) (y : Fin n → ℝ) (W : Fin n → Fin n → ℝ)
    (evs : List (OmpEv (Fin n) (Fin T))) (hs : Schedule (List.finRange n) evs) (v : ℝ) (h : ggwrCVSerial F tol m x y W = .ok v) :
    ggwrCVOmp F tol m x y W evs = .ok v := by
  unfold ggwrCVSerial at h
  unfold ggwrCVOmp
  obtain ⟨c, hc, h⟩ := Res.bind_eq_ok'.1 h
  rw [hc, Res.bind]
  obtain ⟨r, hr, h⟩ := Res.bind_eq_ok'.1 h
  have hnt : r.2 = false := by
    obtain ⟨r1, r2⟩ := r
    cases r2 with
    | false => rfl
    | true =>
      exfalso
      have key : ∀ (is : List (Fin n)) (p : ℕ) (s : Fin n → ℝ) (z : (Fin n → ℝ) × Bool),
          serialFor (ggwrCVLoc F x y W c.1) (fun i r (cv : Fin n → ℝ) => Function.update cv i r) (fun _ => false) is p s = .ok z →
            z.2 = false := by
        intro is
        induction is with
        | nil => intro p s z h; cases h; rfl
        | cons i is ih =>
          intro p s z h
          simp only [serialFor, Bool.false_eq_true, if_false] at h
          obtain ⟨a, _, h⟩ := Res.bind_eq_ok'.1 h
          exact ih _ _ _ h
      have := key _ _ _ _ hr
      cases this
  have hall : ∀ i, ∃ a, ggwrCVLoc F x y W c.1 i = .ok a := fun i =>
    serialFor_complete _ 0 _ r.1 (by rw [hr, ← hnt]) i (List.mem_finRange i)
  choose a ha using hall
  have e := serialFor_ok (upd := fun i r (cv : Fin n → ℝ) => Function.update cv i r) a (List.finRange n) 0 (0 : Fin n → ℝ)
    (fun _ _ => rfl) (stop := fun _ => false) fun i _ => ha i
  rw [hr] at e
  have e1 : r.1 = a := by rw [Res.ok.inj e]; exact foldl_rows_finRange a 0
  obtain ⟨h1, _, h3⟩ := rowsOmp_ok (fun _ => rfl) a ha (0 : Fin n → ℝ) hs (stop := fun _ => false)
  simp only
  rw [if_pos h1, h3, ← e1]
  exact h

/-- The accumulator of one thread. -/
theorem foldl_thread_at {M : Type _} [AddCommMonoid M] {S : Type _} [DecidableEq S] (v : Fin n → M) (t0 : S) :
    ∀ (l : List (S × Fin n)) (a : S → M),
      (l.foldl (fun a ti => Function.update a ti.1 (a ti.1 + v ti.2)) a) t0 =
        a t0 + ((l.filter fun ti => ti.1 = t0).map fun ti => v ti.2).sum
  | [], a => by simp
  | (t, i) :: l, a => by
    rw [List.foldl_cons, foldl_thread_at v t0 l]
    by_cases h : t = t0
    · subst h
      rw [List.filter_cons_of_pos (by simp)]
      simp [add_assoc]
    · rw [List.filter_cons_of_neg (by simpa using h)]
      simp only
      rw [Function.update_of_ne (Ne.symm h)]

/-- C91: what the parallel information criterion computes: the effective number of parameters counts only the locations that thread 0 ran. -/
theorem C91_parallel_value (F : Family) (tol : ℝ) (m : ℕ) (x : Matrix (Fin n) (Fin k) ℝ) (y : Fin n → ℝ) (W : Fin n → Fin n → ℝ)
    {c : WtState n k} {conv : Bool} (hc : wtCalc F tol m x y W = .ok (c, conv)) (lev : Fin n → ℝ)
    (hl : ∀ i, ggwrLeverage x W c i = .ok (lev i)) (evs : List (OmpEv (Fin n) (Fin (T + 1)))) (hs : Schedule (List.finRange n) evs) :
    ggwrAICSerial F tol m x y W = ggwrAICc n c.llik (∑ i, lev i) ∧
    ggwrAICOmp F tol m x y W evs = ggwrAICc n c.llik (((finishes evs).filter fun ti => ti.1 = 0).map fun ti => lev ti.2).sum := by
  constructor
  · unfold ggwrAICSerial
    rw [hc, Res.bind, serialFor_ok lev _ 0 _ (fun _ _ => rfl) fun i _ => hl i, Res.bind, foldl_add, zero_add, ← List.ofFn_eq_map,
      List.sum_ofFn]
  · unfold ggwrAICOmp
    rw [hc, Res.bind]
    obtain ⟨h1, _, h3⟩ := omp_ok (upd := fun t _ r (tr : Fin (T + 1) → ℝ) => Function.update tr t (tr t + r)) (stop := fun _ => false)
      (fun _ => rfl) lev (0 : Fin (T + 1) → ℝ) hs fun i _ => hl i
    simp only
    rw [if_pos h1, h3, foldl_thread_at lev 0]
    simp

/-- C91, partial: if thread 0 runs every location the parallel criterion is the serial one. Missing: all other schedules
(`C91_threads_violate`). -/
theorem C91_single_thread_partial (F : Family) (tol : ℝ) (m : ℕ) (x : Matrix (Fin n) (Fin k) ℝ) (y : Fin n → ℝ) (W : Fin n → Fin n → ℝ)
    {c : WtState n k} {conv : Bool} (hc : wtCalc F tol m x y W = .ok (c, conv)) (lev : Fin n → ℝ)
    (hl : ∀ i, ggwrLeverage x W c i = .ok (lev i)) (evs : List (OmpEv (Fin n) (Fin (T + 1)))) (hs : Schedule (List.finRange n) evs)
    (h0 : ∀ t i, OmpEv.finish t i ∈ evs → t = 0) : ggwrAICOmp F tol m x y W evs = ggwrAICSerial F tol m x y W := by
  obtain ⟨e1, e2⟩ := C91_parallel_value F tol m x y W hc lev hl evs hs
  rw [e1, e2, List.filter_eq_self.2 fun ti hti => by simpa using h0 ti.1 ti.2 (mem_finishes.1 hti)]
  congr 1
  have : List.map (fun ti : _ × Fin n => lev ti.2) (finishes evs) = ((finishes evs).map Prod.snd).map lev := by rw [List.map_map]; rfl
  rw [this, (hs.finishes.map _).sum_eq, ← List.ofFn_eq_map, List.sum_ofFn]

/-! ## Data with an intercept only -/

theorem ones_predict {w : Fin n → ℝ} (hw : ∀ l, 0 ≤ w l) (h : ∃ l, 0 < w l) (z : Fin n → ℝ) :
    gwPredict (ones n) z w = .ok fun _ => (∑ l, w l * z l) / ∑ l, w l := by
  unfold gwPredict
  rw [invGeneral_gram _ _ hw]
  exact ones_beta hw h z

/-- The row of the hat matrix is the fitted value of the unit responses. -/
theorem localFitInv_si {x : Matrix (Fin n) (Fin k) ℝ} {y w : Fin n → ℝ} {xi : Fin k → ℝ} {lf : LocalFit n k}
    (h : localFitInv x y w xi = .ok lf) (l : Fin n) : ∃ b, gwPredict x (Pi.single l 1) w = .ok b ∧ lf.si l = ∑ j, xi j * b j := by
  unfold localFitInv at h
  obtain ⟨inv, hi, h⟩ := Res.bind_eq_ok'.1 h
  cases h
  refine ⟨inv *ᵥ (xtw x w *ᵥ Pi.single l 1), ?_, ?_⟩
  · unfold gwPredict; rw [hi]; rfl
  · rw [mulVec_mulVec, mulVec_single_one]
    rfl

theorem ones_leverage {W : Fin n → Fin n → ℝ} {st : WtState n 1} (hW : ∀ i l, 0 ≤ W i l) (hp : ∀ l, 0 < st.wt2 l) (i : Fin n)
    (h : ∃ l, 0 < W i l) : ∃ lf, localFitInv (ones n) st.yAdj (fun l => W i l * st.wt2 l) (ones n i) = .ok lf ∧
      lf.si i = W i i * st.wt2 i / ∑ l, W i l * st.wt2 l ∧ lf.beta = fun _ => (∑ l, W i l * st.wt2 l * st.yAdj l) / ∑ l, W i l * st.wt2 l := by
  have hw : ∀ l, 0 ≤ W i l * st.wt2 l := fun l => mul_nonneg (hW i l) (hp l).le
  have hx : ∃ l, 0 < W i l * st.wt2 l := by obtain ⟨l, hl⟩ := h; exact ⟨l, mul_pos hl (hp l)⟩
  rcases localFitInv_cases (ones n) st.yAdj (fun l => W i l * st.wt2 l) (ones n i) with ⟨lf, hl⟩ | hl
  · refine ⟨lf, hl, ?_, ?_⟩
    · obtain ⟨b, h1, h2⟩ := localFitInv_si hl i
      rw [ones_predict hw hx] at h1
      rw [h2, ← Res.ok.inj h1]
      simp only [ones, Fin.sum_univ_one, one_mul]
      congr 1
      rw [Finset.sum_eq_single i (fun l _ hl => by rw [Pi.single_eq_of_ne hl, mul_zero]) (by simp), Pi.single_eq_same, mul_one]
    · have := localFitInv_ok hl
      rw [ones_predict hw hx] at this
      exact (Res.ok.inj this).symm
  · have := ones_predict hw hx st.yAdj
    unfold localFitInv at hl
    unfold gwPredict at this
    obtain ⟨inv, hi, _⟩ := Res.bind_eq_ok'.1 this
    rw [hi] at hl
    cases hl

theorem ones_det {w : Fin n → ℝ} (hw : ∀ l, 0 ≤ w l) (h : ∃ l, 0 < w l) : Determined (ones n) w :=
  (gram_posDef_iff_determined _ _ hw).1 (ones_determined hw h)

/-- C91 fails: three observations, all spatial weights 1, an intercept. Whatever the counts, the iteration limit and the tolerance: if
thread 1 of two happens to run all locations, the parallel criterion is smaller than the serial one by 6. -/
theorem C91_threads_violate (tol : ℝ) (m : ℕ) (y : Fin 3 → ℝ) (hy : ∀ i, 0 ≤ y i) :
    ∃ (v : ℝ) (evs : List (OmpEv (Fin 3) (Fin 2))), Schedule (List.finRange 3) evs ∧
      ggwrAICSerial .Poisson tol m (ones 3) y (fun _ _ => 1) = .ok (v + 6) ∧
      ggwrAICOmp .Poisson tol m (ones 3) y (fun _ _ => 1) evs = .ok v := by
  have hW : ∀ i l : Fin 3, (0 : ℝ) ≤ (fun _ _ => 1 : Fin 3 → Fin 3 → ℝ) i l := fun _ _ => zero_le_one
  obtain ⟨c, conv, hc⟩ := C92_calibration_completes (F := .Poisson) tol m (x := ones 3) (y := y) (W := fun _ _ => 1) hy hW
    fun i => ones_det (hW i) ⟨0, one_pos⟩
  have hp := wtCalc_wt2 hc
  have hS : 0 < ∑ l, c.wt2 l := Finset.sum_pos (fun l _ => hp l) Finset.univ_nonempty
  have hl : ∀ i, ggwrLeverage (ones 3) (fun _ _ => 1) c i = .ok (c.wt2 i / ∑ l, c.wt2 l) := by
    intro i
    obtain ⟨lf, h1, h2, _⟩ := ones_leverage (W := fun _ _ => 1) hW hp i ⟨0, one_pos⟩
    unfold ggwrLeverage
    rw [h1, Res.bind, h2]
    simp only [one_mul]
  have hs := seqEvents_schedule (fun _ : Fin 3 => (1 : Fin 2)) (List.finRange 3)
  obtain ⟨e1, e2⟩ := C91_parallel_value .Poisson tol m (ones 3) y _ hc _ hl _ hs
  have hsum : ∑ i, c.wt2 i / ∑ l, c.wt2 l = 1 := by rw [← Finset.sum_div, div_self hS.ne']
  have hz : (((finishes (seqEvents (fun _ : Fin 3 => (1 : Fin 2)) (List.finRange 3))).filter fun ti => ti.1 = 0).map
      fun ti => c.wt2 ti.2 / ∑ l, c.wt2 l).sum = 0 := by
    rw [List.filter_eq_nil_iff.2]
    · rfl
    · intro ti h
      have : ∀ l : List (Fin 3), ti ∈ finishes (seqEvents (fun _ : Fin 3 => (1 : Fin 2)) l) → ti.1 = 1 := by
        intro l
        induction l with
        | nil => intro h; simp [seqEvents, finishes] at h
        | cons i l ih =>
          intro h
          simp only [seqEvents, finishes, List.mem_cons] at h
          rcases h with h | h
          · rw [h]
          · exact ih h
      rw [this _ h]
      simp
  refine ⟨-2 * c.llik, _, hs, ?_, ?_⟩
  · rw [e1, hsum]
    unfold ggwrAICc
    rw [fdiv_ne (by norm_num), Res.bind]
    congr 1
    norm_num
    ring
  · rw [e2, hz]
    unfold ggwrAICc
    rw [fdiv_ne (by norm_num), Res.bind]
    congr 1
    norm_num

/-! ## Complete fits -/

/-- The global Poisson model completes for counts that are not all equal, a design of full column rank and more than `k + 1` observations. -/
theorem calGlm_poisson_total {x : Matrix (Fin n) (Fin k) ℝ} {y : Fin n → ℝ} (hy : ∀ i, 0 ≤ y i) (hne : ∃ i j, y i ≠ y j)
    (hx : Determined x fun _ => 1) (hk : k + 1 < n) (hn : n < 2 ^ 64) : ∃ d, calGlm (glmPoisson n) x y = .ok d := by
  have hn0 : n ≠ 0 := by omega
  obtain ⟨s, it, conv, h1⟩ := C46_poisson_fit_completes hn0 x y hy hx
  have hn' : (0 : ℝ) < n := by exact_mod_cast Nat.pos_of_ne_zero hn0
  have hpos : 0 < (∑ i, y i) / (n : ℝ) := by
    refine div_pos (lt_of_le_of_ne (Finset.sum_nonneg fun i _ => hy i) fun h => ?_) hn'
    rw [eq_comm, Finset.sum_eq_zero_iff_of_nonneg fun i _ => hy i] at h
    obtain ⟨i, j, hij⟩ := hne
    exact hij (by rw [h i (Finset.mem_univ i), h j (Finset.mem_univ j)])
  obtain ⟨d, e1, e2, e3⟩ := C46_poisson_deviance_sign hn0 y (fun _ => (∑ i, y i) / (n : ℝ)) hy fun _ => hpos
  have hnd : ∑ i, d i ≠ 0 := fun h => by
    obtain ⟨i, j, hij⟩ := hne
    have := e3.1 h
    exact hij (by rw [congrFun this i, congrFun this j])
  obtain ⟨c, hc, _⟩ := C86_correction_partial n k hk hn
  have e0 : glmNullDev (glmPoisson n) y = .ok (∑ i, d i) := by
    unfold glmNullDev
    rw [fdiv_ne hn'.ne', Res.bind]
    change (poissonDevResids y (fun _ => (∑ i, y i) / (n : ℝ)) fun _ => 1).bind _ = _
    rw [e1]; rfl
  unfold calGlm
  rw [h1, Res.bind, e0, Res.bind, fdiv_ne hnd, Res.bind, hc]
  exact ⟨_, rfl⟩

/-- A Poisson fit completes when the parts do. -/
theorem ggwrFit_poisson_total {tol : ℝ} {m : ℕ} (hm : 0 < m) {x : Matrix (Fin n) (Fin k) ℝ} {y : Fin n → ℝ} {W : Fin n → Fin n → ℝ}
    {ex : Exec n} (hex : ex.Valid) (hy : ∀ i, 0 ≤ y i) (hne : ∃ i j, y i ≠ y j) (hx : Determined x fun _ => 1) (hk : k + 1 < n)
    (hn : n < 2 ^ 64) {c : WtState n k} {conv : Bool} (hc : wtCalc .Poisson tol m x y W = .ok (c, conv)) (lf : Fin n → LocalFit n k)
    (hlf : ∀ i, localFitInv x c.yAdj (fun l => W i l * c.wt2 l) (x i) = .ok (lf i)) (htr : ∑ i, (lf i).si i ≠ n - 1) :
    ∃ r, ggwrFit .Poisson tol m x y W ex = .ok r ∧ r.cal = c ∧ r.converged = conv ∧ (∀ i, r.betas i = (lf i).beta) := by
  obtain ⟨d, hd⟩ := calGlm_poisson_total hy hne hx hk hn
  have hp := wtCalc_wt2 hc
  have hcal := wtCalc_inv hm hc
  have hr : ∀ i, ggwrLoc x W c i = .ok (lf i, fun j => Real.sqrt (∑ l, (lf i).ci j l ^ 2 / c.wt2 l)) := by
    intro i
    rcases ggwrLoc_cases x W c hp i with ⟨lf', h1, h2⟩ | ⟨h1, _⟩
    · have : lf' = lf i := Res.ok.inj (h1.symm.trans (hlf i))
      rw [← this]; exact h2
    · rw [hlf i] at h1; cases h1
  have hmu : ∀ i, 0 < c.mu i := fun i => by rw [hcal.mu i]; exact Real.exp_pos _
  have hsh : (∑ i, shatRow i (lf i)) 0 = ∑ i, (lf i).si i := by rw [Finset.sum_apply]; rfl
  have hnd : d.nullDev ≠ 0 := by
    intro h0
    have hd' := hd
    unfold calGlm at hd'
    obtain ⟨_, _, hd'⟩ := Res.bind_eq_ok'.1 hd'
    obtain ⟨nd, _, hd'⟩ := Res.bind_eq_ok'.1 hd'
    obtain ⟨q, hq, hd'⟩ := Res.bind_eq_ok'.1 hd'
    obtain ⟨_, _, hd'⟩ := Res.bind_eq_ok'.1 hd'
    cases hd'
    rw [fdiv, if_pos h0] at hq
    cases hq
  unfold ggwrFit
  change ∃ r, (calGlm (glmPoisson n) x y).bind _ = .ok r ∧ _
  rw [hd, Res.bind, hc, Res.bind, ggwrHat_ok hex _ hr, Res.bind]
  change ∃ r, (gwDevPoisson y c.mu).bind _ = .ok r ∧ _
  rw [gwDevPoisson_eq y c.mu hy hmu, Res.bind, fdiv_ne (by simp only; rw [hsh]; intro h; exact htr (by linarith)), Res.bind,
    fdiv_ne hnd, Res.bind]
  exact ⟨_, rfl, rfl, rfl, fun _ => rfl⟩

/-- Weights of three locations: the first two are neighbours, the third is alone. -/
noncomputable def pairW : Fin 3 → Fin 3 → ℝ := ![![1, 1 / 2, 0], ![1 / 2, 1, 0], ![0, 0, 1]]

theorem pairW_nonneg (i l : Fin 3) : 0 ≤ pairW i l := by fin_cases i <;> fin_cases l <;> norm_num [pairW]

theorem pairW_pos (i : Fin 3) : ∃ l, 0 < pairW i l := ⟨i, by fin_cases i <;> norm_num [pairW]⟩

/-- For these weights the trace of the hat matrix is never 2. -/
theorem pairW_fit {c : WtState 3 1} (hp : ∀ l, 0 < c.wt2 l) : ∃ lf : Fin 3 → LocalFit 3 1,
    (∀ i, localFitInv (ones 3) c.yAdj (fun l => pairW i l * c.wt2 l) (ones 3 i) = .ok (lf i)) ∧ ∑ i, (lf i).si i ≠ (3 : ℕ) - 1 ∧
    ∀ i, (lf i).beta = fun _ => (∑ l, pairW i l * c.wt2 l * c.yAdj l) / ∑ l, pairW i l * c.wt2 l := by
  choose lf h1 h2 h3 using fun i => ones_leverage (W := pairW) (st := c) pairW_nonneg hp i (pairW_pos i)
  refine ⟨lf, h1, ?_, h3⟩
  rw [Fin.sum_univ_three, h2, h2, h2]
  have a := hp 0; have b := hp 1; have d := hp 2
  have e0 : ∑ l, pairW 0 l * c.wt2 l = c.wt2 0 + c.wt2 1 / 2 := by rw [Fin.sum_univ_three]; simp [pairW]; ring
  have e1 : ∑ l, pairW 1 l * c.wt2 l = c.wt2 0 / 2 + c.wt2 1 := by rw [Fin.sum_univ_three]; simp [pairW]; ring
  have e2 : ∑ l, pairW 2 l * c.wt2 l = c.wt2 2 := by rw [Fin.sum_univ_three]; simp [pairW]
  have f0 : pairW 0 0 = 1 := rfl
  have f1 : pairW 1 1 = 1 := rfl
  have f2 : pairW 2 2 = 1 := rfl
  rw [e0, e1, e2, f0, f1, f2, one_mul, one_mul, one_mul, div_self d.ne']
  intro h
  have g : c.wt2 0 / (c.wt2 0 + c.wt2 1 / 2) + c.wt2 1 / (c.wt2 0 / 2 + c.wt2 1) = 1 := by push_cast at h; linarith
  rw [div_add_div _ _ (by positivity) (by positivity), div_eq_one_iff_eq (by positivity)] at g
  nlinarith [mul_pos a b]

/-- A Poisson fit that completes, for every positive iteration limit and every tolerance, serial and parallel. -/
theorem pair_fit_completes (tol : ℝ) {m : ℕ} (hm : 0 < m) {ex : Exec 3} (hex : ex.Valid) :
    ∃ r, ggwrFit .Poisson tol m (ones 3) ![0, 1, 4] pairW ex = .ok r := by
  have hy : ∀ i : Fin 3, (0 : ℝ) ≤ (![0, 1, 4] : Fin 3 → ℝ) i := fun i => by fin_cases i <;> norm_num
  obtain ⟨c, conv, hc⟩ := C92_calibration_completes (F := .Poisson) tol m (x := ones 3) (y := ![0, 1, 4]) (W := pairW) hy pairW_nonneg
    fun i => ones_det (pairW_nonneg i) (pairW_pos i)
  obtain ⟨lf, h1, h2, _⟩ := pairW_fit (wtCalc_wt2 hc)
  obtain ⟨r, hr, _⟩ := ggwrFit_poisson_total hm hex hy ⟨0, 1, by norm_num⟩ (ones_det (fun _ => zero_le_one) ⟨0, one_pos⟩)
    (by norm_num) (by norm_num) hc lf h1 h2
  exact ⟨r, hr⟩

/-- C88 fails: an iteration limit of one. The deviance is computed from the means of the calibration, but the coefficients are fitted once
more with newer working weights, and their means are different. -/
theorem C88_limit_violates (tol : ℝ) (ht : tol ≤ 1) {ex : Exec 3} (hex : ex.Valid) :
    ∃ r, ggwrFit .Poisson tol 1 (ones 3) ![0, 1, 4] pairW ex = .ok r ∧ r.converged = false ∧
      Real.exp (∑ j, ones 3 0 j * r.betas 0 j) ≠ r.cal.mu 0 := by
  have hy : ∀ i : Fin 3, (0 : ℝ) ≤ (![0, 1, 4] : Fin 3 → ℝ) i := fun i => by fin_cases i <;> norm_num
  obtain ⟨c, conv, hc⟩ := C92_calibration_completes (F := .Poisson) tol 1 (x := ones 3) (y := ![0, 1, 4]) (W := pairW) hy pairW_nonneg
    fun i => ones_det (pairW_nonneg i) (pairW_pos i)
  obtain ⟨lf, h1, h2, h3⟩ := pairW_fit (wtCalc_wt2 hc)
  obtain ⟨r, hr, e1, e2, e3⟩ := ggwrFit_poisson_total one_pos hex hy ⟨0, 1, by norm_num⟩ (ones_det (fun _ => zero_le_one) ⟨0, one_pos⟩)
    (by norm_num) (by norm_num) hc lf h1 h2
  refine ⟨r, hr, ?_⟩
  -- the single iteration
  have hc' := hc
  unfold wtCalc at hc'
  obtain ⟨nu, hnu, hc'⟩ := Res.bind_eq_ok'.1 hc'
  have hnu' : ∀ i, nu i = Real.log ((![0, 1, 4] : Fin 3 → ℝ) i + 1 / 10) := fun i => by
    have := Res.tabulate_eq_ok.1 (show Res.tabulate 3 (fun i => flog ((![0, 1, 4] : Fin 3 → ℝ) i + 1 / 10)) = .ok nu from hnu) i
    rw [flog_pos (show 0 < (![0, 1, 4] : Fin 3 → ℝ) i + 1 / 10 by linarith [hy i])] at this
    exact (Res.ok.inj this).symm
  unfold wtLoop at hc'
  obtain ⟨s', hs, hc'⟩ := Res.bind_eq_ok'.1 hc'
  obtain ⟨g1, g2, g3, g4, g5, g6⟩ := wtStep_ok hs
  have hnc : ¬ wtConverged tol 0 s'.llik := by
    rintro ⟨h0, h⟩
    rw [zero_sub, neg_div, div_self h0, abs_neg, abs_one] at h
    linarith
  rw [if_neg hnc] at hc'
  have hcv : conv = false := by
    have := Res.ok.inj hc'; exact (congrArg Prod.snd this).symm
  have hcs : c = { s' with wt2 := fun l => locWork .Poisson (s'.mu l) } := by
    have := Res.ok.inj hc'; exact (congrArg Prod.fst this).symm
  refine ⟨by rw [e2, hcv], ?_⟩
  have hb : ∀ i, s'.betas i = fun _ => (∑ l, pairW i l * 1 * s'.yAdj l) / ∑ l, pairW i l * 1 := fun i => by
    have := g3 i
    rw [ones_predict (fun l => by simpa using pairW_nonneg i l) (by simpa using pairW_pos i)] at this
    exact (Res.ok.inj this).symm
  have hmu : ∀ i, s'.mu i = Real.exp ((∑ l, pairW i l * 1 * s'.yAdj l) / ∑ l, pairW i l * 1) := fun i => by
    rw [g5 i, g4 i, hb i]
    change Real.exp _ = _
    simp only [ones, Fin.sum_univ_one, one_mul]
  have hr0 : ∑ j, ones 3 0 j * r.betas 0 j = (∑ l, pairW 0 l * s'.mu l * s'.yAdj l) / ∑ l, pairW 0 l * s'.mu l := by
    rw [e3 0, h3 0, hcs]
    simp only [ones, Fin.sum_univ_one, one_mul]
    rfl
  have hm0 : r.cal.mu 0 = s'.mu 0 := by rw [e1, hcs]
  rw [hr0, hm0, hmu 0, Ne, Real.exp_eq_exp]
  set a := s'.yAdj 0 with ha
  set b := s'.yAdj 1 with hbd
  set u := s'.mu 0 with hu
  set v := s'.mu 1 with hv
  have k1 : ∑ l, pairW 0 l * s'.mu l * s'.yAdj l = u * a + v * b / 2 := by
    rw [Fin.sum_univ_three]; simp [pairW]; ring
  have k2 : ∑ l, pairW 0 l * s'.mu l = u + v / 2 := by rw [Fin.sum_univ_three]; simp [pairW]; ring
  have k3 : ∑ l, pairW 0 l * 1 * s'.yAdj l = a + b / 2 := by rw [Fin.sum_univ_three]; simp [pairW]; ring
  have k4 : ∑ l, pairW 0 l * 1 = 3 / 2 := by rw [Fin.sum_univ_three]; simp [pairW]; norm_num
  have k5 : ∑ l, pairW 1 l * 1 * s'.yAdj l = a / 2 + b := by rw [Fin.sum_univ_three]; simp [pairW]; ring
  have k6 : ∑ l, pairW 1 l * 1 = 3 / 2 := by rw [Fin.sum_univ_three]; simp [pairW]; norm_num
  have hup : 0 < u := by rw [hu, hmu 0]; exact Real.exp_pos _
  have hvp : 0 < v := by rw [hv, hmu 1]; exact Real.exp_pos _
  have hab : a < b := by
    have qa : a = Real.log (1 / 10) - 1 := by
      rw [ha, (g2 0).2, show (⟨nu, locMu0 .Poisson ![0, 1, 4], fun _ => 1, 0, 0, 0⟩ : WtState 3 1).nu 0 = _ from hnu' 0]
      change Real.log ((![0, 1, 4] : Fin 3 → ℝ) 0 + 1 / 10) + ((![0, 1, 4] : Fin 3 → ℝ) 0 - ((![0, 1, 4] : Fin 3 → ℝ) 0 + 1 / 10)) /
        ((![0, 1, 4] : Fin 3 → ℝ) 0 + 1 / 10) = _
      norm_num
      ring
    have qb : b = Real.log (11 / 10) - 1 / 11 := by
      rw [hbd, (g2 1).2, show (⟨nu, locMu0 .Poisson ![0, 1, 4], fun _ => 1, 0, 0, 0⟩ : WtState 3 1).nu 1 = _ from hnu' 1]
      change Real.log ((![0, 1, 4] : Fin 3 → ℝ) 1 + 1 / 10) + ((![0, 1, 4] : Fin 3 → ℝ) 1 - ((![0, 1, 4] : Fin 3 → ℝ) 1 + 1 / 10)) /
        ((![0, 1, 4] : Fin 3 → ℝ) 1 + 1 / 10) = _
      norm_num
      ring
    have := Real.log_lt_log (by norm_num : (0 : ℝ) < 1 / 10) (by norm_num : (1 / 10 : ℝ) < 11 / 10)
    rw [qa, qb]; linarith
  have huv : u < v := by
    rw [hu, hv, hmu 0, hmu 1, k3, k4, k5, k6, Real.exp_lt_exp]
    linarith
  rw [k1, k2, k3, k4, div_eq_div_iff (by positivity) (by norm_num)]
  intro h
  have : (v - u) * (b - a) = 0 := by nlinarith
  rcases mul_eq_zero.1 this with h | h <;> linarith

example (tol : ℝ) : ∃ r, ggwrFit .Poisson tol 20 (ones 3) ![0, 1, 4] pairW
    (.omp (seqEvents (fun i : Fin 3 => if i = 1 then (1 : Fin 2) else 0) (List.finRange 3))) = .ok r :=
  pair_fit_completes tol (by norm_num) (seqEvents_schedule _ _)

end Verif.Props

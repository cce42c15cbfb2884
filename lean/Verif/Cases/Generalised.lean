import Verif.Props.GGWRRunGeneral
import Verif.Props.SearchRange
import Verif.Cases.Glm

/-! # Concrete cases for the theorems of `Props/GWRGeneralized`, `Props/GGWRRun` and `Props/GGWRRunGeneral` -/

namespace Verif.Cases
open Verif Verif.Model Verif.Spec Verif.Props Matrix Classical

/-! ## Poisson fits: three locations, the first two neighbours -/

/-- Locations 0 and 2 run on thread 0, location 1 on thread 1. -/
def ggEvents : List (OmpEv (Fin 3) (Fin 2)) := seqEvents (fun i : Fin 3 => if i = 1 then (1 : Fin 2) else 0) (List.finRange 3)
theorem ggEvents_ok : Schedule (List.finRange 3) ggEvents := seqEvents_schedule _ _

example (tol : ℝ) := C90_parallel_fit .Poisson tol 20 (ones 3) ![0, 1, 4] pairW _ ggEvents_ok

noncomputable def ggFit (tol : ℝ) : GgwrResult 3 1 := (pair_fit_completes tol (m := 20) (by norm_num) (ex := .omp ggEvents) ggEvents_ok).choose
theorem ggFit_ok (tol : ℝ) : ggwrFit .Poisson tol 20 (ones 3) ![0, 1, 4] pairW (.omp ggEvents) = .ok (ggFit tol) :=
  (pair_fit_completes tol (m := 20) (by norm_num) (ex := .omp ggEvents) ggEvents_ok).choose_spec

example (tol : ℝ) := C92_coefficients_wls (ex := .omp ggEvents) ggEvents_ok pairW_nonneg (ggFit_ok tol)
example (tol : ℝ) := C89_poisson_deviance (by norm_num) (ex := .omp ggEvents) ggEvents_ok (fun i => by fin_cases i <;> norm_num) (ggFit_ok tol)
example (tol : ℝ) (ht : tol ≤ 1) := C88_limit_violates tol ht (ex := .omp ggEvents) ggEvents_ok

/-- Positive counts. -/
theorem gg_positive (tol : ℝ) : ∃ r, ggwrFit .Poisson tol 20 (ones 3) ![1, 2, 4] pairW .serial = .ok r := by
  have hy : ∀ i : Fin 3, (0 : ℝ) ≤ (![1, 2, 4] : Fin 3 → ℝ) i := fun i => by fin_cases i <;> norm_num
  obtain ⟨c, conv, hc⟩ := C92_calibration_completes (F := .Poisson) tol 20 (x := ones 3) (y := ![1, 2, 4]) (W := pairW) hy pairW_nonneg
    fun i => ones_det (pairW_nonneg i) (pairW_pos i)
  obtain ⟨lf, h1, h2, _⟩ := pairW_fit (wtCalc_wt2 hc)
  obtain ⟨r, hr, _⟩ := ggwrFit_poisson_total (by norm_num) (ex := .serial) trivial hy ⟨0, 1, by norm_num⟩ (ones_det (fun _ => zero_le_one) ⟨0, one_pos⟩)
    (by norm_num) (by norm_num) hc lf h1 h2
  exact ⟨r, hr⟩

example (tol : ℝ) := C89_poisson_pseudo_r2 (by norm_num) (by norm_num) (ex := .serial) trivial (fun i => by fin_cases i <;> norm_num)
  (gg_positive tol).choose_spec

/-- The log-probability of a count is negative, so that with a tolerance above 1 the first convergence test succeeds. -/
theorem logPmf_neg {y : ℕ} {mu : ℝ} (hm : 0 < mu) (h : y < 2 ∨ 0 < y) {v : ℝ} (hv : dpois y mu = .ok v) : v ≤ 0 := by
  unfold dpois at hv
  rw [flog_pos hm, Res.bind, Res.ok.injEq] at hv
  have h1 := Real.pow_div_factorial_le_exp mu hm.le y
  have h2 := Real.log_le_log (by positivity) h1
  rw [Real.log_exp, Real.log_div (by positivity) (by positivity), Real.log_pow, ← Real.Gamma_nat_eq_factorial] at h2
  linarith

theorem logPmf_zero {mu : ℝ} (hm : 0 < mu) {v : ℝ} (hv : dpois 0 mu = .ok v) : v < 0 := by
  unfold dpois at hv
  rw [flog_pos hm, Res.bind, Res.ok.injEq] at hv
  simp at hv
  linarith

theorem gg_converged : ∃ r, ggwrFit .Poisson 2 20 (ones 3) ![0, 1, 4] pairW .serial = .ok r ∧ r.converged = true := by
  have hy : ∀ i : Fin 3, (0 : ℝ) ≤ (![0, 1, 4] : Fin 3 → ℝ) i := fun i => by fin_cases i <;> norm_num
  obtain ⟨c, conv, hc⟩ := C92_calibration_completes (F := .Poisson) 2 20 (x := ones 3) (y := ![0, 1, 4]) (W := pairW) hy pairW_nonneg
    fun i => ones_det (pairW_nonneg i) (pairW_pos i)
  obtain ⟨lf, h1, h2, _⟩ := pairW_fit (wtCalc_wt2 hc)
  obtain ⟨r, hr, -, e, -⟩ := ggwrFit_poisson_total (by norm_num) (ex := .serial) trivial hy ⟨0, 1, by norm_num⟩ (ones_det (fun _ => zero_le_one) ⟨0, one_pos⟩)
    (by norm_num) (by norm_num) hc lf h1 h2
  refine ⟨r, hr, e.trans ?_⟩
  unfold wtCalc at hc
  obtain ⟨nu, -, hc⟩ := Res.bind_eq_ok'.1 hc
  unfold wtLoop at hc
  obtain ⟨s', hs, hc⟩ := Res.bind_eq_ok'.1 hc
  obtain ⟨-, -, -, -, e5, e6⟩ := wtStep_ok hs
  have hmu : ∀ i, 0 < s'.mu i := fun i => by rw [e5]; exact Real.exp_pos _
  have hneg : s'.llik < 0 := by
    change (Res.tabulate 3 fun i => dpois ((![0, 1, 4] : Fin 3 → ℝ) i) (s'.mu i)).bind _ = _ at e6
    obtain ⟨t, ht, e6⟩ := Res.bind_eq_ok'.1 e6
    rw [← Res.ok.inj e6, Fin.sum_univ_three]
    have ht := Res.tabulate_eq_ok.1 ht
    have t0 := logPmf_zero (hmu 0) (ht 0)
    have t1 := logPmf_neg (y := 1) (hmu 1) (by norm_num) (by simpa using ht 1)
    have t2 := logPmf_neg (y := 4) (hmu 2) (by norm_num) (by simpa using ht 2)
    linarith
  rw [if_pos ⟨hneg.ne, by simp only; rw [zero_sub, neg_div, div_self hneg.ne]; norm_num⟩] at hc
  exact (congrArg Prod.snd (Res.ok.inj hc)).symm

example (i : Fin 3) := C88_means_partial (by norm_num) (ex := .serial) trivial gg_converged.choose_spec.1 gg_converged.choose_spec.2 i

/-! ## A logistic fit -/

theorem gg_logistic (tol : ℝ) : ∃ r, ggwrFit .Binomial tol 20 (ones 3) ![0, 1, 1] pairW .serial = .ok r := by
  have hy : Accepts (n := 3) .Binomial ![0, 1, 1] := outcomes_range
  obtain ⟨d, hd⟩ := logit_diag
  have hx : ones 3 = glmThree := rfl
  obtain ⟨c, conv, hc⟩ := C92_calibration_completes (F := .Binomial) tol 20 (x := ones 3) (y := ![0, 1, 1]) (W := pairW) hy pairW_nonneg
    fun i => ones_det (pairW_nonneg i) (pairW_pos i)
  obtain ⟨lf, h1, h2, _⟩ := pairW_fit (wtCalc_wt2 hc)
  have hr : ∀ i, ∃ se, ggwrLoc (ones 3) pairW c i = .ok (lf i, se) := by
    intro i
    rcases ggwrLoc_cases (ones 3) pairW c (wtCalc_wt2 hc) i with ⟨lf', h3, h4⟩ | ⟨h3, _⟩
    · have : lf' = lf i := Res.ok.inj (h3.symm.trans (h1 i))
      rw [← this]; exact ⟨_, h4⟩
    · rw [h1 i] at h3; cases h3
  choose se hse using hr
  have hsh : (∑ i, shatRow i (lf i)) 0 = ∑ i, (lf i).si i := by rw [Finset.sum_apply]; rfl
  have hnd := (C107_logistic_diagnostics glmThree ![0, 1, 1] outcomes_range ⟨1, by norm_num⟩ ⟨0, by norm_num⟩ d hd).2.2.2.1
  have hdev : ∃ v, gwDevBinomial (ones 3) ![0, 1, 1] (fun i => (lf i).beta) = .ok v := by
    exact ⟨_, Res.bind_eq_ok'.2 ⟨_, Res.tabulate_eq_ok.2 fun i => binom_abs (by fin_cases i <;> simp)
      (C46_binomial_range (fun i => ∑ j, ones 3 i j * (lf i).beta j) i), rfl⟩⟩
  obtain ⟨v, hv⟩ := hdev
  unfold ggwrFit
  change ∃ r, (calGlm (glmBinomial 3) glmThree ![0, 1, 1]).bind _ = .ok r
  rw [hd, Res.bind, hc, Res.bind, ggwrHat_ok (ex := .serial) trivial _ hse, Res.bind]
  change ∃ r, (gwDevBinomial (ones 3) ![0, 1, 1] (fun i => (lf i).beta)).bind _ = .ok r
  rw [hv, Res.bind, fdiv_ne (by simp only; rw [hsh]; intro h; exact h2 (by linarith)), Res.bind, fdiv_ne hnd, Res.bind]
  exact ⟨_, rfl⟩

example (tol : ℝ) := C89_binomial_deviance (ex := .serial) trivial (fun i => by fin_cases i <;> simp) (gg_logistic tol).choose_spec
example := C89_proportion_violates (ones 3) ![0, 1 / 2, 1] (fun _ _ => 0) 1 (by norm_num) (by simp)

/-! ## Failures -/

example (tol : ℝ) (W : Fin 3 → Fin 3 → ℝ) := C87_fit_without_hat_matrix_fails (n := 3) (by norm_num) .Poisson tol 20 (ones 3) ![0, 1, 4] W .serial trivial
example (tol : ℝ) (last : Option (Fin 3 → Fin 3 → ℝ)) := C87_predict_fails (n := 3) (by norm_num) .Poisson tol 20 (ones 3) ![0, 1, 4] last .serial trivial [(0, 1)]

/-- Every location sees only itself. -/
def ggAlone (i l : Fin 3) : ℝ := if l = i then 1 else 0
theorem ggAlone_nonneg (i l : Fin 3) : 0 ≤ ggAlone i l := by unfold ggAlone; split <;> norm_num

example (tol : ℝ) := C94_cv_throws (F := .Poisson) tol (m := 20) (by norm_num) (x := exX) (y := ![0, 1, 4]) (W := ggAlone)
  (fun i => by fin_cases i <;> norm_num) ggAlone_nonneg 0 (fun h => by
    have := congrFun (h (fun _ => 1) fun l hl => by fin_cases l <;> simp [cvWeight, ggAlone] at hl) 0
    norm_num at this) ggEvents
example (tol : ℝ) := C94_aic_throws (F := .Poisson) tol (m := 20) (by norm_num) (x := exX) (y := ![0, 1, 4]) (W := ggAlone)
  (fun i => by fin_cases i <;> norm_num) ggAlone_nonneg 0 (fun h => by
    have := congrFun (h ![exX 0 1, -exX 0 0] fun l hl => by
      fin_cases l <;> simp [ggAlone] at hl
      simp [Fin.sum_univ_two]; ring) 1
    norm_num [exX] at this) ggEvents

/-! ## The criterion -/

theorem gg_leverage (tol : ℝ) : ∃ (c : WtState 3 1) (conv : Bool) (lev : Fin 3 → ℝ), wtCalc .Poisson tol 20 (ones 3) ![0, 1, 4] pairW = .ok (c, conv) ∧
    ∀ i, ggwrLeverage (ones 3) pairW c i = .ok (lev i) := by
  obtain ⟨c, conv, hc⟩ := C92_calibration_completes (F := .Poisson) tol 20 (x := ones 3) (y := ![0, 1, 4]) (W := pairW)
    (fun i => by fin_cases i <;> norm_num) pairW_nonneg fun i => ones_det (pairW_nonneg i) (pairW_pos i)
  obtain ⟨lf, h1, -⟩ := pairW_fit (wtCalc_wt2 hc)
  exact ⟨c, conv, fun i => (lf i).si i, hc, fun i => by unfold ggwrLeverage; rw [h1, Res.bind]⟩

example (tol : ℝ) := C91_parallel_value .Poisson tol 20 (ones 3) ![0, 1, 4] pairW (gg_leverage tol).choose_spec.choose_spec.choose_spec.1 _
  (gg_leverage tol).choose_spec.choose_spec.choose_spec.2 _ ggEvents_ok
example (tol : ℝ) := C91_single_thread_partial (T := 1) .Poisson tol 20 (ones 3) ![0, 1, 4] pairW (gg_leverage tol).choose_spec.choose_spec.choose_spec.1 _
  (gg_leverage tol).choose_spec.choose_spec.choose_spec.2 _ (seqEvents_schedule (fun _ => 0) _) (fun t i h => by
    simp [List.finRange_succ, seqEvents] at h
    aesop)
example (tol : ℝ) := C91_threads_violate tol 20 ![0, 1, 4] (fun i => by fin_cases i <;> norm_num)

/-! ## Runs -/

example (tol : ℝ) := C108_calibration .Poisson tol 20 (by norm_num) (ones 3) ![0, 1, 4] pairW pairW_nonneg _ _
  (gg_leverage tol).choose_spec.choose_spec.choose_spec.1

example (tol : ℝ) (ex : Exec 3) (hex : ex.Valid) := C108_any_fit .Poisson tol 20 (by norm_num) ex hex false none ⟨100, false, .Boxcar⟩ _ ⟨rfl, rfl⟩ _ _
  (line_mapDistance 2) (usable_fixed (m := 3) (n := 3) (by norm_num) .Boxcar _) (fun i => ⟨100, by simp [IsRadius], fun _ => rfl⟩) _ _ _
  (ex_ggwrRun tol ex hex).choose_spec.1

theorem gg_auto (tol : ℝ) : ∃ b r, ggwrAutoRunEx .Poisson tol 1 .CV ⟨false, none⟩ ⟨1, false, .Boxcar⟩ twinCoords (ones 4) twinY (fun _ => .serial) .serial =
    .ok (b, r) := ex_ggwrAuto tol (fun _ => .serial) (fun _ => trivial) (fun _ _ h => by cases h) .serial trivial

theorem twin_distance : IsMapDistance false twinCoords twinCoords (fun i l : Fin 4 => plane (twinCoords.val i) (twinCoords.val l)) := by
  simp [IsMapDistance]

example (tol : ℝ) := C108_any_choice .Poisson tol 1 one_pos .CV (fun _ => .serial) (fun _ => trivial) .serial trivial false none ⟨1, false, .Boxcar⟩ _ _
  ⟨rfl, rfl⟩ _ twin_distance _ _ _ (gg_auto tol).choose_spec.choose_spec

theorem gg_auto_serial (tol : ℝ) : ∃ b r, ggwrAutoRun .Poisson tol 1 .CV ⟨false, none⟩ ⟨1, false, .Boxcar⟩ twinCoords (ones 4) twinY = .ok (b, r) := by
  obtain ⟨b, r, h⟩ := gg_auto tol
  refine ⟨b, r, ?_⟩
  unfold ggwrAutoRunEx at h
  unfold ggwrAutoRun
  obtain ⟨d', h1, h⟩ := Res.bind_eq_ok'.1 h
  obtain ⟨s, h2, h⟩ := Res.bind_eq_ok'.1 h
  rw [h1, Res.bind]
  have : ggwrSelectBandwidth .Poisson tol 1 .CV d' ⟨1, false, .Boxcar⟩ (ones 4) twinY = .ok s := by
    unfold ggwrSelectBandwidthEx at h2
    unfold ggwrSelectBandwidth
    obtain ⟨u, hu, h2⟩ := Res.bind_eq_ok'.1 h2
    rw [hu, Res.bind]
    dsimp only at h2 ⊢
    rw [← h2]
    refine if_congr ⟨fun h j e he => h e (List.mem_of_getElem? he), fun h e he => ?_⟩ rfl rfl
    obtain ⟨j, hj⟩ := List.mem_iff_getElem?.1 he
    exact h j e hj
  rw [this]
  exact h

example (tol : ℝ) := C108_bandwidth_choice .Poisson tol 1 one_pos .CV none .Boxcar 1 _ _ (by show (4 : ℕ) ≠ 0; norm_num) _ _ _
  (gg_auto_serial tol).choose_spec.choose_spec

example (tol : ℝ) : ∃ v, IsScoreIn .serial .CV .Poisson tol 1 (ones 4) twinY (fun i l => kernelFormula .Boxcar (1 / 2) (plane (twinCoords.val i) (twinCoords.val l))) v := by
  obtain ⟨v, hv⟩ := twin_cv_ok tol
  refine ⟨v, C108_criterion (n := 4) .Poisson tol 1 one_pos .CV .serial trivial false ⟨1 / 2, false, .Boxcar⟩ twinCoords ⟨rfl, rfl⟩ _ _ twin_distance
    (usable_fixed (m := 4) (n := 4) (by norm_num) .Boxcar _) (fun i => ⟨1 / 2, by simp [IsRadius], fun _ => rfl⟩) _ _ _ ?_⟩
  have : ggwrCriterion .Poisson tol 1 .CV ⟨false, some (twinCoords, twinCoords)⟩ (ones 4) twinY ⟨1 / 2, false, .Boxcar⟩ = .ok v := by
    unfold ggwrCriterion
    rw [twin_weights (by norm_num) (by norm_num), Res.bind]
    exact hv
  exact this

example (tol : ℝ) : ∃ r, ggwrSelectBandwidthEx .Poisson tol 1 .CV ⟨false, some (twinCoords, twinCoords)⟩ ⟨1, false, .Boxcar⟩ (ones 4) twinY (fun _ => .serial) =
    .ok r ∧ ∃ l u, StartsInRange false l u (r.evals.map Eval.x) := by
  obtain ⟨b, r, h⟩ := gg_auto tol
  unfold ggwrAutoRunEx at h
  obtain ⟨d', h1, h⟩ := Res.bind_eq_ok'.1 h
  obtain ⟨s, h2, h⟩ := Res.bind_eq_ok'.1 h
  rw [(bindLocations_eq_ok.1 h1).2.2] at h2
  obtain ⟨l, u, -, hl⟩ := C127_generalised_range (n := 4) .Poisson tol 1 .CV (fun _ => .serial) false ⟨1, false, .Boxcar⟩ twinCoords ⟨rfl, rfl⟩ (by norm_num) _ twin_distance
    (ones 4) twinY s h2
  exact ⟨s, h2, l, u, hl⟩

/-! ## An adaptive run: the boxcar kernel over the two nearest observations on the line -/

theorem kth_ge {d : Fin n → ℝ} {i : Fin n} {c : ℝ} (h : ∀ j, j ≠ i → c ≤ d j) {K : ℕ} (hK : 2 ≤ K) {r : ℝ} (hr : IsKthSmallest d K r) : c ≤ r := by
  by_contra hn
  have hsub : {j | d j ≤ r} ⊆ {i} := by
    intro j hj
    by_contra hji
    exact hn ((h j hji).trans hj)
  have := Set.ncard_le_ncard hsub
  have h2 := hr.2.2
  rw [Set.ncard_singleton] at this
  omega

theorem line_apart (i j : Fin 3) (h : j ≠ i) : 2 ≤ |(2 : ℝ)| * |((j : ℕ) : ℝ) - (i : ℕ)| := by
  fin_cases i <;> fin_cases j <;> simp at h ⊢ <;> norm_num

theorem line_radius {ker : KernelType} (i : Fin 3) (r : ℝ) (hr : IsRadius ⟨2, true, ker⟩ (fun l : Fin 3 => |(2 : ℝ)| * |((l : ℕ) : ℝ) - (i : ℕ)|) r) : r = 2 := by
  rcases hr with ⟨q, s, t, t', h1, h2, h3, h4, h5, h6, -, rfl⟩ | ⟨h, -⟩
  · have hq : q = 2 := by
      have : q ≠ 1 := fun e => by subst e; dsimp only at h3; push_cast at h3; linarith
      omega
    subst hq
    have hs : s = 0 := by dsimp only at h3; push_cast at h3; linarith
    rw [hs, zero_mul, sub_zero, one_mul, add_zero]
    refine le_antisymm (not_lt.1 fun hn => ?_) (kth_ge (line_apart i) le_rfl h6)
    have hsub : {i, if i = 1 then (0 : Fin 3) else 1} ⊆ {j : Fin 3 | |(2 : ℝ)| * |((j : ℕ) : ℝ) - (i : ℕ)| < t} := by
      rintro j (rfl | rfl)
      · have : (0 : ℝ) < t := by linarith
        simpa using this
      · refine lt_of_le_of_lt ?_ hn
        fin_cases i <;> norm_num
    have := Set.ncard_le_ncard hsub
    rw [Set.ncard_pair (by clear this hsub h6; fin_cases i <;> decide)] at this
    exact absurd h6.2.1 (not_lt.2 this)
  · norm_num at h

theorem gg_adaptive (tol : ℝ) : ∃ r, ggwrRun .Poisson tol 20 ⟨false, none⟩ ⟨2, true, .Boxcar⟩ (lineCoords 2) (ones 3) ![0, 1, 4] .serial = .ok r := by
  have hy : ∀ i : Fin 3, (0 : ℝ) ≤ (![0, 1, 4] : Fin 3 → ℝ) i := fun i => by fin_cases i <;> norm_num
  obtain ⟨W, h1, hW, h0⟩ := kernelRows (m := 3) (n := 3) rfl rfl (line_mapDistance 2)
    (b := ⟨2, true, .Boxcar⟩) ⟨fun _ => by norm_num, fun i r hr => (line_radius i r hr) ▸ two_pos⟩ (by norm_num)
  have h2 : ∀ i l : Fin 3, W i l = if l = i then 1 else 0 := fun i l => by
    obtain ⟨r, hr, e⟩ := hW i
    rw [e, line_radius i r hr]
    change (if _ < _ then _ else _) = _
    by_cases h : l = i
    · rw [if_pos h, if_pos (by simp [h])]
    · rw [if_neg h, if_neg (not_lt.2 (line_apart i l h))]
  have hii : ∀ i, W i i = 1 := fun i => by rw [h2, if_pos rfl]
  have hpos : ∀ i, ∃ l, 0 < W i l := fun i => ⟨i, by rw [hii]; exact one_pos⟩
  obtain ⟨c, conv, hc⟩ := C92_calibration_completes (F := .Poisson) tol 20 (x := ones 3) (y := ![0, 1, 4]) (W := W) hy h0
    fun i => ones_det (h0 i) (hpos i)
  have hp := wtCalc_wt2 hc
  choose lf e1 e2 e3 using fun i => ones_leverage (W := W) (st := c) h0 hp i (hpos i)
  have htr : ∑ i, (lf i).si i ≠ (3 : ℕ) - 1 := by
    have : ∀ i, (lf i).si i = 1 := fun i => by
      rw [e2, hii, one_mul, Finset.sum_eq_single i (fun l _ hl => by rw [h2, if_neg hl, zero_mul]) (by simp), hii, one_mul,
        div_self (hp i).ne']
    simp only [this, Fin.sum_univ_three]
    norm_num
  obtain ⟨r, hr, -⟩ := ggwrFit_poisson_total (by norm_num) (ex := .serial) trivial hy ⟨0, 1, by norm_num⟩ (ones_det (fun _ => zero_le_one) ⟨0, one_pos⟩)
    (by norm_num) (by norm_num) hc lf e1 htr
  refine ⟨r, ?_⟩
  unfold ggwrRun
  rw [bindLocations_eq_ok.2 ⟨rfl, rfl, rfl⟩, Res.bind]
  simp only
  rw [h1]
  exact hr

example (tol : ℝ) := C108_adaptive_fit .Poisson tol 20 (by norm_num) none .Boxcar 2 (by norm_num) (by norm_num) (by norm_num) _ _ _
  (fun i r h => by
    simp only [← euclid_eq_plane, line_dist] at h
    exact two_pos.trans_le (kth_ge (line_apart i) le_rfl h)) .serial trivial _ (gg_adaptive tol).choose_spec

/-! ## The local likelihood -/

/-- Locations that see only themselves, at the coefficients of their own counts. -/
theorem gg_rest : AtRest (ones 2) ![1, 2] (fun i l => if l = i then 1 else 0) ![fun _ => 0, fun _ => Real.log 2] := by
  have he : Real.exp (Real.log 2) = 2 := Real.exp_log (by norm_num)
  have hW : ∀ i l : Fin 2, (0 : ℝ) ≤ (fun i l : Fin 2 => if l = i then (1 : ℝ) else 0) i l := fun i l => by dsimp only; split <;> norm_num
  have hW1 : ∀ i : Fin 2, ∃ l, 0 < (fun i l : Fin 2 => if l = i then (1 : ℝ) else 0) i l := fun i => ⟨i, by simp⟩
  have hp : ∀ l, 0 < (![1, 2] : Fin 2 → ℝ) l := by rw [Fin.forall_fin_two]; exact ⟨one_pos, by norm_num⟩
  refine ⟨⟨![0, Real.log 2], ![1, 2], ![1, 2], 0, 0, 0⟩, ?_, ?_, fun _ => rfl, ?_⟩
  · rw [Fin.forall_fin_two]; simp [ones]
  · rw [Fin.forall_fin_two]; simp [he]
  obtain ⟨s', hs⟩ := wtStep_total (F := .Poisson) (x := ones 2) (y := ![1, 2]) (fun l => (hp l).le) hW (fun i => ones_det (hW i) (hW1 i))
    (⟨![0, Real.log 2], ![1, 2], ![1, 2], 0, 0, 0⟩ : WtState 2 1) hp hp
  refine ⟨s', hs, ?_⟩
  obtain ⟨-, e2, e3, -⟩ := wtStep_ok hs
  have hb : ∀ i, s'.betas i = fun _ => (∑ l, (if l = i then (1 : ℝ) else 0) * (![1, 2] : Fin 2 → ℝ) l * s'.yAdj l) / ∑ l, (if l = i then (1 : ℝ) else 0) * (![1, 2] : Fin 2 → ℝ) l := by
    intro i
    have := e3 i
    rw [ones_predict (fun l => mul_nonneg (hW i l) (hp l).le) (by obtain ⟨l, hl⟩ := hW1 i; exact ⟨l, mul_pos hl (hp l)⟩)] at this
    exact (Res.ok.inj this).symm
  have y0 : s'.yAdj 0 = 0 + (1 - 1) / 1 := (e2 0).2
  have y1 : s'.yAdj 1 = Real.log 2 + (2 - 2) / 2 := (e2 1).2
  funext i
  rw [hb]
  revert i
  rw [Fin.forall_fin_two]
  simp [y0, y1]

example (i : Fin 2) := C109_local_likelihood_partial _ _ _ (fun i l => by split <;> norm_num) _ gg_rest i (fun l hl => by
  have : l = i := by by_contra h; simp [h] at hl
  rw [this])

example := C109_local_likelihood_fails (1 / 2) (by norm_num) (by norm_num) _ (by
  have h := Real.log_pos (show (1 : ℝ) < 3 / 2 by norm_num)
  simp only [cons_val_zero, cons_val_one]
  intro e
  linarith) _ ex_atRest

end Verif.Cases

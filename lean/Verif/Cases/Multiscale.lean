import Verif.Props.GWRMultiscaleRun
import Verif.Props.SearchRange
import Verif.Cases.GWRFit

/-! # Concrete cases for the theorems of `Props/GWRMultiscale`, `Props/GWRMultiscaleRun` and `Props/SearchRange` -/

namespace Verif.Cases
open Verif Verif.Model Verif.Spec Verif.Props Matrix Classical

/-! ## Back-fitting with two predictors on the line -/

noncomputable def msAcc : FitAcc 3 2 := ex_backfitting.choose
noncomputable def msBack : BfResult 3 2 := ex_backfitting.choose_spec.choose
theorem msAcc_ok : fitCoreSerial exCfg.x exCfg.y exW 0 3 true true NoStop = .ok (msAcc, false) := ex_backfitting.choose_spec.choose_spec.1
theorem msBack_ok : backfitting exCfg exEnv (bfInit exCfg msAcc (fun _ => .Null) fun _ => ⟨2, false, .Gaussian⟩) = .ok msBack :=
  ex_backfitting.choose_spec.choose_spec.2

example := C34_parallel_agrees (colOf exX 1) ![1, 3, 2] exW _ twoThreads'
example := C34_hat_matrices exCfg rfl exEnv exW _ msAcc_ok _ _ _ msBack_ok
example := C35_frozen_iff_converged exCfg exEnv _ _ _ _ msBack_ok
example := C35_frozen_never_changes exCfg exEnv _ _ msBack_ok
example := C35_ends_when_converged exCfg exEnv (fun _ => rfl) (by simp only [exCfg]; linarith [hundred_lt_dblMax]) _ _ msBack_ok

theorem ms_vars : ∃ r, bfVars exCfg exEnv 0 [1, 0] (bfInit exCfg msAcc (fun _ => .Null) fun _ => ⟨2, false, .Gaussian⟩) [] = .ok r := by
  obtain ⟨p, hp⟩ := bfVar_total exCfg exEnv (fun i _ j => exCol_posDef i j) (fun _ _ _ b => ⟨_, rfl⟩) (fun _ _ _ => rfl) 0 1
    (bfInit exCfg msAcc (fun _ => .Null) fun _ => ⟨2, false, .Gaussian⟩)
  obtain ⟨q, hq⟩ := bfVar_total exCfg exEnv (fun i _ j => exCol_posDef i j) (fun _ _ _ b => ⟨_, rfl⟩) (fun _ _ _ => rfl) 0 0 p.1
  simp only [bfVars, hp, Res.bind]
  split
  · exact ⟨_, rfl⟩
  · simp only [bfVars, hq, Res.bind]
    split <;> exact ⟨_, rfl⟩

noncomputable def msVars := ms_vars.choose
theorem msVars_ok : bfVars exCfg exEnv 0 [1, 0] (bfInit exCfg msAcc (fun _ => .Null) fun _ => ⟨2, false, .Gaussian⟩) [] = .ok (msVars.1, msVars.2) := ms_vars.choose_spec

example := C34_any_order exCfg rfl exEnv exW _ msAcc_ok _ _ 0 [1, 0] _ _ msVars_ok

/-- `C64_update_is_weighted_least_squares`: an update of the second coefficient. -/
theorem ms_update (c : MgwrCfg 3 2) (hc : c.x = exX ∧ c.wt = fun _ _ => exW) (e : BfEnv 3 2) (hs : ∀ it i y b, ∃ b', e.select it i y b = .ok b')
    (h1 : ∀ it i q, e.stopLoc it i q = false) (h2 : ∀ it i, e.stopFit it i = false) (h3 : ∀ it i, e.stopVar it i = false) (i : Fin 2) (s : BfState 3 2) :
    ∃ s', bfVar c e 0 i s = .ok (s', false) := by
  obtain ⟨⟨s', b⟩, h⟩ := bfVar_total c e (fun i _ j => by rw [hc.1, hc.2]; exact exCol_posDef i j) hs h1 0 i s
  refine ⟨s', ?_⟩
  have := h
  unfold bfVar at this
  rw [if_neg (by simp [h3])] at this
  obtain ⟨s1, -, this⟩ := Res.bind_eq_ok'.1 this
  rw [if_neg (by simp [h2])] at this
  obtain ⟨r, -, this⟩ := Res.bind_eq_ok'.1 this
  cases Res.ok.inj this
  exact h

theorem ms_updated (i : Fin 2) (s : BfState 3 2) : ∃ s', bfVar exCfg exEnv 0 i s = .ok (s', false) :=
  ms_update exCfg ⟨rfl, rfl⟩ exEnv (fun _ _ _ b => ⟨_, rfl⟩) (fun _ _ _ => rfl) (fun _ _ => rfl) (fun _ _ => rfl) i s

example := C64_update_is_weighted_least_squares exCfg rfl exEnv 0 1 (fun _ => rfl) msBack.state _
  (C34_hat_matrices exCfg rfl exEnv exW _ msAcc_ok _ _ _ msBack_ok).1 (ms_updated 1 msBack.state).choose_spec

/-- `C64_fixed_point`: responses 0 and coefficients 0, with searches that keep the bandwidths. -/
noncomputable def msZero : MgwrCfg 3 2 := { exCfg with y := 0 }
noncomputable def msKeep : BfEnv 3 2 := { exEnv with select := fun _ _ _ b => .ok b }
noncomputable def msNull : BfState 3 2 := ⟨0, 0, 0, 0, fun _ => .Null, 0, fun _ => ⟨2, false, .Gaussian⟩, fun _ => []⟩

theorem msNull_hat : HatConsistent msZero.x msZero.y msNull := by
  refine hat_mk ?_ ?_ ?_ <;> simp [msNull, msZero, fitted]

theorem msNull_fixed (i : Fin 2) : ∃ it s', bfVar msZero msKeep it i msNull = .ok (s', false) ∧ s'.bw = msNull.bw ∧ s'.betas = msNull.betas := by
  obtain ⟨s', h⟩ := ms_update msZero ⟨rfl, rfl⟩ msKeep (fun _ _ _ b => ⟨_, rfl⟩) (fun _ _ _ => rfl) (fun _ _ => rfl) (fun _ _ => rfl) i msNull
  obtain ⟨u1, u2⟩ := C64_update_is_weighted_least_squares msZero rfl msKeep 0 i (fun _ => rfl) msNull s' msNull_hat h
  refine ⟨0, s', h, ?_, ?_⟩
  · obtain ⟨s1, hs1, -, e, -⟩ := bfVar_search h
    rw [e]
    rcases hs1 with rfl | hs1
    · rfl
    · unfold bfSearch at hs1
      rw [if_neg (by simp [msNull])] at hs1
      simp only [msKeep, Res.bind, Res.ok.injEq] at hs1
      subst hs1
      unfold bfSelect
      simp only
      split
      · exact Function.update_eq_self i _
      · split <;> exact Function.update_eq_self i _
  · ext j m
    by_cases hm : m = i
    · subst hm
      have h0 : IsWLS (colOf exX m) (fun _ => 0) (exW j) fun _ => s'.betas j m := by
        have := u1 j
        simpa [msNull, msZero, exCfg] using this
      by_contra hne
      have hlt := h0 (fun _ => 0) (fun e => hne (congrFun e 0).symm)
      have : wss (colOf exX m) (fun _ => 0) (exW j) (fun _ => (0 : ℝ)) = 0 := by simp [wss]
      rw [this] at hlt
      exact absurd hlt (not_lt.2 (Finset.sum_nonneg fun l _ => mul_nonneg (exW_pos j l).le (sq_nonneg _)))
    · exact u2 j m hm

example := C64_fixed_point msZero rfl msKeep (fun _ _ _ => rfl) msNull msNull_hat msNull_fixed 1 2

theorem ms_loo : ∃ b, fitCoreCVSerial (colOf exX 0) ![1, 3, 2] exW 0 3 NoStop = .ok (b, false) := by
  refine ⟨_, serialFor_ok (fun i => (xtwx (colOf exX 0) (cvWeight exW i))⁻¹ *ᵥ (xtw (colOf exX 0) (cvWeight exW i) *ᵥ ![1, 3, 2])) _ 0 _
    (fun _ _ => rfl) (fun i _ => localBeta_eq_ok.2 ⟨?_, rfl⟩)⟩
  rw [gram_posDef_iff_determined _ _ fun l => by
      simp only [cvWeight, Function.update_apply]; split
      · exact le_rfl
      · exact (exW_pos i l).le]
  intro b hb
  have hne : i + 1 ≠ i := by fin_cases i <;> decide
  have := hb (i + 1) (by simp only [cvWeight, Function.update_apply, if_neg hne]; exact exW_pos _ _)
  funext q
  rw [Subsingleton.elim q 0]
  fin_cases i <;> simpa [colOf, exX] using this

example := C64_criterion_is_leave_one_out exX 0 ![1, 3, 2] exW _ ms_loo.choose_spec

/-! `C64_criterion_is_aicc`: four observations with equal weights, a constant predictor, responses 1, -1, 1, -1. -/

theorem four_fit : ∃ a, fitCoreSerial (colOf (Matrix.of fun _ _ => 1 : Matrix (Fin 4) (Fin 2) ℝ) 0) ![1, -1, 1, -1] (fun _ _ => 1) 0 4 true true NoStop = .ok (a, false) := by
  refine (C21_fit_succeeds_iff _ _ _ (fun _ _ => zero_le_one) true true).1.2 fun i b hb => ?_
  have := hb 0 one_pos
  funext q
  rw [Subsingleton.elim q 0]
  simpa [colOf] using this

theorem four_zero {a} (h : fitCoreSerial (colOf (Matrix.of fun _ _ => 1 : Matrix (Fin 4) (Fin 2) ℝ) 0) ![1, -1, 1, -1] (fun _ _ => 1) 0 4 true true NoStop = .ok (a, false))
    (j : Fin 4) : a.betas j 0 = 0 ∧ a.s j j = 1 / 4 := by
  constructor
  · by_contra hne
    have := C21_fit_is_weighted_least_squares _ _ _ _ _ _ _ h j 0 fun e => hne (congrFun e.symm 0)
    simp [wss, colOf, Fin.sum_univ_succ] at this
    nlinarith [sq_nonneg (a.betas j 0)]
  · have h1 : ∀ l, hatMatrix a j l = hatMatrix a j 0 := fun l => by
      rw [hat_rows h, hat_rows h, hat_entry, hat_entry]
      simp [colOf]
    have h3 := (C25_hat_reproduces_covariates _ _ _ _ _ _ h).2 0 (fun l => by simp [colOf]) j
    simp only [h1] at h3
    have h4 := h1 j
    simp at h3
    change hatMatrix a j j = 1 / 4
    linarith

theorem four_rss {a} (h : fitCoreSerial (colOf (Matrix.of fun _ _ => 1 : Matrix (Fin 4) (Fin 2) ℝ) 0) ![1, -1, 1, -1] (fun _ _ => 1) 0 4 true true NoStop = .ok (a, false)) :
    ∑ j, ((![1, -1, 1, -1] : Fin 4 → ℝ) j - (Matrix.of fun _ _ => 1 : Matrix (Fin 4) (Fin 2) ℝ) j 0 * a.betas j 0) ^ 2 = 4 := by
  simp only [fun j => (four_zero h j).1]
  norm_num [Fin.sum_univ_succ]

theorem four_aicc : |aiccFormula 4 4 1| ≤ dblMax := by
  have h1 : Real.log (2 * Real.pi) ≤ 2 * Real.pi - 1 := Real.log_le_sub_one_of_pos (by positivity)
  have h2 : 0 ≤ Real.log (2 * Real.pi) := Real.log_nonneg (by linarith [Real.two_le_pi])
  have h3 := Real.pi_lt_four
  have h4 := hundred_lt_dblMax
  have e : aiccFormula 4 4 1 = 4 * Real.log (2 * Real.pi) + 20 := by simp only [aiccFormula]; norm_num
  rw [e, abs_le]
  constructor <;> linarith

example := C64_criterion_is_aicc (Matrix.of fun _ _ => 1 : Matrix (Fin 4) (Fin 2) ℝ) 0 ![1, -1, 1, -1] (fun _ _ => 1) _ four_fit.choose_spec
  (by rw [four_rss four_fit.choose_spec]; norm_num) 1 (by simp only [fun j => (four_zero four_fit.choose_spec j).2]; norm_num) (by norm_num)
  (by rw [four_rss four_fit.choose_spec]; exact four_aicc)

/-! ## Centring and failing searches -/

example := C66_centring true (fun _ => true) exX (by norm_num)
example (x : Matrix (Fin 3) (Fin 1) ℝ) (y : Fin 3 → ℝ) := C65_initial_fixed_kernel_fails .CV (fun i j : Fin 3 => |((j : ℕ) : ℝ) - (i : ℕ)|) (fun i => by simp)
  (fun i j => abs_nonneg _) (by norm_num) (0, 2) 10 x y ⟨1, false, .Gaussian⟩ rfl

/-- `C65_fit_fails`: a search as in the code, with type `Initial` for the first predictor. -/
noncomputable def msSearching : BfEnv 3 2 :=
  { exEnv with select := fun _ i y b => mgwrSelect .CV (fun i j : Fin 3 => |((j : ℕ) : ℝ) - (i : ℕ)|) (mgwrBounds .Initial b.mAdaptive 10 none none 3 (0, 2)) (colOf exX i) y b }

example := C65_fit_fails exCfg msSearching ⟨rfl, rfl⟩ (by simp only [exCfg]; linarith [hundred_lt_dblMax]) (by simp [exCfg]) msAcc (fun _ => .Initial)
  (fun _ => ⟨2, false, .Gaussian⟩) rfl rfl .CV (fun i j : Fin 3 => |((j : ℕ) : ℝ) - (i : ℕ)|) (fun i => by simp) (fun i j => abs_nonneg _) (by norm_num) (0, 2) 10
  fun _ _ _ => rfl

/-! ## A whole run -/

noncomputable def msRun := ex_run.choose
theorem msRun_ok : mgwrRun exRun = .ok msRun := ex_run.choose_spec

theorem msRun_bw : (msRun.bw 0).mAdaptive = false ∧ 0 < (msRun.bw 0).mBandwidth := by
  obtain ⟨-, h1, h2, h3, -⟩ := C99_bandwidths exRun _ msRun_ok (fun _ => rfl) 0
  have h4 := (h3 rfl 100 200 rfl rfl (by norm_num) (Or.inl rfl)).1
  exact ⟨h2, by linarith⟩

example := C99_last_variable exRun _ msRun_ok (fun _ => rfl) rfl (by simp [exRun]) (by simp only [exRun]; linarith [hundred_lt_dblMax]) msRun_bw.1 msRun_bw.2
example := C99_diagnostics exRun _ msRun_ok (fun _ => rfl)

/-! ## C127 -/

theorem ms_initial : ∃ W, mgwrInitialWeights exRun (centrePredictors true (fun _ => true) exOne) = .ok W := by
  have h := msRun_ok
  unfold mgwrRun at h
  obtain ⟨W, hW, -⟩ := Res.bind_eq_ok'.1 h
  exact ⟨W, hW⟩

example := C127_multiscale_initial exRun false none rfl ⟨rfl, rfl⟩ (by norm_num) _ (line_mapDistance 10) _ _ ms_initial.choose_spec

theorem ms_range : ∃ r, mgwrDistRange .Null ⟨false, some (lineCoords 10, lineCoords 10)⟩ = .ok r := by
  have h := msRun_ok
  unfold mgwrRun at h
  obtain ⟨W, -, h⟩ := Res.bind_eq_ok'.1 h
  obtain ⟨d, hd, h⟩ := Res.bind_eq_ok'.1 h
  obtain ⟨D, -, h⟩ := Res.bind_eq_ok'.1 h
  obtain ⟨r, hr, -⟩ := Res.bind_eq_ok'.1 h
  have e := Res.tabulate_eq_ok.1 hd 0
  have e' := Res.tabulate_eq_ok.1 hr 0
  rw [(bindLocations_eq_ok.1 e).2.2] at e'
  exact ⟨_, e'⟩

example := C127_multiscale_range (n := 3) (lineCoords 10) ⟨rfl, rfl⟩ (by norm_num) _ ms_range.choose_spec 20 none (some 5)

example (g : ℕ → ℕ → ℝ) := C127_gpu_range .CV 64 g false ⟨2, true, .Gaussian⟩ (lineCoords 10) ⟨rfl, rfl⟩ (Nat.succ_pos 2) _ (line_mapDistance 10) exX ![1, 3, 2] _ rfl
example := C127_robust_range .CV false ⟨2, true, .Gaussian⟩ (lineCoords 10) ⟨rfl, rfl⟩ (Nat.succ_pos 2) _ (line_mapDistance 10) exX ![1, 3, 2] _ rfl
example (dist : Fin 3 → Fin 3 → ℝ) := C127_few_observations (n := 3) (by norm_num) dist 20 3 (by simp [DefaultRange])
example (sv : Matrix (Fin 3) (Fin 2) ℝ → ℝ × ℝ) (cfg : LcrCfg) (x : Matrix (Fin 3) (Fin 2) ℝ) (y : Fin 3 → ℝ) (W : Fin 3 → Fin 3 → ℝ) :=
  C73_stopped_score sv cfg x y W (fun _ => true) 0 (by norm_num) rfl dblMax (by simp [lcrCriterionCV, List.finRange_succ, serialFor, Res.bind])

/-- `C127_spacetime_range`: the run of `Props/GTWRRun`. -/
example : ∃ d' r, gtwrBind (exST (1 / 2)) (lineCoords 1) (List.ofFn ![0, 1, 2]) = .ok d' ∧
    gtwrSelectBandwidth .CV d' ⟨1, false, .Gaussian⟩ exX (exX *ᵥ ![2, 3]) = .ok r ∧ ∃ l u, StartsInRange false l u (r.evals.map Eval.x) := by
  obtain ⟨l, g, h, -⟩ := ex_gtwrRun .serial trivial false
  unfold gtwrRunEx at h
  obtain ⟨d', hd, h⟩ := Res.bind_eq_ok'.1 h
  obtain ⟨b, hb, -⟩ := Res.bind_eq_ok'.1 h
  obtain ⟨r, hr, -⟩ := Res.bind_eq_ok'.1 hb
  obtain ⟨l, u, -, h⟩ := C127_spacetime_range (n := 3) .CV false (exST (1 / 2)) d' (exST_config _) ⟨1, false, .Gaussian⟩ (lineCoords 1) ⟨rfl, rfl⟩ (by norm_num) ![0, 1, 2] _
    (lineST_spec (1 / 2)) hd exX _ r hr
  exact ⟨d', r, hd, hr, l, u, h⟩

end Verif.Cases

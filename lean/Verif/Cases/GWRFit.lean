import Verif.Props.GWRParallel
import Verif.Props.GWRDefinition
import Verif.Props.GWRCriteria
import Verif.Props.GWREquivariance
import Verif.Props.GWRGeneralized

/-! # Concrete cases for the theorems of `Props/GWRBasic`, `GWRParallel`, `GWRDefinition`, `GWRCriteria`, `GWRRun`, `GWREquivariance`

Three observations on a line, an intercept and one covariate (`exX`), weights 1 at the own observation and 1/2 elsewhere (`exW`). -/

namespace Verif.Cases
open Verif Verif.Model Verif.Spec Verif.Props Matrix Classical

/-- The fit of `y` on the example. -/
noncomputable def lineFit (y : Fin 3 → ℝ) (sS sC : Bool) : FitAcc 3 2 := (ex_fit y sS sC).choose

theorem lineFit_ok (y : Fin 3 → ℝ) (sS sC : Bool) : fitCoreSerial exX y exW 0 3 sS sC NoStop = .ok (lineFit y sS sC, false) :=
  (ex_fit y sS sC).choose_spec

/-- Positive weights determine the example, so a prediction with them succeeds. -/
theorem line_predict_ok {m : ℕ} (y : Fin 3 → ℝ) (W : Fin m → Fin 3 → ℝ) (hW : ∀ i l, 0 < W i l) : ∃ b, predictSerial exX y W NoStop = .ok (b, false) :=
  ⟨_, serialFor_ok (fun i => (xtwx exX (W i))⁻¹ *ᵥ (xtw exX (W i) *ᵥ y)) _ 0 _ (fun _ _ => rfl)
    (fun i _ => localBeta_eq_ok.2 ⟨(gram_posDef_iff_determined _ _ fun l => (hW i l).le).2 (exX_determined _ (hW i)), rfl⟩)⟩

noncomputable def linePred (y : Fin 3 → ℝ) : Matrix (Fin 3) (Fin 2) ℝ := (line_predict_ok y exW exW_pos).choose

theorem linePred_ok (y : Fin 3 → ℝ) : predictSerial exX y exW NoStop = .ok (linePred y, false) := (line_predict_ok y exW exW_pos).choose_spec

/-- Two of the three observations determine the example. -/
theorem line_cv_ok (y : Fin 3 → ℝ) : ∃ b, fitCoreCVSerial exX y exW 0 3 NoStop = .ok (b, false) := by
  have hdet : ∀ i : Fin 3, (xtwx exX (cvWeight exW i)).PosDef := by
    intro i
    rw [gram_posDef_iff_determined _ _ (fun l => by
      simp only [cvWeight, Function.update_apply]; split
      · exact le_rfl
      · exact (exW_pos i l).le)]
    intro b hb
    have hpos : ∀ l, l ≠ i → 0 < cvWeight exW i l := fun l hl => by
      simp only [cvWeight, Function.update_apply, if_neg hl]; exact exW_pos i l
    have key : ∀ l, l ≠ i → b 0 + exX l 1 * b 1 = 0 := fun l hl => by
      have := hb l (hpos l hl)
      fin_cases l <;> simpa [exX, Fin.sum_univ_two] using this
    have k0 := key 0; have k1 := key 1; have k2 := key 2
    have hb01 : b 0 = 0 ∧ b 1 = 0 := by
      fin_cases i
      · have a1 := k1 (by decide); have a2 := k2 (by decide)
        simp [exX] at a1 a2
        constructor <;> linarith
      · have a1 := k0 (by decide); have a2 := k2 (by decide)
        simp [exX] at a1 a2
        constructor <;> linarith
      · have a1 := k0 (by decide); have a2 := k1 (by decide)
        simp [exX] at a1 a2
        constructor <;> linarith
    funext j
    fin_cases j
    · exact hb01.1
    · exact hb01.2
  exact ⟨_, serialFor_ok (fun i => (xtwx exX (cvWeight exW i))⁻¹ *ᵥ (xtw exX (cvWeight exW i) *ᵥ y)) _ 0 _
    (fun _ _ => rfl) (fun i _ => localBeta_eq_ok.2 ⟨hdet i, rfl⟩)⟩

noncomputable def lineCV (y : Fin 3 → ℝ) : Matrix (Fin 3) (Fin 2) ℝ := (line_cv_ok y).choose

theorem lineCV_ok (y : Fin 3 → ℝ) : fitCoreCVSerial exX y exW 0 3 NoStop = .ok (lineCV y, false) := (line_cv_ok y).choose_spec

/-! ## C21–C25: the fit of `![1, 3, 2]`, and of the line `2 + 3 x` -/

example := C21_normal_equations exX ![1, 3, 2] exW true true NoStop _ (lineFit_ok _ _ _)
example := C21_prediction_is_weighted_least_squares exX ![1, 3, 2] exW NoStop _ (linePred_ok _)
example := C22_exact_law exX (exX *ᵥ ![2, 3]) exW true true NoStop _ (lineFit_ok _ _ _) ![2, 3] (fun _ => rfl)
example := C22_exact_law_prediction exX (exX *ᵥ ![2, 3]) exW NoStop _ (linePred_ok _) ![2, 3] (fun _ => rfl)
example := C23_weight_scale exX ![1, 3, 2] exW true true _ ![2, 1, 5] (fun i => by fin_cases i <;> norm_num) (lineFit_ok _ _ _)
example := C23_linear_in_response exX ![1, 3, 2] ![0, 1, 0] 2 (-1) exW true true NoStop _ _ _ (lineFit_ok _ _ _) (lineFit_ok _ _ _) (lineFit_ok _ _ _)
example := C24_own_observation_unused exX exX ![1, 3, 2] ![9, 3, 2] exW NoStop _ _ (lineCV_ok _) (lineCV_ok _) 0
  (fun l hl => by fin_cases l <;> first | exact absurd rfl hl | exact ⟨rfl, rfl⟩)
example := C24_score_is_leave_one_out exX ![1, 3, 2] exW NoStop _ (lineCV_ok _)
example := C25_fitted_eq_hat_mul exX ![1, 3, 2] exW true NoStop _ (lineFit_ok _ _ _)
example := C25_traces exX ![1, 3, 2] exW true NoStop _ (lineFit_ok _ _ _)
example := C25_traces_independent_of_storage exX ![1, 3, 2] exW true true false false NoStop _ _ (lineFit_ok _ _ _) (lineFit_ok _ _ _)
example := (C25_hat_reproduces_covariates exX ![1, 3, 2] exW true NoStop _ (lineFit_ok _ _ _)).2 0 (fun l => by fin_cases l <;> rfl)
example := C25_se_terms exX ![1, 3, 2] exW true NoStop _ (lineFit_ok _ _ _)
example := C25_qdiag exX ![1, 3, 2] exW true NoStop _ (lineFit_ok _ _ _)
example := C56_leverage exX ![1, 3, 2] exW (fun i l => (exW_pos i l).le) true NoStop _ (lineFit_ok _ _ _)
example := C56_edf_nonneg exX ![1, 3, 2] exW true true NoStop _ (lineFit_ok _ _ _)
example := C56_enp_range exX ![1, 3, 2] exW (fun i l => ⟨(exW_pos i l).le, by unfold exW; split <;> norm_num⟩) (fun i => by simp [exW]) true NoStop _
  (lineFit_ok _ _ _)
example := C26_formulas exX ![1, 3, 2] exW true NoStop _ (lineFit_ok _ _ _)
example := C26_standard_errors exX ![1, 3, 2] exW NoStop _ (lineFit_ok _ _ _)

/-- Weights that ignore the third observation. -/
def headW : Fin 3 → Fin 3 → ℝ := fun _ l => if l = 2 then 0 else 1

theorem headW_fit (x : Matrix (Fin 3) (Fin 2) ℝ) (h0 : x 0 = ![1, 0]) (h1 : x 1 = ![1, 1]) (y : Fin 3 → ℝ) :
    ∃ a, fitCoreSerial x y headW 0 3 true true NoStop = .ok (a, false) := by
  refine (C21_fit_succeeds_iff x y headW (fun i l => by unfold headW; split <;> norm_num) true true).1.2 fun i b hb => ?_
  have a0 := hb 0 (by simp [headW])
  have a1 := hb 1 (by simp [headW])
  simp [h0, h1, Fin.sum_univ_two] at a0 a1
  funext j
  fin_cases j
  · exact a0
  · simpa [a0] using a1

/-- `C23_zero_weight_ignored`: the third observation, of weight zero, is replaced. -/
example : ∃ a a', fitCoreSerial exX ![1, 3, 2] headW 0 3 true true NoStop = .ok (a, false) ∧
    fitCoreSerial !![1, 0; 1, 1; 7, 8] ![1, 3, 99] headW 0 3 true true NoStop = .ok (a', false) ∧ ∀ i, a.betas i = a'.betas i := by
  obtain ⟨a, ha⟩ := headW_fit exX rfl rfl ![1, 3, 2]
  obtain ⟨a', ha'⟩ := headW_fit !![1, 0; 1, 1; 7, 8] rfl rfl ![1, 3, 99]
  refine ⟨a, a', ha, ha', fun i => C23_zero_weight_ignored _ _ _ _ _ _ _ _ _ _ ha ha' i fun l hl => ?_⟩
  fin_cases l
  · exact ⟨rfl, rfl⟩
  · exact ⟨rfl, rfl⟩
  · simp [headW] at hl

/-- `C26_rsquare`: R² of the zero coefficients. -/
example : ∃ v va, (calcDiagnostic exX ![1, 3, 2] 0 ![2, 3]).RSquare = .ok v ∧ (calcDiagnostic exX ![1, 3, 2] 0 ![2, 3]).RSquareAdjust = .ok va ∧
    v = 1 - 14 / 2 := by
  have hy : ∑ i, (![(1 : ℝ), 3, 2] i - meanVec ![(1 : ℝ), 3, 2]) * (![(1 : ℝ), 3, 2] i - meanVec ![(1 : ℝ), 3, 2]) = 2 := by
    simp [meanVec, Fin.sum_univ_succ]; norm_num
  have h1 : (calcDiagnostic exX ![1, 3, 2] 0 ![2, 3]).RSquare = .ok (1 - rss exX ![1, 3, 2] 0 / 2) := by
    simp only [calcDiagnostic, hy]; norm_num [fdiv, Res.bind]
  have h2 : ∃ va, (calcDiagnostic exX ![1, 3, 2] 0 ![2, 3]).RSquareAdjust = .ok va := by
    simp only [calcDiagnostic, hy]; norm_num [fdiv, Res.bind]
  obtain ⟨va, h2⟩ := h2
  refine ⟨_, va, h1, h2, ?_⟩
  rw [(C26_rsquare _ _ _ _ _ _ h1 h2).1]
  simp [calcDiagnostic, rss, fitted, Fin.sum_univ_succ]; norm_num

/-! ## C27–C29: two threads -/

theorem twoThreads : Schedule (workRange 3 0 3) (seqEvents (fun i : Fin 3 => if i = 0 then (0 : Fin 2) else 1) (workRange 3 0 3)) := seqEvents_schedule _ _
theorem twoThreads' : Schedule (List.finRange 3) (seqEvents (fun i : Fin 3 => if i = 0 then (0 : Fin 2) else 1) (List.finRange 3)) := seqEvents_schedule _ _

example := (C27_predict_parallel_eq_serial exX ![1, 3, 2] exW _ twoThreads').1 _ (linePred_ok _)
example := (C27_fit_parallel_eq_serial exX ![1, 3, 2] exW 0 3 true true _ twoThreads).1 _ (lineFit_ok _ _ _)
example := (C28_criteria_equal_partial exX ![1, 3, 2] exW _ twoThreads false).1 ⟨_, lineCV_ok _⟩
example := C29_cancelled_criterion_never_wins exX ![1, 3, 2] exW (fun q => q == 1) false (Or.inr ⟨1, by norm_num, rfl⟩) _ twoThreads
example := (C29_cancelled_run_is_marked exX ![1, 3, 2] exW exW true true (fun q => q == 1) _ twoThreads _ twoThreads').1 ⟨1, by norm_num, rfl⟩

/-! ## C50, C51, C96, C98: from coordinates -/

/-- With the Gaussian kernel every place can be predicted. -/
theorem gauss_predict {m : ℕ} (locations : DynMat) (hl : locations.nCols = 2) (hm : locations.nRows = m) (y : Fin 3 → ℝ) :
    ∃ B : Matrix (Fin m) (Fin 2) ℝ, gwrPredict ⟨false, none⟩ ⟨1, false, .Gaussian⟩ locations (lineCoords 1) m exX y NoStop = .ok (B, false) := by
  obtain ⟨B, hB⟩ := line_predict_ok y (fun (i : Fin m) (j : Fin 3) => kernelFormula .Gaussian 1 (plane (locations.val i) ((lineCoords 1).val j)))
    fun i l => by simp only [kernelFormula]; positivity
  refine ⟨B, ?_⟩
  unfold gwrPredict
  rw [bindLocations_eq_ok.2 ⟨hl, rfl, rfl⟩, Res.bind]
  have hw := (weights_fixed (l := locations) (c := lineCoords 1) (kernel := .Gaussian) (n := 3) (m := m) one_pos).2 fun i => ⟨by rw [hm]; exact i.isLt, rfl, rfl⟩
  dsimp only
  rw [hw, Res.bind, hB]

/-- `C98_prediction_is_gwr`, `C50_prediction_depends_on_location_only`: two lists of places sharing the place (1, 0). -/
example : ∃ (B : Matrix (Fin 3) (Fin 2) ℝ) (B' : Matrix (Fin 1) (Fin 2) ℝ),
    gwrPredict ⟨false, none⟩ ⟨1, false, .Gaussian⟩ (lineCoords 1) (lineCoords 1) 3 exX ![1, 3, 2] NoStop = .ok (B, false) ∧
    gwrPredict ⟨false, none⟩ ⟨1, false, .Gaussian⟩ ⟨1, 2, fun _ k => if k = 0 then 1 else 0⟩ (lineCoords 1) 1 exX ![1, 3, 2] NoStop = .ok (B', false) ∧
    IsGWRFixed .Gaussian 1 (fun i : Fin 3 => (lineCoords 1).val i) (fun l : Fin 3 => (lineCoords 1).val l) exX ![1, 3, 2] B ∧ B 1 = B' 0 := by
  obtain ⟨B, h⟩ := gauss_predict (m := 3) (lineCoords 1) rfl rfl ![1, 3, 2]
  obtain ⟨B', h'⟩ := gauss_predict (m := 1) ⟨1, 2, fun _ k => if k = 0 then 1 else 0⟩ rfl rfl ![1, 3, 2]
  exact ⟨B, B', h, h', C98_prediction_is_gwr _ _ _ one_pos _ _ _ _ _ _ h,
    C50_prediction_depends_on_location_only _ _ _ _ _ _ _ _ _ _ _ h h' 1 0 (by funext k; simp [lineCoords])⟩

/-- `C98_auto_fit_is_gwr`: the bandwidth found between 100 and 200. -/
example : ∃ b a, gwrAutoFit .CV (CRSDistance.new false) ⟨50, false, .Boxcar⟩ (some 100) (some 200) (lineCoords 10) exX (exX *ᵥ ![2, 3]) true true = .ok (b, a) ∧
    IsGWRFixed b.mKernel b.mBandwidth (fun i : Fin 3 => (lineCoords 10).val i) (fun l : Fin 3 => (lineCoords 10).val l) exX (exX *ᵥ ![2, 3]) a.betas := by
  obtain ⟨d', r, b, h1, h2, h3⟩ := ex_search
  obtain ⟨⟨a, -, ha⟩, -⟩ := C57_selected_bandwidth_fits .CV _ _ b _ _ _ _ _ true true d' r h1 h2 h3
  have hr : r = optimize ⟨50, false, .Boxcar⟩ 100 200 (fun _ b => (true, gwrCriterion .CV d' exX (exX *ᵥ ![2, 3]) b)) [] := by
    unfold gwrSelectBandwidth at h2
    simp only [Option.getD, Res.bind] at h2
    cases Res.ok.inj h2
    rfl
  rw [hr] at h3
  have hk := C17_kernel_kind_kept _ _ _ _ _ b h3
  have hb := (C15_fixed_within_bounds ⟨50, false, .Boxcar⟩ rfl 100 200 (by norm_num) _ []).2 b h3
  have hpos : 0 < b.mBandwidth := by
    rcases hb with rfl | hb
    · norm_num
    · linarith [hb.1]
  exact ⟨b, a, ha, C98_auto_fit_is_gwr _ _ _ _ _ _ _ _ _ _ _ _ hk.2 hpos ha⟩

theorem line_plane_le (i j : Fin 3) : plane ((lineCoords 10).val i) ((lineCoords 10).val j) ≤ dblMax := by
  rw [← euclid_eq_plane, line_dist]
  have hi : ((i : ℕ) : ℝ) ≤ 2 := by exact_mod_cast Nat.lt_succ_iff.1 i.isLt
  have hj : ((j : ℕ) : ℝ) ≤ 2 := by exact_mod_cast Nat.lt_succ_iff.1 j.isLt
  have hi0 : (0 : ℝ) ≤ (i : ℕ) := Nat.cast_nonneg _
  have hj0 : (0 : ℝ) ≤ (j : ℕ) := Nat.cast_nonneg _
  have : |((j : ℕ) : ℝ) - (i : ℕ)| ≤ 3 := abs_le.2 ⟨by linarith, by linarith⟩
  rw [abs_of_pos (by norm_num : (0 : ℝ) < 10)]
  linarith [hundred_lt_dblMax]

example := C96_default_bounds (n := 3) .CV .Gaussian 1 (lineCoords 10) (by norm_num) rfl line_plane_le exX ![1, 3, 2]
example := C26_criterion_from_coordinates .Gaussian 1 one_pos (lineCoords 2) rfl exX ![1, 3, 2]

/-- The observations of `lineCoords 10` in the opposite order. -/
def backCoords : DynMat := ⟨3, 2, fun i k => if k = 0 then 10 * (2 - (i : ℝ)) else 0⟩

theorem back_perm : PermCoords 3 (Equiv.swap 0 2) (lineCoords 10) backCoords := by
  refine ⟨rfl, rfl, rfl, fun i => ?_⟩
  funext j
  fin_cases i
  · simp [lineCoords, backCoords]
  · have : (Equiv.swap (0 : Fin 3) 2) 1 = 1 := by decide
    simp only [Fin.mk_one, this, lineCoords, backCoords]
    norm_num
  · simp [lineCoords, backCoords]

/-- `C51_reordering`: a Gaussian fit. -/
example : ∃ a a', gwrFit ⟨false, none⟩ ⟨1, false, .Gaussian⟩ (lineCoords 10) exX ![1, 3, 2] true true NoStop = .ok (a, false) ∧
    gwrFit ⟨false, none⟩ ⟨1, false, .Gaussian⟩ backCoords (fun i => exX (Equiv.swap 0 2 i)) (fun i => ![1, 3, 2] (Equiv.swap 0 2 i)) true true NoStop =
      .ok (a', false) := by
  obtain ⟨a, ha⟩ := (C98_fit_succeeds_iff none .Gaussian 1 one_pos (lineCoords 10) (by norm_num) exX ![1, 3, 2] true true).2
    ⟨rfl, rfl, fun i => exX_determined _ fun l => by simp only [kernelFormula]; positivity⟩
  obtain ⟨a', h, -⟩ := C51_reordering ⟨false, none⟩ _ _ _ _ back_perm exX ![1, 3, 2] true true a ha
  exact ⟨a, a', ha, h⟩

example := C51_reordering_selection .CV false ⟨1, false, .Gaussian⟩ (lineCoords 10) backCoords _ back_perm 1 20 exX ![1, 3, 2]
example := C51_rigid_motion (m := 3) .CV ⟨false, none⟩ rfl ⟨1, false, .Gaussian⟩ (lineCoords 10)
  ⟨3, 2, fun i => rigid (Real.pi / 2) 5 7 ((lineCoords 10).val i)⟩ (lineCoords 10) ⟨3, 2, fun i => rigid (Real.pi / 2) 5 7 ((lineCoords 10).val i)⟩
  (Real.pi / 2) 5 7 ⟨rfl, rfl, fun _ => rfl⟩ ⟨rfl, rfl, fun _ => rfl⟩ exX ![1, 3, 2] true true NoStop none none
example := C52_no_weight_ub ⟨100, 2, 100, 3, 100, none, false⟩ (by decide) rfl
example := C52_gwss_rows_unchecked ⟨100, 2, 100, 3, 100, none, false⟩ (by decide) 7

end Verif.Cases

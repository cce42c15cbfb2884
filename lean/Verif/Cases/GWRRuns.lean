import Verif.Props.GWRInvariance
import Verif.Props.GWRObject
import Verif.Props.SearchRange
import Verif.Cases.GWRFit

/-! # Concrete cases for the theorems of `Props/GWRBasicRun`, `GWRInvariance`, `GWRObject` and `GWRSelect`

Three observations on a line with a Gaussian kernel; six observations with two candidate covariates (`selX`). -/

namespace Verif.Cases
open Verif Verif.Model Verif.Spec Verif.Props Matrix Classical

/-- Distances on the line. -/
def lineDist : Fin 3 → Fin 3 → ℝ := fun i j => |(1 : ℝ)| * |((j : ℕ) : ℝ) - (i : ℕ)|

theorem lineDist_map : IsMapDistance false (lineCoords 1) (lineCoords 1) lineDist := line_mapDistance 1

theorem line_usable (bw : ℝ) (h : 0 < bw) : UsableRadius (m := 3) (n := 3) ⟨bw, false, .Gaussian⟩ lineDist := usable_fixed h _ _

theorem line_weights_exist (bw : ℝ) (h : 0 < bw) : ∃ W, IsKernelWeight ⟨bw, false, .Gaussian⟩ lineDist W := by
  obtain ⟨W, -, hW, -⟩ := kernelRows (show (lineCoords 1).nRows = 3 from rfl) (show (lineCoords 1).nRows = 3 from rfl) lineDist_map (line_usable bw h) id
  exact ⟨W, hW⟩

/-- The weights of the line for bandwidth `bw`. -/
noncomputable def lineW (bw : ℝ) (h : 0 < bw) : Fin 3 → Fin 3 → ℝ := (line_weights_exist bw h).choose

theorem lineW_kernel (bw : ℝ) (h : 0 < bw) : IsKernelWeight ⟨bw, false, .Gaussian⟩ lineDist (lineW bw h) := (line_weights_exist bw h).choose_spec

theorem lineW_determined (bw : ℝ) (h : 0 < bw) (i : Fin 3) : Determined exX (lineW bw h i) := exX_determined _ fun l => by
  obtain ⟨r, -, e⟩ := lineW_kernel bw h i
  rw [e]; exact Real.exp_pos _

theorem line_fits : FitsData (lineCoords 1) 3 := ⟨rfl, rfl⟩

/-- A fit of the line. -/
theorem lineRun_exists (y : Fin 3 → ℝ) : ∃ g, gwrRun .serial ⟨false, none⟩ ⟨1, false, .Gaussian⟩ (lineCoords 1) exX y true true = .ok g := by
  obtain ⟨g, C, h, -⟩ := (C118_fit .serial trivial false none _ _ line_fits _ _ lineDist_map (line_usable 1 one_pos) (lineW_kernel 1 one_pos) exX y true true).1
    (lineW_determined 1 one_pos)
  exact ⟨g, h⟩

noncomputable def lineRun (y : Fin 3 → ℝ) : GWRReport 3 2 := (lineRun_exists y).choose

theorem lineRun_ok (y : Fin 3 → ℝ) : gwrRun .serial ⟨false, none⟩ ⟨1, false, .Gaussian⟩ (lineCoords 1) exX y true true = .ok (lineRun y) :=
  (lineRun_exists y).choose_spec

example := (C118_predict (m := 3) .serial trivial false none _ _ _ line_fits line_fits (by norm_num) _ _ lineDist_map (line_usable 1 one_pos)
  (lineW_kernel 1 one_pos) exX ![1, 3, 2]).1 (lineW_determined 1 one_pos)
example := (C119_criterion .CV .serial trivial false _ _ line_fits _ _ lineDist_map (line_usable 1 one_pos) (lineW_kernel 1 one_pos) exX (exX *ᵥ ![2, 3])).1 0
  (gauss_loo (lineW_kernel 1 one_pos) _)

/-- `C119_auto_fit`: bounds 5 and 10. -/
example : ∃ r g, gwrAutoRun .CV (fun _ => .serial) .serial ⟨false, none⟩ ⟨1, false, .Gaussian⟩ (some 5) (some 10) (lineCoords 1) exX (exX *ᵥ ![2, 3]) true true =
      .ok (r, g) ∧
    IsSearchedFit .CV (∀ _ : ℕ, (Exec.serial : Exec 3) = .serial) ⟨1, false, .Gaussian⟩ lineDist exX (exX *ᵥ ![2, 3]) true true r g := by
  obtain ⟨r, g, h, -⟩ := ex_autoRun (D := 1) (some 5) (some 10) rfl rfl (by norm_num) (by norm_num) (fun _ => .serial) (fun _ => trivial) .serial trivial
    ![2, 3] true true
  exact ⟨r, g, h, C119_auto_fit .CV (fun _ => .serial) (fun _ => trivial) .serial trivial false none _ _ _ _ line_fits _ lineDist_map _ _ _ _ r g h⟩

/-- `C119_small_response`: a response that the covariates explain completely, in a unit that makes it small. -/
example : ∃ r g, gwrAutoRun .CV (fun _ => .serial) .serial ⟨false, none⟩ ⟨1, false, .Gaussian⟩ (some 5) (some 10) (lineCoords 1) exX
      (fun i => 1e-3 * (exX *ᵥ ![2, 3]) i) true true = .ok (r, g) ∧ r.evals.map Eval.x = [5 + goldenR * (10 - 5), 10 - goldenR * (10 - 5)] := by
  have e : (fun i => 1e-3 * (exX *ᵥ ![2, 3]) i) = exX *ᵥ ((1e-3 : ℝ) • ![2, 3]) := by rw [mulVec_smul]; rfl
  obtain ⟨r, g, h, -⟩ := ex_autoRun (D := 1) (some 5) (some 10) rfl rfl (by norm_num) (by norm_num) (fun _ => .serial) (fun _ => trivial) .serial trivial
    ((1e-3 : ℝ) • ![2, 3]) true true
  rw [← e] at h
  obtain ⟨g1, g2⟩ := goldenR_bounds
  have p1 : (0 : ℝ) < 5 + goldenR * (10 - 5) := by linarith
  have p2 : (0 : ℝ) < 10 - goldenR * (10 - 5) := by linarith
  exact ⟨r, g, h, (C119_small_response (fun _ => .serial) (fun _ => trivial) .serial false none .Gaussian 1 5 10 (by norm_num) (by norm_num) _ line_fits _ _ _ lineDist_map
    (lineW_kernel _ p1) (lineW_kernel _ p2) exX _ 0 0 (gauss_loo (lineW_kernel _ p1) _) (gauss_loo (lineW_kernel _ p2) _) 1e-3
    (by simp; linarith [hundred_lt_dblMax]) (by simp; linarith [hundred_lt_dblMax]) (by norm_num) true true r g h).1⟩

/-! ## C121 -/

example := C121_response .serial .serial trivial trivial false none none _ _ line_fits _ lineDist_map (line_usable 1 one_pos) exX ![1, 3, 2] true true (-2)
  (by norm_num) _ (lineRun_ok _)
example := C121_covariates .serial .serial trivial trivial false none none _ _ line_fits _ lineDist_map (line_usable 1 one_pos) exX ![1, 3, 2] true true ![2, 3]
  (fun j => by fin_cases j <;> norm_num) _ (lineRun_ok _)
example := C121_known_effect .serial .serial trivial trivial false none none _ _ line_fits _ lineDist_map (line_usable 1 one_pos) exX ![1, 3, 2] true true ![2, 3]
  _ (lineRun_ok _)

/-! ## C123 -/

theorem lineCall_undisturbed : FitUndisturbed (lineCall false) := ⟨rfl, fun _ _ => rfl, rfl, fun _ => rfl⟩

/-- A new object. -/
noncomputable def lineObj : GWRObj := GWRObj.new ⟨1, false, .Gaussian⟩ ⟨false, none⟩

theorem lineObj_success : (objFit (lineCall false) lineObj).1.terminated = false :=
  (C123_status ⟨1, false, .Gaussian⟩ ⟨false, none⟩ lineObj [.fit 3 2 (lineCall false)]).1 (by simp [Undisturbed, FitUndisturbed, lineCall])

/-- A prediction at the three places. -/
noncomputable def linePredict (stopped : Bool) : PredictCall 3 2 3 := ⟨lineCoords 1, lineCoords 1, exX, ![1, 3, 2], .serial, stopped, fun _ => false, false⟩

example := C123_success_certifies_fit (lineCall false) lineObj lineObj_success
example := C123_success_certifies_prediction (linePredict false) lineObj
  ((C123_status ⟨1, false, .Gaussian⟩ ⟨false, none⟩ lineObj [.predict 3 2 3 (linePredict false)]).1 (by simp [Undisturbed, PredictUndisturbed, linePredict]))
example := C123_given_bandwidth (objFit (lineCall true) lineObj).1 { lineCall false with auto := none } rfl (linePredict false)
example := (C123_new_object (lineCall false) lineCall_undisturbed ⟨1, false, .Gaussian⟩ ⟨false, none⟩)
example := C123_cancelled_prediction_shape (linePredict true) lineObj rfl rfl rfl

/-- `C123_terminated_never_searches`, `C123_terminated_fit`: an object whose status is Terminated. -/
example : ∃ s g, (objFit (lineCall false) { lineObj with terminated := true }).2 = .ok (.full s g) ∧ g.weight = ⟨1, false, .Gaussian⟩ := by
  obtain ⟨s, h⟩ := (C123_terminated_fit { lineObj with terminated := true } rfl (lineCall false) lineCall_undisturbed rfl ⟨10, rfl⟩ _).2
    (lineRun_ok (exX *ᵥ ![2, 3]))
  exact ⟨s, _, h, (C123_terminated_never_searches { lineObj with terminated := true } rfl (lineCall false) s _ h).1⟩

/-! ## C102, C120 -/

noncomputable def someSort : List FModel → List FModel := exists_stdSort.choose
theorem someSort_std : IsStdSort someSort := exists_stdSort.choose_spec

noncomputable def picked : Selected 6 := (ex_select someSort someSort_std 11).choose
theorem picked_ok : gwrSelectVars someSort 0 ⟨false, some (selCoords, selCoords)⟩ ⟨11, false, .Boxcar⟩ selX selY true = .ok picked :=
  (ex_select someSort someSort_std 11).choose_spec.1
theorem picked_one : picked.vars.length = 1 := (ex_select someSort someSort_std 11).choose_spec.2

example := C102_criterion .Boxcar 11 selCoords rfl selX selY true [1] _ (sel_crit1 11)
example := C102_selected_variables someSort someSort_std 0 .Boxcar 11 selCoords rfl selX selY true picked picked_ok
example := C102_second_fit_undefined someSort someSort_std 0 _ _ ⟨11, false, .Boxcar⟩ selX selY true picked picked_ok picked_one

/-- `C102_fit_uses_selected`. -/
example : ∃ s a, gwrVarFit someSort 0 ⟨false, none⟩ ⟨11, false, .Boxcar⟩ selCoords selX selY true true true = .ok ⟨s, a⟩ ∧
    IsGWRFixed .Boxcar 11 (fun i : Fin 6 => selCoords.val i) (fun l : Fin 6 => selCoords.val l) s.x selY a.betas := by
  obtain ⟨s, a, h, -⟩ := ex_select_fit someSort someSort_std
  exact ⟨s, a, h, (C102_fit_uses_selected someSort 0 none .Boxcar 11 (by norm_num) _ _ _ _ _ _ s a h).2⟩

/-- The picked covariate: one of the two, so that the picked columns determine the coefficients and are orthogonal to the response. -/
theorem picked_columns : ∃ v, (v = 1 ∨ v = 2) ∧ Columns selX [0, v] picked.x := by
  obtain ⟨-, -, -, -, -, -, -, -, -, hv, hc⟩ := C102_selected_variables someSort someSort_std 0 .Boxcar 11 selCoords rfl selX selY true picked picked_ok
  obtain ⟨v, e⟩ := List.length_eq_one_iff.1 picked_one
  have := hv v (by rw [e]; simp)
  refine ⟨v, by simp at this; omega, ?_⟩
  rw [e] at hc; exact hc

theorem picked_aicc : ∃ r, fitCoreSHatSerial picked.x selY (fun _ _ => 1) 0 6 NoStop = .ok r ∧ aicc picked.x selY r.1.1 (r.1.2 0) = .ok (aiccFormula 6 2 2) := by
  obtain ⟨v, hv, hc⟩ := picked_columns
  have hk : picked.cols.length = 2 := hc.1.symm
  obtain ⟨r, h1, h2⟩ := ortho_criterion (y := selY) (sel_determined hv hc) (fun j => by
    obtain ⟨c, -, e⟩ := hc.2 j
    simp only [e]
    fin_cases c <;> simp [Fin.sum_univ_succ, selX, selY]) ⟨4, by simp [selY]⟩ (by rw [hk]; norm_num)
  refine ⟨r, h1, h2.trans ?_⟩
  rw [hk]
  norm_num [selY, Fin.sum_univ_succ]

/-- The score of the picked model at every bandwidth that covers the map. -/
theorem picked_score (bw : ℝ) (hb : 10 < bw) :
    gwrCriterion .AIC ⟨false, some (selCoords, selCoords)⟩ picked.x selY ⟨bw, false, .Boxcar⟩ = aiccFormula 6 2 2 := by
  obtain ⟨r, h1, h2⟩ := picked_aicc
  obtain ⟨v, hv, hc⟩ := picked_columns
  obtain ⟨b, t, e, -⟩ := aicc_core (x := picked.x) (y := selY) (W := fun _ _ => 1) (fun _ _ => zero_le_one) (fun _ => sel_determined hv hc)
  rw [e] at h1
  cases Res.ok.inj h1
  have hs : |aiccFormula 6 2 2| ≤ dblMax := by
    have h3 : (1 : ℝ) - (2 / 6)⁻¹ ≤ Real.log (2 / 6) := Real.one_sub_inv_le_log_of_pos (by norm_num)
    have h4 : 0 ≤ Real.log (2 * Real.pi) := Real.log_nonneg (by linarith [Real.two_le_pi])
    have h5 := aicc_small
    have h6 : 0 ≤ aiccFormula 6 2 2 := by
      simp only [aiccFormula]
      norm_num at h3 ⊢
      linarith
    rw [abs_of_nonneg h6]
    linarith [hundred_lt_dblMax]
  unfold gwrCriterion
  rw [sel_rows hb]
  simp only [criterionAIC, show (fun _ : ℕ => false) = NoStop from rfl, e]
  rw [h2]
  simp [finiteOrMax, hs]

/-- The search between 20 and 30 for the picked model. -/
theorem picked_search : ∃ b, (optimize ⟨11, false, .Boxcar⟩ 20 30
    (fun _ b => (true, gwrCriterion .AIC ⟨false, some (selCoords, selCoords)⟩ picked.x selY b)) []).out = .ok b := by
  obtain ⟨g1, g2⟩ := goldenR_bounds
  rcases optimize_cases ⟨11, false, .Boxcar⟩ 20 30 (fun _ b => (true, gwrCriterion .AIC ⟨false, some (selCoords, selCoords)⟩ picked.x selY b)) [] with
    ⟨-, he⟩ | ⟨-, -, hf, -, he⟩ | ⟨-, -, -, -, -, he⟩ | ⟨-, -, -, -, he⟩
  · exact ⟨_, by rw [he]⟩
  · have : (goldenInit ⟨11, false, .Boxcar⟩ 20 30 (fun _ b => (true, gwrCriterion .AIC ⟨false, some (selCoords, selCoords)⟩ picked.x selY b)) []).f1 =
        aiccFormula 6 2 2 := by
      have := picked_score (20 + goldenR * (30 - 20)) (by linarith)
      simpa [goldenInit] using this
    rw [this] at hf
    linarith [hundred_lt_dblMax, aicc_small]
  · exact ⟨_, by rw [he]⟩
  · exact ⟨_, by rw [he]⟩

/-- `C102_auto_fit_uses_selected`, `C120_auto_fit`: both selections, with search bounds 20 and 30. -/
theorem both_selected : ∃ b s a r g, gwrVarAutoFit someSort 0 .AIC ⟨false, none⟩ ⟨11, false, .Boxcar⟩ (some 20) (some 30) selCoords selX selY true true true = .ok ⟨s, (b, a)⟩ ∧
    IsGWRFixed b.mKernel b.mBandwidth (fun i : Fin 6 => selCoords.val i) (fun l : Fin 6 => selCoords.val l) s.x selY a.betas ∧
    gwrVarAutoRun someSort 0 (fun _ => .serial) .AIC (fun _ => .serial) .serial ⟨false, none⟩ ⟨11, false, .Boxcar⟩ (some 20) (some 30) selCoords selX selY true
      true true = .ok ⟨s, (r, g)⟩ ∧ g.weight = b ∧
    ∃ dist w0, IsMapDistance false selCoords selCoords dist ∧ IsGWRSelection (∀ _ : List ℕ, (Exec.serial : Exec 6) = .serial) 0 selX selY w0 true s ∧
      IsSearchedFit .AIC (∀ _ : ℕ, (Exec.serial : Exec 6) = .serial) ⟨11, false, .Boxcar⟩ dist s.x selY true true r g := by
  obtain ⟨b, hb⟩ := picked_search
  have hbd : bindLocations ⟨false, none⟩ selCoords selCoords = .ok ⟨false, some (selCoords, selCoords)⟩ := bindLocations_eq_ok.2 ⟨rfl, rfl, rfl⟩
  obtain ⟨⟨a, -, ha⟩, -⟩ := C57_selected_bandwidth_fits .AIC ⟨false, none⟩ ⟨11, false, .Boxcar⟩ b (some 20) (some 30) selCoords picked.x selY true true _ _ hbd rfl hb
  have hv : gwrVarAutoFit someSort 0 .AIC ⟨false, none⟩ ⟨11, false, .Boxcar⟩ (some 20) (some 30) selCoords selX selY true true true = .ok ⟨picked, (b, a)⟩ := by
    unfold gwrVarAutoFit
    rw [hbd]
    simp only [Res.bind, picked_ok]
    rw [ha]
  have hk := C17_kernel_kind_kept _ _ _ _ _ b hb
  have hpos : 10 < b.mBandwidth := by
    rcases (C15_fixed_within_bounds ⟨11, false, .Boxcar⟩ rfl 20 30 (by norm_num) _ []).2 b hb with rfl | h
    · norm_num
    · linarith [h.1]
  have hb' : b = ⟨b.mBandwidth, false, .Boxcar⟩ := by
    cases b; simp only at hk; simp [hk.1, hk.2]
  obtain ⟨v, hv', hc⟩ := picked_columns
  obtain ⟨g, C, hg, hgw, -⟩ := (finish_report (x := picked.x) (y := selY) (sS := true) (sC := true) (ex := .serial) (W := fun _ _ => 1)
    (fun _ _ => zero_le_one) trivial (b := b) (d' := ⟨false, some (selCoords, selCoords)⟩) (by rw [hb']; exact sel_rows hpos)).1
      fun _ => sel_determined hv' hc
  have hsel : gwrSelectVarsEx someSort 0 (fun _ => .serial) ⟨false, some (selCoords, selCoords)⟩ ⟨11, false, .Boxcar⟩ selX selY true = .ok picked := picked_ok
  have hrun : gwrVarAutoRun someSort 0 (fun _ => .serial) .AIC (fun _ => .serial) .serial ⟨false, none⟩ ⟨11, false, .Boxcar⟩ (some 20) (some 30) selCoords selX
      selY true true true = .ok ⟨picked, (optimize ⟨11, false, .Boxcar⟩ 20 30
        (fun _ b => (true, gwrCriterion .AIC ⟨false, some (selCoords, selCoords)⟩ picked.x selY b)) [], g)⟩ := by
    unfold gwrVarAutoRun
    rw [hbd, Res.bind, hsel, Res.bind, gwrSearchEx, gwrUpper, Res.bind, Res.bind]
    simp only [gwrCriterionEx, Option.getD]
    rw [hb, Res.bind, hg, Res.bind]
  have hd : IsMapDistance (m := 6) (n := 6) false selCoords selCoords fun i j => plane (selCoords.val i) (selCoords.val j) := by
    rw [mapDistance_calc]
    intro i j
    rw [← euclid_eq_plane]; rfl
  have hu := usable_fixed (m := 6) (n := 6) (show (0 : ℝ) < dblMax by linarith [hundred_lt_dblMax]) .Boxcar fun i j => plane (selCoords.val i) (selCoords.val j)
  obtain ⟨w0, -, hw0, -⟩ := kernelRows (show selCoords.nRows = 6 from rfl) (show selCoords.nRows = 6 from rfl) hd hu id
  obtain ⟨h1, h2⟩ := C120_auto_fit someSort someSort_std 0 (fun _ => .serial) (fun _ => trivial) .AIC (fun _ => .serial) (fun _ => trivial) .serial trivial false none
    _ _ _ _ ⟨rfl, rfl⟩ _ w0 hd hu hw0 _ _ _ _ _ picked _ g hrun
  exact ⟨b, picked, a, _, g, hv, C102_auto_fit_uses_selected _ _ _ _ _ _ _ _ _ _ _ _ _ _ _ _ hk.2 (by linarith) hv |>.2, hrun, hgw, _, w0, hd, h1, h2⟩

/-- `C102_auto_fit_uses_selected`, `C120_auto_fit`. -/
example := both_selected

/-- The bandwidths tried there start in the given range. -/
example : ∃ (b : BandwidthWeight) (tried tried' : List ℝ), StartsInRange false 20 30 tried ∧ b.mBandwidth ∈ tried ∧ StartsInRange false 20 30 tried' := by
  obtain ⟨b, s, a, r, g, h1, -, h2, -, dist, w0, hd, -⟩ := both_selected
  obtain ⟨l, u, tried, -, q1, q2⟩ := C102_auto_fit_range _ _ _ _ _ _ _ _ _ _ (⟨rfl, rfl⟩ : FitsData selCoords 6) (by norm_num) _ hd _ _ _ _ _ _ _ h1
  obtain ⟨l', u', -, q3⟩ := (C127_basic_fit _ _ _ _ _ _ _ _ _ (⟨rfl, rfl⟩ : FitsData selCoords 6) (by norm_num) _ hd _ _ _ _).2 _ _ _ _ _ _ _ h2
  exact ⟨b, tried, _, q1, q2, q3⟩

/-- `C120_criterion`, `C120_fit`: the variables of the same data, at the given bandwidth. -/
example : ∃ w0, (∃ (k' : ℕ) (X : Matrix (Fin 6) (Fin k') ℝ), Columns selX [0, 1] X) ∧ ∃ s g,
    gwrVarRun someSort 3 (fun _ => .serial) .serial ⟨false, none⟩ ⟨11, false, .Boxcar⟩ selCoords zeroColX selY true true true = .ok ⟨s, g⟩ ∧
    IsGWRSelection (∀ _ : List ℕ, (Exec.serial : Exec 6) = .serial) 3 zeroColX selY w0 true s := by
  have hd : IsMapDistance (m := 6) (n := 6) false selCoords selCoords fun i j => plane (selCoords.val i) (selCoords.val j) := by
    rw [mapDistance_calc]
    intro i j
    rw [← euclid_eq_plane]; rfl
  have hu := usable_fixed (m := 6) (n := 6) (show (0 : ℝ) < dblMax by linarith [hundred_lt_dblMax]) .Boxcar fun i j => plane (selCoords.val i) (selCoords.val j)
  have hu' := usable_fixed (m := 6) (n := 6) (show (0 : ℝ) < 11 by norm_num) .Boxcar fun i j => plane (selCoords.val i) (selCoords.val j)
  obtain ⟨w0, -, hw0, -⟩ := kernelRows (show selCoords.nRows = 6 from rfl) (show selCoords.nRows = 6 from rfl) hd hu id
  obtain ⟨w, -, hw, -⟩ := kernelRows (show selCoords.nRows = 6 from rfl) (show selCoords.nRows = 6 from rfl) hd hu' id
  obtain ⟨k', X, hX, -⟩ := C120_criterion .serial trivial false ⟨11, false, .Boxcar⟩ selCoords ⟨rfl, rfl⟩ _ w0 hd hu hw0 selX selY true [1] _ (sel_crit1 11)
  obtain ⟨s, g, h, -⟩ := (C120_parallel_selects_zeros someSort someSort_std true true).1
  have hf := (C120_fit someSort someSort_std 3 (fun _ => .serial) (fun _ => trivial) .serial trivial false none _ _ ⟨rfl, rfl⟩ _ w0 w hd hu hw0 hu' hw
    _ _ _ _ _ s g h).1
  exact ⟨w0, ⟨k', X, hX⟩, s, g, h, hf⟩

end Verif.Cases

import Verif.Props.GWDRRun
import Verif.Props.GTWRRunGeneral
import Verif.Props.GWDA
import Verif.Cases.Generalised
import Verif.Cases.Gpu

/-! # Concrete cases for the theorems not covered by the other files of this directory -/

namespace Verif.Cases
open Verif Verif.Model Verif.Spec Verif.Props Matrix Classical

example (tol : ℝ) := C92_calibration_completes (F := .Poisson) tol 20 (x := ones 3) (y := ![0, 1, 4]) (W := pairW) (fun i => by fin_cases i <;> norm_num)
  pairW_nonneg fun i => ones_det (pairW_nonneg i) (pairW_pos i)
example (tol : ℝ) := C90_parallel_cv .Poisson tol 1 (ones 4) twinY twinW _ (seqEvents_schedule (fun i : Fin 4 => if i = 1 then (1 : Fin 2) else 0) (List.finRange 4)) _
  (twin_cv_ok tol).choose_spec
example (tol : ℝ) (ex : Exec 3) (hex : ex.Valid) := C108_fit .Poisson tol 20 (by norm_num) none .Boxcar 100 (by norm_num) (lineCoords 2) (ones 3) ![0, 1, 4] ex hex _
  (ex_ggwrRun tol ex hex).choose_spec.1
example := C28_singular_criteria_differ ggEvents

example := C104_any_lambda none .serial false (exST (1 / 2)) (exST_config _) ⟨1, false, .Gaussian⟩ unitPair ⟨rfl, rfl⟩ (fun _ => 0) (ones 2) ![0, 1]
  ex_lambdaRun.2.1 true _ _ ex_lambdaRun.2.2.choose_spec.choose_spec.1 pairR2
  (by have := ex_lambdaRun.2.2.choose_spec.choose_spec.2; exact this) 1 ex_lambdaRun.1

theorem some_lambda : ∃ r, lambdaAutoSelection (fun _ l => .ok (false, some (pairR2 l))) = .ok r := lambda_total fun _ _ => ⟨_, rfl⟩
example := C44_lambda_in_range _ some_lambda.choose.1 some_lambda.choose.2 some_lambda.choose_spec

/-- Three observations in two groups. -/
def twoGroups : Fin 3 → ℕ := ![7, 4, 7]
example := C45_group twoGroups (fun i => (i.val : ℝ)) (by norm_num)
example := C45_correct_rate twoGroups ![7, 7, 7] (by norm_num)

/-! ## Both selections on the GPU: six points, bounds 11 and 12 -/

theorem sel_wide {bw : ℝ} (h : 11 ≤ bw) : IsKernelWeight ⟨bw, false, .Boxcar⟩ selDist fun _ _ => 1 := fun i =>
  ⟨bw, by simp [IsRadius], fun l => (selPlane (by linarith) i l).symm⟩

theorem sel_wide_device {bw : ℝ} (h : 11 ≤ bw) (h' : bw ≤ 12) : DeviceBandwidth ⟨bw, false, .Boxcar⟩ selDist := by
  refine ⟨fun _ => ?_, fun h => absurd h (by simp), fun _ i r hr l => ?_⟩
  · have := hundred_lt_dblMax
    dsimp only; linarith
  · have : r = bw := by simpa [IsRadius] using hr
    subst this
    intro h
    have h2 := selPlane (bw := r) (by linarith) i l
    unfold selDist at h
    rw [h] at h2
    simp [kernelFormula] at h2

theorem sel_wide_score {k' : ℕ} {X : Matrix (Fin 6) (Fin k') ℝ} {v : ℕ} (hv : v = 1 ∨ v = 2) (hX : Columns selX [0, v] X) (g : ℕ → ℝ) {bw : ℝ} (h : 11 ≤ bw)
    (h' : bw ≤ 12) : gpuCriterion .AIC 2 g ⟨false, some (selCoords, selCoords)⟩ X selY ⟨bw, false, .Boxcar⟩ = aiccFormula 6 2 2 := by
  have hk : k' = 2 := hX.1.symm
  have ho : ∀ c : Fin 3, ∑ i, selX i c * selY i = 0 := by
    intro c; fin_cases c <;> norm_num [selX, selY, Fin.sum_univ_succ]
  obtain ⟨⟨⟨B, s⟩, f⟩, hr, ha⟩ := ortho_criterion (y := selY) (sel_determined hv hX) (fun j => by
    obtain ⟨c, -, e⟩ := hX.2 j
    simp only [e]; exact ho c) ⟨4, show (1 : ℝ) ≠ 0 from one_ne_zero⟩ (by rw [hk]; norm_num)
  have hsum : ∑ i, selY i ^ 2 = 2 := by norm_num [selY, Fin.sum_univ_succ]
  obtain rfl := serialFor_nostop _ _ _ hr
  obtain ⟨e1, e2, -⟩ := C33_shat_cuda X selY (fun _ _ => 1) 2 (by norm_num) (by norm_num) g _ _ hr
  have hw : weightRowsCuda ⟨false, some (selCoords, selCoords)⟩ ⟨bw, false, .Boxcar⟩ 6 6 = .ok fun _ _ => 1 :=
    (gpu_weights rfl rfl sel_distance (usable_fixed (by linarith) _ _) (sel_wide_device h h')).trans (sel_rows (by linarith))
  unfold gpuCriterion criterionAIC
  rw [hw]
  dsimp only at ha ⊢
  rw [e1, e2, ha, hsum, hk]
  simp only [and_self, if_true]
  unfold finiteOrMax
  exact if_pos (by exact_mod_cast aicc_bounds.1)

theorem sel_auto (g : List ℕ → ℕ → ℝ) (gB : ℕ → ℕ → ℝ) : ∃ s r rep, gpuVarAutoRun someSort 0 2 g .AIC gB ⟨false, none⟩ ⟨11, false, .Boxcar⟩ (some 11) (some 12) selCoords
    selX selY true true true = .ok ⟨s, (r, rep)⟩ := by
  obtain ⟨s, hsel, hv⟩ := ex_selectVars someSort someSort_std (crit := fun vars => gpuVarsCriterion 2 (g vars) ⟨false, some (selCoords, selCoords)⟩
    ⟨11, false, .Boxcar⟩ selX selY true vars) (sel_gpu_crit (by norm_num) (by norm_num) _ sel_core1) (sel_gpu_crit (by norm_num) (by norm_num) _ sel_core2)
    (sel_gpu_crit (by norm_num) (by norm_num) _ sel_core12) (by have := aicc_drop; push_cast; linarith)
  have hsel' : gpuSelectVars someSort 0 2 g ⟨false, some (selCoords, selCoords)⟩ ⟨11, false, .Boxcar⟩ selX selY true = .ok s := hsel
  obtain ⟨-, -, -, -, -, -, -, -, -, hr, hcol⟩ := selectVars_spec someSort_std hsel
  obtain ⟨v, hv⟩ := List.length_eq_one_iff.1 hv
  rw [hv] at hcol hr
  have hv2 := hr v (by simp)
  simp only [if_true] at hv2
  have h12 : v = 1 ∨ v = 2 := by omega
  have hdet := sel_determined h12 hcol
  have hbd : bindLocations ⟨false, none⟩ selCoords selCoords = .ok ⟨false, some (selCoords, selCoords)⟩ := bindLocations_eq_ok.2 ⟨rfl, rfl, rfl⟩
  let o : Oracle := fun j b => (true, gpuCriterion .AIC 2 (gB j) ⟨false, some (selCoords, selCoords)⟩ s.x selY b)
  obtain ⟨b, hb⟩ : ∃ b, (optimize ⟨11, false, .Boxcar⟩ 11 12 o []).out = .ok b := by
    obtain ⟨g1, g2⟩ := goldenR_bounds
    rcases optimize_cases ⟨11, false, .Boxcar⟩ 11 12 o [] with ⟨-, he⟩ | ⟨-, -, hf, -, he⟩ | ⟨-, -, -, -, -, he⟩ | ⟨-, -, -, -, he⟩
    · exact ⟨_, by rw [he]⟩
    · have e : (goldenInit ⟨11, false, .Boxcar⟩ 11 12 o []).f1 = aiccFormula 6 2 2 := by
        have := sel_wide_score h12 hcol (gB 0) (bw := 11 + goldenR * (12 - 11)) (by linarith) (by linarith)
        simpa [goldenInit, o] using this
      rw [e] at hf
      have h7 : aiccFormula 6 2 2 ≤ 100 := by
        have h1 : Real.log (2 / 6) ≤ 0 := Real.log_nonpos (by norm_num) (by norm_num)
        have h4 : Real.log (2 * Real.pi) ≤ 7 := by
          have := Real.log_le_sub_one_of_pos (show (0 : ℝ) < 2 * Real.pi by positivity)
          linarith [Real.pi_lt_four]
        unfold aiccFormula
        norm_num
        nlinarith
      linarith [hundred_lt_dblMax]
    · exact ⟨_, by rw [he]⟩
    · exact ⟨_, by rw [he]⟩
  have hk := C17_kernel_kind_kept _ _ _ _ _ b hb
  have hpos : 11 ≤ b.mBandwidth ∧ b.mBandwidth ≤ 12 := by
    rcases (C15_fixed_within_bounds ⟨11, false, .Boxcar⟩ rfl 11 12 (by norm_num) _ []).2 b hb with rfl | h
    · norm_num
    · exact h
  have hb' : b = ⟨b.mBandwidth, false, .Boxcar⟩ := by
    cases b; simp only at hk; simp [hk.1, hk.2]
  obtain ⟨rep, C, hrep, -⟩ := (C124_gpu_fit_partial 2 (by norm_num) (by norm_num) false none ⟨b.mBandwidth, false, .Boxcar⟩ selCoords selCoords_fits selDist (fun _ _ => 1)
    sel_distance (usable_fixed (by linarith [hpos.1]) _ _) (sel_wide_device hpos.1 hpos.2) (sel_wide hpos.1) s.x selY true true).1 fun _ => hdet
  rw [← hb'] at hrep
  unfold gpuRun at hrep
  rw [hbd, Res.bind] at hrep
  refine ⟨s, optimize ⟨11, false, .Boxcar⟩ 11 12 o [], rep, ?_⟩
  unfold gpuVarAutoRun
  rw [hbd, Res.bind, hsel', Res.bind]
  simp only [gpuSearch, gwrUpper, Res.bind, Option.getD]
  rw [show (optimize ⟨11, false, .Boxcar⟩ 11 12 (fun j b => (true, gpuCriterion .AIC 2 (gB j) ⟨false, some (selCoords, selCoords)⟩ s.x selY b)) []).out = .ok b from hb]
  simp only [hrep]
  rfl

example (g : List ℕ → ℕ → ℝ) (gB : ℕ → ℕ → ℝ) := C126_gpu_var_auto_fit_partial someSort someSort_std 0 2 (by norm_num) (by norm_num) g .AIC gB false none _ _ _ _
  selCoords_fits selDist sel_distance selX selY true true true _ _ _ (sel_auto g gB).choose_spec.choose_spec.choose_spec

end Verif.Cases

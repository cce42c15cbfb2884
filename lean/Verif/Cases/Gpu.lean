import Verif.Props.GpuVars
import Verif.Props.Mpi
import Verif.Cases.GWRRuns

/-! # Concrete cases for the theorems of `Props/GWRCuda`, `GpuRun`, `GpuVars` and `Mpi` -/

namespace Verif.Cases
open Verif Verif.Model Verif.Spec Verif.Props Matrix Classical

theorem line_shat_ok (y : Fin 3 → ℝ) : ∃ r : Matrix (Fin 3) (Fin 2) ℝ × (Fin 2 → ℝ), fitCoreSHatSerial exX y exW 0 3 NoStop = .ok ((r.1, r.2), false) := by
  obtain ⟨b, e, -, -⟩ := shatLoop_ok (x := exX) (y := y) (W := exW) 0 3 fun i _ _ =>
    (gram_posDef_iff_determined exX (exW i) fun l => (exW_pos i l).le).2 (exX_determined _ (exW_pos i))
  exact ⟨⟨b, _⟩, e⟩

noncomputable def lineSHat (y : Fin 3 → ℝ) : Matrix (Fin 3) (Fin 2) ℝ × (Fin 2 → ℝ) := (line_shat_ok y).choose
theorem lineSHat_ok (y : Fin 3 → ℝ) : fitCoreSHatSerial exX y exW 0 3 NoStop = .ok (((lineSHat y).1, (lineSHat y).2), false) := (line_shat_ok y).choose_spec

/-! ## C33 -/

example := C33_groups_cover_once 10 2 9 3 (by norm_num) (by norm_num)
example := C33_small_data_cv_zero exX ![1, 3, 2] exW 64 (by norm_num) (by norm_num) (by norm_num)
example := C33_cv_cuda_partial exX ![1, 3, 2] exW 2 (by norm_num) (by norm_num) _ (lineCV_ok _)
example := C33_shat_cuda exX ![1, 3, 2] exW 2 (by norm_num) (by norm_num) (fun _ => 7) _ _ (lineSHat_ok _)
example := C33_stale_trace ![1, 3, 2] (fun _ => 7) _ _ (lineSHat_ok _)
example := C33_singular_reported exX ![1, 3, 2] isoW (fun i l => by unfold isoW; split <;> norm_num) 2 (by norm_num) true true
  ⟨0, fun h => iso_singular (isoW 0) 0 (fun l hl => by simp [isoW, hl]) ((gram_posDef_iff_determined _ _ (fun l => by unfold isoW; split <;> norm_num)).2 h)⟩
example := C33_predict_cuda_partial exX ![1, 3, 2] exW 2 (by norm_num) (by norm_num) _ (linePred_ok _)
example := (C33_predict_other_count_fails (m := 2) exX ![1, 3, 2] (fun _ _ => 1) 2 (by norm_num) (by norm_num)).1 (by norm_num)
example := (C33_predict_other_count_fails (m := 4) exX ![1, 3, 2] (fun _ _ => 1) 2 (by norm_num) (by norm_num)).2 (by norm_num)
example := C33_stale_device_points (⟨none, false, none⟩ : DevDistance ℕ) rfl 1 2 3 4

/-! ## C124, C125 -/

example := C124_device_distances false (lineCoords 1) (lineCoords 10) rfl 1
example (g : ℕ → ℝ) := C125_gpu_criterion_partial .CV 2 (by norm_num) le_rfl g false ⟨1.5, false, .Boxcar⟩ duoCoords duo_fits duoDist (duoW 1.5) duo_distance
  (usable_fixed (by norm_num) _ _) (duo_device (by norm_num) (by norm_num) (by norm_num)) (duo_kernel 1.5) duoX duoY 8 (duo_score (by norm_num))
example (g : ℕ → ℝ) := C125_undefined_is_zero_fit 2 (by norm_num) le_rfl g false ⟨1 / 2, false, .Boxcar⟩ duoCoords duo_fits duoDist (duoW (1 / 2)) duo_distance
  (usable_fixed (by norm_num) _ _) (duo_device (by norm_num) (by norm_num) (by norm_num)) (duo_kernel (1 / 2)) duoX duoY ⟨0, by norm_num, duo_undetermined (by norm_num) 0⟩
  (by simp [duoY]; linarith [hundred_lt_dblMax])

/-- `C125_gpu_auto_fit_partial`: both points, bounds 1.5 and 2. -/
example (g : ℕ → ℕ → ℝ) : ∃ r rep, gpuAutoRun .CV 2 g ⟨false, none⟩ ⟨1.6, false, .Boxcar⟩ (some 1.5) (some 2) duoCoords duoX duoY true true = .ok (r, rep) ∧
    IsGpuSearchedFit .CV ⟨1.6, false, .Boxcar⟩ duoDist duoX duoY true true r rep := by
  have hbd : bindLocations ⟨false, none⟩ duoCoords duoCoords = .ok ⟨false, some (duoCoords, duoCoords)⟩ := bindLocations_eq_ok.2 ⟨rfl, rfl, rfl⟩
  obtain ⟨b, hb⟩ : ∃ b, (optimize ⟨1.6, false, .Boxcar⟩ 1.5 2 (fun j b => (true, gpuCriterion .CV 2 (g j) ⟨false, some (duoCoords, duoCoords)⟩ duoX duoY b)) []).out =
      .ok b := by
    obtain ⟨g1, g2⟩ := goldenR_bounds
    rcases optimize_cases ⟨1.6, false, .Boxcar⟩ 1.5 2 (fun j b => (true, gpuCriterion .CV 2 (g j) ⟨false, some (duoCoords, duoCoords)⟩ duoX duoY b)) [] with
      ⟨-, he⟩ | ⟨-, -, hf, -, he⟩ | ⟨-, -, -, -, -, he⟩ | ⟨-, -, -, -, he⟩
    · exact ⟨_, by rw [he]⟩
    · have := C125_gpu_criterion_partial .CV 2 (by norm_num) le_rfl (g 0) false ⟨1.5 + goldenR * (2 - 1.5), false, .Boxcar⟩ duoCoords duo_fits duoDist
        (duoW (1.5 + goldenR * (2 - 1.5))) duo_distance (usable_fixed (by linarith) _ _) (duo_device (by linarith) (by linarith) (by linarith))
        (duo_kernel _) duoX duoY 8 (duo_score (by linarith))
      have h8 := hundred_lt_dblMax
      rw [if_pos (by rw [abs_of_pos (by norm_num)]; linarith)] at this
      have e : (goldenInit ⟨1.6, false, .Boxcar⟩ 1.5 2 (fun j b => (true, gpuCriterion .CV 2 (g j) ⟨false, some (duoCoords, duoCoords)⟩ duoX duoY b)) []).f1 = 8 := by
        simpa [goldenInit] using this
      rw [e] at hf
      linarith
    · exact ⟨_, by rw [he]⟩
    · exact ⟨_, by rw [he]⟩
  have hk := C17_kernel_kind_kept _ _ _ _ _ b hb
  have hpos : 1.5 ≤ b.mBandwidth ∧ b.mBandwidth ≤ 2 := by
    rcases (C15_fixed_within_bounds ⟨1.6, false, .Boxcar⟩ rfl 1.5 2 (by norm_num) _ []).2 b hb with rfl | h
    · norm_num
    · exact h
  have hb' : b = ⟨b.mBandwidth, false, .Boxcar⟩ := by
    cases b; simp only at hk; simp [hk.1, hk.2]
  have p0 : 0 < b.mBandwidth := by linarith [hpos.1]
  obtain ⟨rep, C, hrep, -⟩ := (C124_gpu_fit_partial 2 (by norm_num) le_rfl false none ⟨b.mBandwidth, false, .Boxcar⟩ duoCoords duo_fits duoDist (duoW b.mBandwidth) duo_distance
    (usable_fixed p0 _ _) (duo_device p0 (by linarith [hpos.1]) hpos.2) (duo_kernel _) duoX duoY true true).1 fun i => duo_determined p0 i
  rw [← hb'] at hrep
  unfold gpuRun at hrep
  rw [hbd, Res.bind] at hrep
  have hrun : gpuAutoRun .CV 2 g ⟨false, none⟩ ⟨1.6, false, .Boxcar⟩ (some 1.5) (some 2) duoCoords duoX duoY true true =
      .ok (optimize ⟨1.6, false, .Boxcar⟩ 1.5 2 (fun j b => (true, gpuCriterion .CV 2 (g j) ⟨false, some (duoCoords, duoCoords)⟩ duoX duoY b)) [], rep) := by
    unfold gpuAutoRun
    rw [hbd, Res.bind]
    simp only [gpuSearch, gwrUpper, Res.bind, Option.getD]
    rw [hb]
    simp only [hrep]
  exact ⟨_, rep, hrun, C125_gpu_auto_fit_partial .CV 2 (by norm_num) le_rfl g false none _ _ _ _ duo_fits _ duo_distance _ _ _ _ _ rep hrun⟩

/-! ## C126 -/

example (g : ℕ → ℝ) := C126_gpu_criterion_partial 2 (by norm_num) (by norm_num) g false ⟨11, false, .Boxcar⟩ selCoords selCoords_fits selDist sel_distance selX selY
  true [1] _ (sel_gpu_crit (by norm_num) (by norm_num) g sel_core1)
example := C126_gpu_selects_zeros someSort someSort_std true true 2 (by norm_num) (by norm_num)

/-- `C126_undetermined_is_zero_fit`: a column of zeros. -/
example (g : ℕ → ℝ) := C126_undetermined_is_zero_fit 2 (by norm_num) (by norm_num) (by norm_num) g false ⟨11, false, .Boxcar⟩ selCoords selCoords_fits selDist
  sel_distance zeroColX selY (by norm_num [selY, Fin.sum_univ_succ]) true [2] (by simp [modelColumns]) (by
    intro k' X hX
    obtain ⟨hl, hc⟩ := hX
    have hk : k' = 2 := by rw [← hl]; rfl
    subst hk
    obtain ⟨c, e, hc⟩ := hc 1
    have : c = 2 := Fin.ext (Option.some.inj e).symm
    refine zeroCol_not_determined 1 (fun i => ?_) _
    rw [hc, this]
    fin_cases i <;> rfl)

/-- `C126_gpu_var_fit_partial`: the example of `Props/GpuVars`. -/
theorem gpu_picked : ∃ s, gpuSelectVars someSort 0 2 (fun _ _ => 0) ⟨false, some (selCoords, selCoords)⟩ ⟨11, false, .Boxcar⟩ selX selY true = .ok s ∧
    ∃ v, (v = 1 ∨ v = 2) ∧ Columns selX [0, v] s.x := by
  obtain ⟨s, h, hv⟩ := ex_selectVars someSort someSort_std (crit := fun vars => gpuVarsCriterion 2 (fun _ => 0) ⟨false, some (selCoords, selCoords)⟩
    ⟨11, false, .Boxcar⟩ selX selY true vars) (sel_gpu_crit (by norm_num) (by norm_num) _ sel_core1) (sel_gpu_crit (by norm_num) (by norm_num) _ sel_core2)
    (sel_gpu_crit (by norm_num) (by norm_num) _ sel_core12) (by have := aicc_drop; push_cast; linarith)
  obtain ⟨-, -, -, -, -, -, -, -, -, hr, hcol⟩ := selectVars_spec someSort_std h
  obtain ⟨v, hv⟩ := List.length_eq_one_iff.1 hv
  rw [hv] at hcol hr
  have hv2 := hr v (by simp)
  simp only [if_true] at hv2
  exact ⟨s, h, v, by omega, hcol⟩

example : ∃ s rep, gpuVarRun someSort 0 2 (fun _ _ => 0) ⟨false, none⟩ ⟨11, false, .Boxcar⟩ selCoords selX selY true true true = .ok ⟨s, rep⟩ ∧
    IsGWRSelection False 0 selX selY (fun _ _ => 1) true s := by
  obtain ⟨s, hsel, v, hv, hcol⟩ := gpu_picked
  have hdet := sel_determined hv hcol
  obtain ⟨rep, C, hrep, -⟩ := (C124_gpu_fit_partial 2 (by norm_num) (by norm_num) false none ⟨11, false, .Boxcar⟩ selCoords selCoords_fits selDist (fun _ _ => 1)
    sel_distance (usable_fixed (by norm_num) _ _) sel_device sel_kernel s.x selY true true).1 fun _ => hdet
  have hb : bindLocations ⟨false, none⟩ selCoords selCoords = .ok ⟨false, some (selCoords, selCoords)⟩ := bindLocations_eq_ok.2 ⟨rfl, rfl, rfl⟩
  unfold gpuRun at hrep
  rw [hb, Res.bind] at hrep
  have hrun : gpuVarRun someSort 0 2 (fun _ _ => 0) ⟨false, none⟩ ⟨11, false, .Boxcar⟩ selCoords selX selY true true true = .ok ⟨s, rep⟩ := by
    unfold gpuVarRun
    rw [hb]
    simp only [Res.bind, hsel, hrep]
  exact ⟨s, rep, hrun, (C126_gpu_var_fit_partial someSort someSort_std 0 2 (by norm_num) (by norm_num) _ false none _ _ selCoords_fits _ _ sel_distance
    (usable_fixed (by norm_num) _ _) sel_device sel_kernel _ _ _ _ _ s rep hrun).1⟩

/-! ## C30, C31 -/

example := C30_ranges_partition 10 3 (by norm_num) 7 (by norm_num)
example := C30_ranges_balanced 10 3 (by norm_num) 1
example := C30_cv_any_arrival_order (p := 2) exX ![1, 3, 2] exW [2, 1] (by decide) (by decide) _ (lineCV_ok _)
example := C30_aic_any_arrival_order exX ![1, 3, 2] exW _ ex_arrivals _ _ (lineSHat_ok _)
example := C31_nonneg_partial 2 ![2, 0, 3] (fun i => by fin_cases i <;> norm_num)
example := C31_negative_coefficients_lost 2 ![2, -1, 3] 1 (by norm_num)

end Verif.Cases

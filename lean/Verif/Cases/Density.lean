import Verif.Props.GWDR
import Verif.Props.GWDRRun
import Verif.Cases.GWRRuns

/-! # Concrete cases for the theorems of `Props/GWDR` and `Props/GWDRRun` -/

namespace Verif.Cases
open Verif Verif.Model Verif.Spec Verif.Props Matrix Classical

/-! ## Weights of two dimensions -/

/-- Two axes: the weights of each are those of `exW`. -/
noncomputable def twoAxes : Fin 3 → List (Fin 3 → ℝ) := fun i => [exW i, exW i]

theorem twoAxes_nonneg (i : Fin 3) : ∀ w ∈ twoAxes i, ∀ l, 0 ≤ w l := by
  intro w hw l
  simp only [twoAxes, List.mem_cons, List.not_mem_nil, or_false, or_self] at hw
  rw [hw]
  exact (exW_pos i l).le

example := C54_product_weights [![1, 1 / 2, 1 / 4], ![1, 1, (0 : ℝ)]] (by
  intro w hw l
  simp only [List.mem_cons, List.not_mem_nil, or_false] at hw
  rcases hw with rfl | rfl <;> fin_cases l <;> norm_num)
example := C54_fit_is_gwr exX ![1, 3, 2] twoAxes twoAxes_nonneg true (fun q => q == 1)
example := C54_fit exX ![1, 3, 2] twoAxes twoAxes_nonneg true
example := C54_parallel_hides_failures exX ![1, 3, 2] twoAxes twoAxes_nonneg true _ twoThreads
example := C54_cross_validation exX ![1, 3, 2] twoAxes twoAxes_nonneg 2
example := C54_aic exX ![1, 3, 2] twoAxes twoAxes_nonneg _ twoThreads
example := C61_adaptive_partial 10 (by norm_num) ![3, 5] (by intro m; fin_cases m <;> norm_num) ![1 / 50, 1 / 3]
example := C61_fixed_start_wrong 10 (by norm_num) ![1 / 2, 5] 0 (by norm_num)
example := C60_predicts_zero 4 exX (exX *ᵥ ![2, 3]) (fun _ => 1) 2 ![2, 3]
  (wls_exact (fun _ => zero_le_one) (exX_determined _ fun _ => one_pos) _) (fun h => by simpa using congrFun h 0)

/-! ## Whole runs -/

theorem usable_axis {b : BandwidthWeight} (h : 0 < b.mBandwidth) (hf : b.mAdaptive = false) (c : Fin n → ℝ) : UsableBandwidth b c :=
  ⟨h, fun h => by rw [hf] at h; cases h⟩

theorem axes_run (y : Fin 4 → ℝ) (coords : Matrix (Fin 4) (Fin 2) ℝ) :
    ∃ r, gwdrRun .serial ![⟨2, false, .Gaussian⟩, ⟨3, false, .Boxcar⟩] coords (ones 4) y true = .ok r :=
  ones_axis_success _ coords y true fun m => by fin_cases m <;> norm_num

theorem axes_usable (coords : Matrix (Fin 4) (Fin 2) ℝ) (m : Fin 2) :
    UsableBandwidth ((![⟨2, false, .Gaussian⟩, ⟨3, false, .Boxcar⟩] : Fin 2 → BandwidthWeight) m) fun l => coords l m := by
  fin_cases m
  · exact usable_axis (by norm_num) rfl _
  · exact usable_axis (by norm_num) rfl _

example (y : Fin 4 → ℝ) (coords : Matrix (Fin 4) (Fin 2) ℝ) := C112_fit .serial trivial _ coords (ones 4) y true (axes_usable coords) _ (axes_run y coords).choose_spec
example (y : Fin 4 → ℝ) (coords : Matrix (Fin 4) (Fin 2) ℝ) := C112_success _ coords (ones 4) y true (axes_usable coords)
example := C112_parallel_fails (by norm_num) ![1, 3, 2] true _ (show (Exec.omp _).Valid from twoThreads')

theorem axes_auto (y : Fin 4 → ℝ) (coords : Matrix (Fin 4) (Fin 2) ℝ) :
    ∃ r, gwdrAutoRun tameGsl 1 1 .serial (fun _ : Fin 2 => ⟨11, false, .Boxcar⟩) coords (ones 4) y true = .ok r := by
  unfold gwdrAutoRun
  rw [tame_bandwidths (n := 4) (by norm_num) (fun _ : Fin 2 => ⟨11, false, .Boxcar⟩) (fun _ => rfl) coords 1]
  exact ones_axis_success _ coords y true fun m => ⟨by norm_num, rfl⟩

example (y : Fin 4 → ℝ) (coords : Matrix (Fin 4) (Fin 2) ℝ) := C113_auto_fit tameGsl 1 1 .serial _ coords (ones 4) y true _ (axes_auto y coords).choose_spec
example (y : Fin 10 → ℝ) (coords : Matrix (Fin 10) (Fin 2) ℝ) :=
  C113_small_units_fail (fun _ => ⟨true, fun _ => 0, fun _ => false, fun _ => 1 / 100⟩) 1 1 (fun _ => ⟨1 / 10, false, .Gaussian⟩) coords (by norm_num) (by norm_num)
    (ones 10) y true fun p => ⟨0, rfl, by simp only [triedBandwidths]; rw [abs_of_pos (by norm_num)]; norm_num⟩
example (y : Fin 10 → ℝ) (coords : Matrix (Fin 10) (Fin 2) ℝ) :=
  C113_small_units_given (fun _ => 1 / 100) (fun _ => ⟨1 / 10, false, .Gaussian⟩) coords y true (fun _ => rfl)
    fun m => by simp only [triedBandwidths]; rw [abs_of_pos (by norm_num)]; norm_num
example := C113_start 3 ⟨1, false, .Gaussian⟩ rfl ![(0 : ℝ), 1, 5] (by norm_num)
example := C114_selection someSort someSort_std 0 (fun _ => .serial) (fun _ => trivial) .serial _ _ selX selY true true
  (fun _ => usable_axis (by norm_num) rfl _) _ _ (ex_select_gwdr someSort someSort_std).1.choose_spec.choose_spec.1
example := C114_both someSort someSort_std 0 (fun _ => .serial) (fun _ => trivial) tameGsl 1 1 .serial _ _ selX selY true true
  _ _ (ex_select_gwdr someSort someSort_std).2.choose_spec.choose_spec.1

end Verif.Cases

import Verif.Props.GWRScalableReport
import Verif.Cases.GWRFit

/-! # Concrete cases for the theorems of `Props/GWRScalable`, `Props/GWRScalableRun` and `Props/GWRScalableReport` -/

namespace Verif.Cases
open Verif Verif.Model Verif.Spec Verif.Props Matrix Classical

theorem exNei_nonneg : ∀ j ∈ exNei, (0 : ℝ) ≤ j.2 := by simp [exNei]

/-- The weights of the neighbour list of the example are positive. -/
theorem exNei_weight (l : Fin 3) : 0 < polyWeight 4 1 (1 / 100) exNei l := by
  refine add_pos_of_pos_of_nonneg (by norm_num) (List.sum_nonneg fun v hv => ?_)
  obtain ⟨j, hj, rfl⟩ := List.mem_map.1 hv
  exact polyKernel_nonneg 4 (by norm_num) (exNei_nonneg j (List.mem_filter.1 hj).1)

example := C36_normal_equations (P := 4) exX ![1, 3, 2] one_pos (by norm_num : (0 : ℝ) ≤ 1 / 100) exNei_nonneg
example := C37_neighbours (n := 4) ex_sorts ![3, 1, 2, 1] (bw := 5 / 2) (by norm_num) (by norm_num)
example := C39_scalable_second_fit_fails (n := 4) (σ := Tuple.sort) (fun i j : Fin 4 => |(i.val : ℝ) - j.val|) (bw := 5) (by norm_num) (by norm_num)
  (by norm_num)
example := C68_trace_depends_on_units (P := 4) (c := 3) (by norm_num) ![1, 3, 2] one_pos (by norm_num : (0 : ℝ) ≤ 1 / 100) exNei_nonneg
  (exX_determined _ exNei_weight) 1 (fun h => by simpa [exX] using congrFun h 0)
example := C69_exponential_is_gaussian (m := 2) (d := 1) two_pos

theorem line4_own (i j : Fin 4) (h : j ≠ i) : |((i : ℕ) : ℝ) - (i : ℕ)| < |((i : ℕ) : ℝ) - (j : ℕ)| := by
  simp only [sub_self, abs_zero, abs_pos, sub_ne_zero]
  exact fun e => h (Fin.ext (by exact_mod_cast e.symm))

example : ∃ row, scaDataNeighbours .AIC 3 Tuple.sort (fun i j : Fin 4 => |(i.val : ℝ) - j.val|) 2 = .ok row ∧ (row.map Prod.fst).count 2 = 2 := by
  obtain ⟨row, h, -⟩ := (C37_search_lists (n := 4) ex_sorts (fun i j : Fin 4 => |(i.val : ℝ) - j.val|) 2 (bw := 3)).2 (by norm_num)
  exact ⟨_, h, C67_own_point_twice ex_sorts _ 2 (line4_own 2) (by norm_num) h⟩

/-! ## Whole runs on three points -/

/-- A configuration: degree four, an optimiser that answers `(1, 1/100)`. -/
noncomputable def scaThree : ScaCfg 3 1 := exSca 4 Tuple.sort (fun _ => (1, 1 / 100)) fun _ _ => none

theorem scaThree_fit : ∃ r, scaFit scaThree (oneCol 3) ![1, 0, 0] lineD = .ok (some r) := ex_sca_fit ex_sorts (fun _ => one_ne_zero) _

theorem scaThree_predict : ∃ B, scaPredict scaThree (oneCol 3) ![1, 0, 0] lineD ![![0, 1, 2]] = .ok (some B) := by
  obtain ⟨B, _, h, -⟩ := C101_scalable_depends_on_other_locations (P := 4) (by norm_num) ex_sorts (opt := fun _ => (1, 1 / 100))
    (fun _ => one_ne_zero) fun _ _ => none
  exact ⟨B, h⟩

example := C100_fit_is_scalable_regression scaThree ex_sorts _ _ _ _ scaThree_fit.choose_spec
example := C100_prediction_is_scalable_regression scaThree ex_sorts _ _ _ _ _ scaThree_predict.choose_spec
example := C100_cv_value scaThree ex_sorts rfl _ _ _ _ scaThree_fit.choose_spec
example := C100_aic_value (exScaAic Tuple.sort fun _ _ => none) ex_sorts rfl _ _ _ _ (ex_sca_aic ex_sorts _).choose_spec

/-! ## Reports -/

theorem scaThree_report : ∃ r, scaRun scaThree ((1 : ℝ) • oneCol 3) ![1, 0, 0] lineD = .ok (some r) ∧
    r.fit.scale = 1 * 1 ∧ r.fit.penalty = 1 / 100 * (1 / 100) := ex_sca_report one_ne_zero ex_sorts one_ne_zero _

theorem scaThree_report5 : ∃ r, scaRun scaThree ((5 : ℝ) • ((1 : ℝ) • oneCol 3)) ![1, 0, 0] lineD = .ok (some r) ∧
    r.fit.scale = 1 * 1 ∧ r.fit.penalty = 1 / 100 * (1 / 100) := by
  have := ex_sca_report (c := 5) (by norm_num) (P := 4) (σ := Tuple.sort) ex_sorts (p := (1, 1 / 100)) one_ne_zero fun _ _ => none
  rwa [one_smul]

example := C122_report scaThree ex_sorts _ _ _ _ scaThree_report.choose_spec.1
example := C122_trace_depends_on_units (σ := Tuple.sort) ex_sorts (p := (1, 1 / 100)) one_ne_zero fun _ _ => none

theorem scaThree_positive {a : ℝ} (ha : 0 < a) {q P : ℕ} {b : ℝ} (hb : 0 ≤ b) {W V : Fin 3 → Fin 3 → ℝ}
    (h : ScalablePair baseGauss lineD q P b a W V) (i j : Fin 3) : 0 < W i j := by
  obtain ⟨r, med, -, -, h⟩ := h
  obtain ⟨l, -, h⟩ := h i
  rw [(h j).1]
  refine add_pos_of_pos_of_nonneg ha ?_
  split
  · exact polyKernel_nonneg _ hb (by unfold baseGauss; positivity)
  · exact le_rfl

example := C122_units scaThree ex_sorts ((1 : ℝ) • oneCol 3) ![1, 0, 0] lineD (c := 5) (by norm_num) scaThree_report.choose_spec.1
  scaThree_report5.choose_spec.1 (by rw [scaThree_report.choose_spec.2.1, scaThree_report5.choose_spec.2.1])
  (by rw [scaThree_report.choose_spec.2.2, scaThree_report5.choose_spec.2.2])
  (fun W V h i => by
    rw [one_smul]
    exact oneCol_determined (j := 0) (scaThree_positive (by rw [scaThree_report.choose_spec.2.2]; norm_num)
      (by rw [scaThree_report.choose_spec.2.1]; norm_num) h i 0))

/-! ## Predictions at the observations -/

theorem scaThree_at_data : ∃ B, scaPredict scaThree (oneCol 3) ![1, 0, 0] lineD lineD = .ok (some B) := by
  obtain ⟨b, a, cv, hb, ha, hc⟩ := exSca_choose (P := 4) (σ := Tuple.sort) ex_sorts (opt := fun _ => (1, 1 / 100)) (fun _ => one_ne_zero) fun _ _ => none
  have hbw : ⌊((scaBw scaThree.bw 3 : ℕ) : ℝ)⌋₊ = 2 := by
    rw [Nat.floor_natCast]; unfold scaBw scaThree exSca; norm_num
  obtain ⟨nei, hnei⟩ := scaRows_succeeds (ker := .Gaussian) (Or.inl rfl) ex_sorts lineD (by norm_num)
    (bw := (scaBw scaThree.bw 3 : ℕ)) (by rw [hbw]; norm_num) (by rw [hbw]; norm_num)
    (by rw [hbw]; intro i r hr; rw [IsKthSmallest.unique hr (lineD_kth i)]; norm_num)
  obtain ⟨⟨r, q, hr, hq, hW⟩, hg⟩ := scaRows_ok (Or.inl rfl) ex_sorts hnei 4 b a
  rw [hbw] at hr hW
  refine ⟨_, scaPredict_some hb ha hc hnei hg fun i => ?_⟩
  obtain ⟨l, hl, hw⟩ := hW i
  obtain ⟨j, hj⟩ : ∃ j, j ∈ l := by
    refine List.exists_mem_of_ne_nil _ fun e => ?_
    have := hl.length
    rw [e] at this; cases this
  refine oneCol_determined (j := j) ?_
  change 0 < polyWeight 4 b a (nei i) j
  rw [show polyWeight 4 b a (nei i) j = _ from hw j, if_pos hj]
  exact add_pos_of_nonneg_of_pos ha (polyKernel_pos 4 hb (scaBase_nonneg ..))

example := C101_scalable_prediction_at_data scaThree _ _ _ _ scaThree_fit.choose_spec _ scaThree_at_data.choose_spec

end Verif.Cases

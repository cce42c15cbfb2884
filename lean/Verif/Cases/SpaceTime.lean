import Verif.Props.GTWRRunGeneral
import Verif.Props.GWRScalableReport

/-! # Concrete cases for the theorems of `Props/GTWR`, `Props/GTWRRun` and `Props/GTWRRunGeneral`

Three points on a line observed at times 0, 1, 2 (`lineCoords 1`, `exX`), or two points one apart observed at one time (`unitPair`). -/

namespace Verif.Cases
open Verif Verif.Model Verif.Spec Verif.Props Matrix Classical

theorem st_half : STData 3 (exST (1 / 2)) (lineCoords 1) := exST_data _ (Or.inr (by norm_num)) _ rfl rfl

/-- The fit at any λ and any positive bandwidth. -/
theorem st_fit (l bw : ℝ) (hb : 0 < bw) (y : Fin 3 → ℝ) (sS : Bool) :
    ∃ a, gtwrFit (exST l) ⟨bw, false, .Gaussian⟩ (lineCoords 1) (List.ofFn ![0, 1, 2]) exX y sS NoStop = .ok (a, false) := by
  obtain ⟨d', hd', -⟩ := st_distance_any (n := 3) (exST_config l) ⟨rfl, rfl⟩ (lineST_spec l)
  obtain ⟨W, h1, hW, h0⟩ := stRows (n := 3) (exST_config l) ⟨rfl, rfl⟩ (lineST_spec l) hd' (usable_fixed (m := 3) (n := 3) hb .Gaussian (lineST l))
  obtain ⟨a, ha⟩ := (C21_fit_succeeds_iff exX y W h0 sS false).1.2 (fun i => exX_determined _ fun l => by
    obtain ⟨r, -, e⟩ := hW i
    rw [e]; exact Real.exp_pos _)
  refine ⟨a, ?_⟩
  unfold gtwrFit
  rw [hd', Res.bind, h1, Res.bind, ha]

noncomputable def stAcc : FitAcc 3 2 := (st_fit (1 / 2) 1 one_pos ![1, 3, 2] true).choose
theorem stAcc_ok : gtwrFit (exST (1 / 2)) ⟨1, false, .Gaussian⟩ (lineCoords 1) (List.ofFn ![0, 1, 2]) exX ![1, 3, 2] true NoStop = .ok (stAcc, false) :=
  (st_fit (1 / 2) 1 one_pos ![1, 3, 2] true).choose_spec

example (i : Fin 3) := C75_fit_is_weighted_least_squares _ _ _ st_half _ _ _ _ _ _ stAcc_ok i
example := (C77_prediction_is_fit_of_same_row _ _ _ ⟨2, 2, fun _ _ => 50⟩ st_half _ _ _ _ _ stAcc_ok).1 (by norm_num)
example := (C77_prediction_is_fit_of_same_row _ _ _ ⟨4, 2, fun _ _ => 50⟩ st_half _ _ _ _ _ stAcc_ok).2 (by norm_num)

/-- With the boxcar kernel and an intercept only, every observation that is not later has weight 1. -/
theorem st_box (y : Fin 3 → ℝ) :
    ∃ a, gtwrFit (exST (1 / 2)) ⟨100, false, .Boxcar⟩ (lineCoords 1) (List.ofFn ![0, 1, 2]) (ones 3) y true NoStop = .ok (a, false) := by
  have hb : (0 : ℝ) < 100 := by norm_num
  obtain ⟨d', hd', -⟩ := st_distance_any (n := 3) (exST_config (1 / 2)) ⟨rfl, rfl⟩ (lineST_spec (1 / 2))
  have hW := st_fixed st_half hd' .Boxcar hb
  obtain ⟨a, ha⟩ := (C21_fit_succeeds_iff (ones 3) y (fun i j : Fin 3 => kernelFormula .Boxcar 100
      (stDist (exST (1 / 2)).mLambda (stFactor (exST (1 / 2))) ((lineCoords 1).val i) ((lineCoords 1).val j) (![0, 1, 2] i) (![0, 1, 2] j)))
    (fun i l => by simp only [kernelFormula]; split <;> norm_num) true false).1.2 (fun i => ones_det (fun l => by simp only [kernelFormula]; split <;> norm_num)
      ⟨i, by simp [kernelFormula, stDist, spaceTime]⟩)
  refine ⟨a, ?_⟩
  unfold gtwrFit
  rw [hd', Res.bind, hW, Res.bind, ha]

/-- At the second observation the third, which is later, does not matter. -/
example := C76_future_ignored_partial _ _ _ st_half (by show (1 / 2 : ℝ) ≠ 1; norm_num) (by show (0 : ℝ) ≤ 1 / 2 ∧ (1 / 2 : ℝ) ≤ 1; norm_num) rfl
  (by norm_num) (by norm_num) (by decide) _ _ _ _ _ _ _ _ _ (st_box ![1, 3, 2]).choose_spec (st_box ![1, 3, 9]).choose_spec 1
  (fun j hj => by fin_cases j <;> simp at hj ⊢)

example (b0 : BandwidthWeight) (hfix : b0.mAdaptive = false) := C78_search_range_is_sentinel (n := 2) (exST (1 / 2)) samePlace
  (exST_data _ (Or.inr (by norm_num)) _ rfl rfl) (by show (1 / 2 : ℝ) ≠ 1; norm_num) ![0, 1] 0 1 (by simp) (fun i j _ => by
    have hs : ∀ i j : ℕ, euclid (samePlace.val i) (samePlace.val j) = 0 := fun i j => by simp [euclid, samePlace]
    have e1 : (exST (1 / 2)).mLambda = 1 / 2 := rfl
    have e2 : stFactor (exST (1 / 2)) = 1 := rfl
    rw [e1, e2]
    fin_cases i <;> fin_cases j <;> simp [stElem, hs] <;> norm_num) b0 hfix

/-! ## The search for λ -/

theorem parabola_peak : UnimodalAt (fun l => -(l - 1 / 5) ^ 2) (1 / 5) := by
  refine ⟨by norm_num, by norm_num, ?_, ?_⟩
  · intro a ha b hb hab
    have := hb.2
    simp only
    nlinarith
  · intro a ha b hb hab
    have := ha.1
    simp only
    nlinarith

example := C74_single_peak_partial _ _ parabola_peak _ _ (C44_search_ends (fun _ l => .ok (false, some (-(l - 1 / 5) ^ 2))) fun _ _ => ⟨_, rfl⟩).choose_spec.choose_spec

theorem pair_total : totalSS (![0, 1] : Fin 2 → ℝ) ≠ 0 := by
  simp only [totalSS, Fin.sum_univ_two, cons_val_zero, cons_val_one]; norm_num

theorem pair_rsquare (l : ℝ) (hl : 0 ≤ l ∧ l ≤ 1) :
    rsquareByLambda (exST (1 / 2)) ⟨1, false, .Gaussian⟩ unitPair (List.ofFn fun _ : Fin 2 => 0) (ones 2) ![0, 1] NoStop l = .ok (false, some (pairR2 l)) :=
  rsquare_any (exST_config (1 / 2)) ⟨rfl, rfl⟩ pair_total unitPair_rsquare l hl

theorem pair_lambda : ∃ l a, gtwrLambdaFit (exST (1 / 2)) ⟨1, false, .Gaussian⟩ unitPair (List.ofFn fun _ : Fin 2 => 0) (ones 2) ![0, 1] true = .ok (l, a) := by
  have hc : FitsData unitPair 2 := ⟨rfl, rfl⟩
  obtain ⟨⟨l, s⟩, hs⟩ := lambda_total (R := fun _ l => .ok (false, some (pairR2 l))) fun _ _ => ⟨_, rfl⟩
  rw [← lambda_congr (R := fun _ l => rsquareByLambda (exST (1 / 2)) ⟨1, false, .Gaussian⟩ unitPair (List.ofFn fun _ : Fin 2 => 0) (ones 2) ![0, 1]
    (fun _ => false) l) fun j l hl => pair_rsquare l hl] at hs
  have hr := (C44_lambda_in_range _ _ _ hs).1
  obtain ⟨d', hd', -⟩ := st_distance_any (exST_config l) hc (pair_st l)
  obtain ⟨W, h1, hW, h0⟩ := stRows (exST_config l) hc (pair_st l) hd' (usable_fixed (m := 2) (n := 2) one_pos .Gaussian _)
  have hdet : ∀ i, Determined (ones 2) (W i) := fun i => ones_det (h0 i) ⟨0, by
    obtain ⟨r, -, e⟩ := hW i
    rw [e]; exact Real.exp_pos _⟩
  obtain ⟨a, ha⟩ := (C21_fit_succeeds_iff (ones 2) ![0, 1] W h0 true false).1.2 hdet
  refine ⟨l, (a, false), ?_⟩
  unfold gtwrLambdaFit
  rw [hs, Res.bind]
  have e : (exST (1 / 2)).setLambda l = (exST l, .ok ()) := by
    unfold CRSSTDistance.setLambda
    simp [hr.1, hr.2, exST, CRSSTDistance.new]
  dsimp only
  rw [e]
  dsimp only
  unfold gtwrFit
  rw [hd', Res.bind, h1, Res.bind, show (fun _ : ℕ => false) = NoStop from rfl, ha, Res.bind]

example := C44_fit_uses_selected _ _ _ _ _ _ _ _ _ pair_lambda.choose_spec.choose_spec
example := C104_lambda_near_peak _ _ _ _ _ _ _ _ _ pairR2_peak pair_rsquare _ _ pair_lambda.choose_spec.choose_spec
example := C104_objective (exST (1 / 2)) .Gaussian 1 one_pos unitPair (exST_data _ (Or.inr (by norm_num)) _ rfl rfl) (fun _ => 0) (ones 2) ![0, 1] (1 / 3)
  (by norm_num) (Or.inr (by norm_num [abs_of_neg])) _ _ (pair_rsquare (1 / 3) (by norm_num))

/-! ## Runs -/

theorem times_pos (i j : Fin 3) (h : j ≠ i) : 0 < |(![0, 1, 2] : Fin 3 → ℝ) i - ![0, 1, 2] j| := by
  rw [abs_pos]
  fin_cases i <;> fin_cases j <;> simp at h ⊢
  all_goals norm_num

theorem lineST_pos (i j : Fin 3) (h : j ≠ i) : 0 < lineST (1 / 2) i j := by
  have := times_pos i j h
  unfold lineST
  split
  · positivity
  · exact add_pos_of_pos_of_nonneg (add_pos_of_nonneg_of_pos (by positivity) (mul_pos (by norm_num) this)) (by positivity)

theorem stDist_line_pos (i j : Fin 3) (h : j ≠ i) :
    0 < stDist (1 / 2) 1 ((lineCoords 1).val i) ((lineCoords 1).val j) ((![0, 1, 2] : Fin 3 → ℝ) i) (![0, 1, 2] j) := by
  have := times_pos i j h
  simp only [stDist, spaceTime]
  split
  · positivity
  · exact add_pos_of_pos_of_nonneg (add_pos_of_nonneg_of_pos (by positivity) (mul_pos (by norm_num) this)) (by positivity)

theorem st_kth (i : Fin 3) (r : ℝ) (hr : IsRadius ⟨2, true, .Gaussian⟩ (lineST (1 / 2) i) r) : 0 < r := by
  rcases hr with ⟨q, s, t, t', h1, h2, h3, h4, h5, h6, -, rfl⟩ | ⟨h, -⟩
  · have hq : q = 2 := by
      have : q ≠ 1 := fun e => by subst e; dsimp only at h3; push_cast at h3; linarith
      omega
    subst hq
    have hs : s = 0 := by dsimp only at h3; push_cast at h3; linarith
    rw [hs, zero_mul, sub_zero, one_mul, add_zero]
    exact kth_pos (lineST_pos i) le_rfl h6
  · norm_num at h

theorem st_adaptive : ∃ a, gtwrFit (exST (1 / 2)) ⟨2, true, .Gaussian⟩ (lineCoords 1) (List.ofFn ![0, 1, 2]) exX ![1, 3, 2] true NoStop = .ok (a, false) := by
  have hu : UsableRadius ⟨2, true, .Gaussian⟩ (lineST (1 / 2)) := ⟨fun _ => by norm_num, fun i r hr => st_kth i r hr⟩
  obtain ⟨d', hd', -⟩ := st_distance_any (n := 3) (exST_config (1 / 2)) ⟨rfl, rfl⟩ (lineST_spec (1 / 2))
  obtain ⟨W, h1, hW, h0⟩ := stRows (n := 3) (exST_config (1 / 2)) ⟨rfl, rfl⟩ (lineST_spec (1 / 2)) hd' hu
  obtain ⟨a, ha⟩ := (C21_fit_succeeds_iff exX ![1, 3, 2] W h0 true false).1.2 (fun i => exX_determined _ fun l => by
    obtain ⟨r, -, e⟩ := hW i
    rw [e]; exact Real.exp_pos _)
  refine ⟨a, ?_⟩
  unfold gtwrFit
  rw [hd', Res.bind, h1, Res.bind, ha]

example := C104_adaptive_fit_is_gtwr _ .Gaussian 2 (by norm_num) (by norm_num) (by norm_num) _ st_half _ _ _ _ _
  (fun i r h => kth_pos (stDist_line_pos i) le_rfl h) _ st_adaptive.choose_spec

/-- A run that selects the bandwidth by cross-validation and keeps λ. -/
theorem st_select : ∃ r, gtwrRun (some .CV) false (exST (1 / 2)) ⟨1, false, .Gaussian⟩ (lineCoords 1) (List.ofFn ![0, 1, 2]) exX (exX *ᵥ ![2, 3]) true = .ok r ∧
    0 < r.weight.mBandwidth ∧ r.lambda = 1 / 2 := by
  obtain ⟨l, g, h, hR⟩ := ex_gtwrRun .serial trivial true
  obtain ⟨d', d2, b, hd', hsel, -, -, -, -, -, rfl⟩ := gtwrRunEx_ok h
  obtain ⟨dist, w, B, -, hu, -⟩ := hR 0 (by norm_num)
  have hrun := C104_any_run (n := 3) _ _ .serial trivial false _ (exST_config _) _ _ ⟨rfl, rfl⟩ _ _ _ _ _ _ h
  have hw : g.weight = ⟨g.weight.mBandwidth, false, .Gaussian⟩ := by
    have h1 := hrun.kernel
    have h2 := hrun.kind
    rcases e : g.weight with ⟨bw, ad, ke⟩
    rw [e] at h1 h2
    cases h1; cases h2; rfl
  have hb : 0 < g.weight.mBandwidth := hu.2 0 _ (by rw [hw]; simp [IsRadius])
  change (gtwrSelectBandwidth .CV d' _ exX (exX *ᵥ ![2, 3])).bind _ = _ at hsel
  obtain ⟨a, ha⟩ := st_fit (1 / 2) _ hb (exX *ᵥ ![2, 3]) true
  rw [← hw] at ha
  refine ⟨⟨g.weight, 1 / 2, a, calcDiagnostic exX (exX *ᵥ ![2, 3]) a.betas a.shat⟩, ?_, hb, rfl⟩
  unfold gtwrRun
  rw [hd', Res.bind]
  dsimp only
  rw [hsel, Res.bind]
  simp only [Bool.false_eq_true, if_false]
  rw [show (fun _ : ℕ => false) = NoStop from rfl, ha]
  rfl

example := C104_run (some .CV) false _ _ _ _ st_half _ _ _ _ _ st_select.choose_spec.1 st_select.choose_spec.2.1
  (Or.inr (by rw [st_select.choose_spec.2.2]; norm_num))
example := C104_bandwidth_choice .CV false _ _ _ _ st_half _ _ _ _ _ st_select.choose_spec.1

example (ex : Exec 3) (hex : ex.Valid) := (C104_any_fit ex hex false _ (exST_config (1 / 2)) ⟨1, false, .Gaussian⟩ _ ⟨rfl, rfl⟩ _ _ _ (lineST_spec (1 / 2))
  (usable_fixed (m := 3) (n := 3) one_pos .Gaussian _) (fun i => ⟨1, by simp [IsRadius], fun _ => rfl⟩) exX ![1, 3, 2] true).1
  (fun i => exX_determined _ fun l => Real.exp_pos _)
example (ex : Exec 3) (hex : ex.Valid) := C104_any_run (n := 3) _ _ ex hex false _ (exST_config _) _ _ ⟨rfl, rfl⟩ _ _ _ _ _ _ (ex_gtwrRun ex hex true).choose_spec.choose_spec.1

end Verif.Cases

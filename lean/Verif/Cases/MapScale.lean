import Verif.Props.MapDrawingScale
import Verif.Cases.Ridge
import Verif.Cases.Generalised

/-! # Concrete cases for `Props/MapDrawingScale` -/

namespace Verif.Cases
open Verif Verif.Model Verif.Spec Verif.Props Matrix Classical

/-- A ridge search on a small map stops after its two starting values. -/
theorem ridge_selects (sv : Matrix (Fin 3) (Fin 2) ℝ → ℝ × ℝ) {d : CRSDistance} {M : ℝ} (hM : d.maxDistance = .ok M) (hM0 : 0 < M) (hM1 : M ≤ 1e-4)
    (hval : ∀ bw, 0 < bw → ∃ c, lcrCriterion sv ⟨1, false, 30⟩ d exX sqY ⟨bw, false, .Gaussian⟩ = .ok c ∧ c ≤ 1000) :
    ∃ r b, lcrSelectBandwidth sv ⟨1, false, 30⟩ d ⟨1, false, .Gaussian⟩ exX sqY = .ok r ∧ r.out = .ok b := by
  obtain ⟨g1, g2⟩ := goldenR_bounds
  have p1 : 0 < 0 + goldenR * (M - 0) := by nlinarith
  have p2 : 0 < M - goldenR * (M - 0) := by nlinarith
  set o : Oracle := fun _ b => (true, lcrScore sv ⟨1, false, 30⟩ d exX sqY b) with ho
  obtain ⟨b, hout⟩ : ∃ b, (optimize ⟨1, false, .Gaussian⟩ 0 M o []).out = .ok b := by
    rcases optimize_cases ⟨1, false, .Gaussian⟩ 0 M o [] with ⟨-, he⟩ | ⟨-, -, hf, -, he⟩ | ⟨-, -, -, -, -, he⟩ | ⟨-, -, -, -, he⟩
    · exact ⟨_, by rw [he]⟩
    · obtain ⟨c, hc, hc1⟩ := hval _ p1
      have : (goldenInit ⟨1, false, .Gaussian⟩ 0 M o []).f1 = c := by
        simp only [goldenInit, ho, lcrScore, Bool.false_eq_true, if_false, hc]
      rw [this] at hf
      linarith [thousand_lt_dblMax]
    · exact ⟨_, by rw [he]⟩
    · exact ⟨_, by rw [he]⟩
  obtain ⟨hev, -⟩ := golden_stops ⟨1, false, .Gaussian⟩ 0 M o rfl (fun hcon => by
    have := hcon.1
    rw [sub_zero, abs_of_pos (by nlinarith)] at this
    nlinarith) b (fun _ _ => rfl) hout
  refine ⟨optimize ⟨1, false, .Gaussian⟩ 0 M o [], b, ?_, hout⟩
  unfold lcrSelectBandwidth
  simp only [Bool.false_eq_true, if_false, hM, Res.bind]
  rw [if_pos]
  intro e he
  have hx : e.x ∈ (optimize ⟨1, false, .Gaussian⟩ 0 M o []).evals.map Eval.x := List.mem_map_of_mem he
  rw [hev] at hx
  have : 0 < e.x := by
    rcases List.mem_cons.1 hx with h | h
    · rw [h]; exact p1
    · rw [List.mem_singleton.1 h]; exact p2
  obtain ⟨c, hc, -⟩ := hval _ this
  exact ⟨c, hc⟩

/-- `C147_ridge_selected_distance`: three points 0.00001 apart, the map drawn four times larger, turned and shifted. -/
example (sv : Matrix (Fin 3) (Fin 2) ℝ → ℝ × ℝ) : ∃ z z' r r',
    lcrSelectBandwidth sv ⟨1, false, 30⟩ ⟨false, some (lineCoords 1e-5, lineCoords 1e-5)⟩ ⟨1, false, .Gaussian⟩ exX sqY = .ok r ∧
    lcrSelectBandwidth sv ⟨1, false, 30⟩ ⟨false, some (movedPoints 4 1 5 (-7) (lineCoords 1e-5), movedPoints 4 1 5 (-7) (lineCoords 1e-5))⟩
      ⟨1, false, .Gaussian⟩ exX sqY = .ok r' ∧
    r.out = .ok ⟨z, false, .Gaussian⟩ ∧ r'.out = .ok ⟨z', false, .Gaussian⟩ ∧ |z' / 4 - z| ≤ 0.0002 := by
  obtain ⟨M, hM, hM0, hM1⟩ := tiny_max
  have h4 : (0 : ℝ) < 4 := by norm_num
  have hval : ∀ bw, 0 < bw → ∃ c, lcrCriterion sv ⟨1, false, 30⟩ ⟨false, some (lineCoords 1e-5, lineCoords 1e-5)⟩ exX sqY ⟨bw, false, .Gaussian⟩ = .ok c ∧
      c ≤ 1000 := fun bw hb => by
    unfold lcrCriterion
    rw [gauss_rows 1e-5 hb, Res.bind]
    exact ridge_cv sv fun i l => gauss_le 1e-5 bw i l
  obtain ⟨r, b, h, hb⟩ := ridge_selects sv hM hM0 (by linarith) hval
  obtain ⟨r', b', h', -⟩ := ridge_selects sv (d := ⟨false, some (movedPoints 4 1 5 (-7) (lineCoords 1e-5), movedPoints 4 1 5 (-7) (lineCoords 1e-5))⟩)
    (M := 4 * M) (by rw [maxDistance_enlarged h4, hM]; rfl) (by linarith) (by linarith) fun bw hbw => by
      obtain ⟨c, hc, hc1⟩ := hval (bw / 4) (by linarith)
      refine ⟨c, ?_, hc1⟩
      have e := weightRows_enlarged h4 1 5 (-7) (lineCoords 1e-5) (lineCoords 1e-5) (b := ⟨1, false, .Gaussian⟩) rfl (bw / 4) 3 3
      rw [mul_div_cancel₀ _ h4.ne'] at e
      unfold lcrCriterion at hc ⊢
      rw [e]
      exact hc
  rcases C147_ridge_selected_distance sv _ ⟨1, false, .Gaussian⟩ rfl _ 4 1 5 (-7) (by norm_num) _ _ r r' h h' with ⟨h0, -⟩ | ⟨z, z', h1, h2, h3⟩
  · rw [h0] at hb; cases hb
  · exact ⟨z, z', r, r', h, h', h1, h2, h3⟩

/-- A search with the same value at both starting points stops there. -/
theorem counts_select (tol : ℝ) {d : CRSDistance} {M v : ℝ} (hM : d.maxDistance = .ok M) (hM0 : 0 < M) (hv : v < dblMax)
    (hval : ∀ bw, 0 < bw → bw < M → ggwrCriterion .Poisson tol 1 .CV d (ones 4) twinY ⟨bw, false, .Boxcar⟩ = .ok v) :
    ∃ r b, ggwrSelectBandwidth .Poisson tol 1 .CV d ⟨1, false, .Boxcar⟩ (ones 4) twinY = .ok r ∧ r.out = .ok b := by
  obtain ⟨g1, g2⟩ := goldenR_bounds
  have p1 : 0 < 0 + goldenR * (M - 0) ∧ 0 + goldenR * (M - 0) < M := by constructor <;> nlinarith
  have p2 : 0 < M - goldenR * (M - 0) ∧ M - goldenR * (M - 0) < M := by constructor <;> nlinarith
  set o : Oracle := fun _ b => (true, ggwrScore .Poisson tol 1 .CV d (ones 4) twinY b) with ho
  have hs : ∀ j bw, 0 < bw → bw < M → o j ⟨bw, false, .Boxcar⟩ = (true, v) := fun j bw h0 h1 => by
    simp only [ho, ggwrScore, hval bw h0 h1]
  obtain ⟨b, hout⟩ : ∃ b, (optimize ⟨1, false, .Boxcar⟩ 0 M o []).out = .ok b := by
    rcases optimize_cases ⟨1, false, .Boxcar⟩ 0 M o [] with ⟨-, he⟩ | ⟨-, -, hf, -, he⟩ | ⟨-, -, -, -, -, he⟩ | ⟨-, -, -, -, he⟩
    · exact ⟨_, by rw [he]⟩
    · have : (goldenInit ⟨1, false, .Boxcar⟩ 0 M o []).f1 = v := by
        have := hs 0 _ p1.1 p1.2
        simp only [goldenInit, Bool.false_eq_true, if_false]
        rw [this]
      rw [this] at hf
      linarith
    · exact ⟨_, by rw [he]⟩
    · exact ⟨_, by rw [he]⟩
  obtain ⟨hev, -⟩ := golden_stops ⟨1, false, .Boxcar⟩ 0 M o rfl (fun hcon => by
    have h2 := hcon.2
    simp only at h2
    rw [hs 1 _ p2.1 p2.2, hs 0 _ p1.1 p1.2] at h2
    norm_num at h2) b (fun _ _ => rfl) hout
  refine ⟨optimize ⟨1, false, .Boxcar⟩ 0 M o [], b, ?_, hout⟩
  unfold ggwrSelectBandwidth
  simp only [Bool.false_eq_true, if_false, hM, Res.bind]
  rw [if_pos]
  intro e he
  have hx : e.x ∈ (optimize ⟨1, false, .Boxcar⟩ 0 M o []).evals.map Eval.x := List.mem_map_of_mem he
  rw [hev] at hx
  refine ⟨v, ?_⟩
  rcases List.mem_cons.1 hx with h | h
  · rw [h]; exact hval _ p1.1 p1.2
  · rw [List.mem_singleton.1 h]; exact hval _ p2.1 p2.2

/-- `C147_generalised_selected_distance`: two pairs of places with counts, the map drawn a thousand times larger, turned and shifted. -/
example (tol : ℝ) : ∃ z z' r r',
    ggwrSelectBandwidth .Poisson tol 1 .CV ⟨false, some (twinCoords, twinCoords)⟩ ⟨1, false, .Boxcar⟩ (ones 4) twinY = .ok r ∧
    ggwrSelectBandwidth .Poisson tol 1 .CV ⟨false, some (movedPoints 1000 1 5 (-7) twinCoords, movedPoints 1000 1 5 (-7) twinCoords)⟩ ⟨1, false, .Boxcar⟩
      (ones 4) twinY = .ok r' ∧
    r.out = .ok ⟨z, false, .Boxcar⟩ ∧ r'.out = .ok ⟨z', false, .Boxcar⟩ ∧ |z' / 1000 - z| ≤ 0.0002 := by
  obtain ⟨v, hv⟩ := twin_cv_ok tol
  have hsm := twin_cv_small (cv_score one_pos twinW_nonneg hv)
  have h4 : (0 : ℝ) < 1000 := by norm_num
  have hval : ∀ bw, 0 < bw → bw < 1 → ggwrCriterion .Poisson tol 1 .CV ⟨false, some (twinCoords, twinCoords)⟩ (ones 4) twinY ⟨bw, false, .Boxcar⟩ = .ok v :=
    fun bw h0 h1 => by
      unfold ggwrCriterion
      rw [twin_weights h0 h1, Res.bind]
      exact hv
  obtain ⟨r, b, h, hb⟩ := counts_select tol twin_max one_pos hsm hval
  obtain ⟨r', b', h', -⟩ := counts_select tol (d := ⟨false, some (movedPoints 1000 1 5 (-7) twinCoords, movedPoints 1000 1 5 (-7) twinCoords)⟩)
    (M := 1000 * 1) (by rw [maxDistance_enlarged h4, twin_max]; rfl) (by norm_num) hsm fun bw h0 h1 => by
      have hc := hval (bw / 1000) (by linarith) (by linarith)
      have e := weightRows_enlarged h4 1 5 (-7) twinCoords twinCoords (b := ⟨1, false, .Boxcar⟩) rfl (bw / 1000) 4 4
      rw [mul_div_cancel₀ _ h4.ne'] at e
      unfold ggwrCriterion at hc ⊢
      rw [e]
      exact hc
  rcases C147_generalised_selected_distance .Poisson tol 1 .CV ⟨1, false, .Boxcar⟩ rfl _ 1000 1 5 (-7) (by norm_num) _ _ r r' h h' with
    ⟨h0, -⟩ | ⟨z, z', h1, h2, h3⟩
  · rw [h0] at hb; cases hb
  · exact ⟨z, z', r, r', h, h', h1, h2, h3⟩

end Verif.Cases

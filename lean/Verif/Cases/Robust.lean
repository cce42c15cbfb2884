import Verif.Props.RobustRunGeneral
import Verif.Props.GWRScalableReport
import Verif.Props.GWRSelect
import Verif.Props.Geo
import Verif.Cases.GWRRuns
import Verif.Cases.Generalised

/-! # Concrete cases for the theorems of `Props/GWRRobust`, `RobustRun`, `RobustRunGeneral`, and for single theorems of `Props/GWRDefinition`,
`GWRScalableRun`, `GWRSelect` and `Geo` -/

namespace Verif.Cases
open Verif Verif.Model Verif.Spec Verif.Props Matrix Classical

/-! ## Re-weighting: one outlier among eleven observations -/

theorem eleven_run (filtered : Bool) : ∃ r, robustRun filtered (fun _ => .serial) (CRSDistance.new false) ⟨(11 : ℕ), false, .Boxcar⟩ (linePoints 11)
    (ones 11) (Pi.single 3 1) true = .ok r := by
  obtain ⟨r, -, h, -⟩ := C111_predict_at_data_fails (n := 11) le_rfl 3 filtered true
  exact ⟨r, h⟩

theorem eleven_cali (filtered : Bool) : ∃ W b, robustCali filtered (fun _ => .serial) (ones 11) (Pi.single 3 1) W true = .ok b := by
  obtain ⟨r, h⟩ := eleven_run filtered
  obtain ⟨_, -, h⟩ := Res.bind_eq_ok'.1 h
  obtain ⟨W, -, h⟩ := Res.bind_eq_ok'.1 h
  obtain ⟨b, h, -⟩ := Res.bind_eq_ok'.1 h
  exact ⟨W, b, h⟩

theorem eleven_first : ∃ W b, caliFirst (robustFit (ones 11) (Pi.single 3 1) W true) (ones 11) (Pi.single 3 1) = .ok b := eleven_cali true
theorem eleven_second : ∃ W b, caliSecond (robustFit (ones 11) (Pi.single 3 1) W true) (ones 11) (Pi.single 3 1) = .ok b := eleven_cali false

example := C43_weight_function ![0, 5 / 2, 4] 1 one_pos
example := C43_first_method _ _ _ _ _ eleven_first.choose_spec.choose_spec
example := C43_second_method _ _ _ _ _ eleven_second.choose_spec.choose_spec
example := C43_second_method_steps _ _ _ _ _ eleven_second.choose_spec.choose_spec
example := C43_result_is_weighted_least_squares _ _ _ _ _ _ (Or.inl eleven_first.choose_spec.choose_spec)

/-! ## Whole runs -/

theorem line_fit_any (y : Fin 3 → ℝ) (W : Fin 3 → Fin 3 → ℝ) (hW : ∀ i l, 0 < W i l) (sS sC : Bool) :
    ∃ a, fitCoreSerial exX y W 0 3 sS sC NoStop = .ok (a, false) :=
  (C21_fit_succeeds_iff exX y W (fun i l => (hW i l).le) sS sC).1.2 fun i => exX_determined _ (hW i)

/-- The weights of two neighbours. -/
theorem two_neighbours : ∃ W, weightRows ⟨false, some (lineCoords 2, lineCoords 2)⟩ ⟨2, true, .Gaussian⟩ 3 3 = .ok W ∧ ∀ i l, 0 < W i l := by
  obtain ⟨W, h1, hW, -⟩ := kernelRows (m := 3) (n := 3) rfl rfl (line_mapDistance 2)
    (b := ⟨2, true, .Gaussian⟩) ⟨fun _ => by norm_num, fun i r hr => (line_radius i r hr) ▸ two_pos⟩ (by norm_num)
  refine ⟨W, h1, fun i l => ?_⟩
  obtain ⟨r, -, e⟩ := hW i
  rw [e]
  exact Real.exp_pos _

theorem line_kth (i : Fin 3) (r : ℝ) (h : IsKthSmallest (fun l : Fin 3 => plane ((lineCoords 2).val i) ((lineCoords 2).val l)) 2 r) : 0 < r := by
  simp only [← euclid_eq_plane, line_dist] at h
  exact two_pos.trans_le (kth_ge (line_apart i) le_rfl h)

theorem robust_adaptive : ∃ r, robustRun true (fun _ => .serial) ⟨false, none⟩ ⟨(2 : ℕ), true, .Gaussian⟩ (lineCoords 2) exX (exX *ᵥ ![2, 3]) true = .ok r := by
  obtain ⟨W, h1, hp⟩ := two_neighbours
  obtain ⟨a, ha⟩ := line_fit_any (exX *ᵥ ![2, 3]) W hp true false
  obtain ⟨r, hr⟩ := robust_of_exact h1 (fun i l => (hp i l).le) ha
  refine ⟨r, ?_⟩
  unfold robustRun
  rw [bindLocations_eq_ok.2 ⟨rfl, rfl, rfl⟩, Res.bind]
  exact_mod_cast hr

example := C110_adaptive_fit true (fun _ => .serial) (fun _ => trivial) none .Gaussian 2 (by norm_num) (by norm_num) (by norm_num) (lineCoords 2) _ _ true
  line_kth _ robust_adaptive.choose_spec
example := C110_bandwidth_choice .CV true (fun _ => .serial) (fun _ => trivial) none .Gaussian 1 _ _ _ true _ ex_robustAuto.choose_spec
example := C110_any_choice .CV true (fun _ => .serial) (fun _ => trivial) false none _ _ line_fits _ lineDist_map _ _ true _ ex_robustAuto.choose_spec

theorem robust_line : ∃ r, robustRun true (fun _ => .serial) ⟨false, none⟩ ⟨1, false, .Gaussian⟩ (lineCoords 1) exX (exX *ᵥ ![2, 3]) true = .ok r := by
  obtain ⟨W, h1, hW, -⟩ := kernelRows (show (lineCoords 1).nRows = 3 from rfl) (show (lineCoords 1).nRows = 3 from rfl) lineDist_map (line_usable 1 one_pos) id
  have hp : ∀ i l, 0 < W i l := fun i l => by
    obtain ⟨r, -, e⟩ := hW i
    rw [e]
    exact Real.exp_pos _
  obtain ⟨a, ha⟩ := line_fit_any (exX *ᵥ ![2, 3]) W hp true false
  obtain ⟨r, hr⟩ := robust_of_exact h1 (fun i l => (hp i l).le) ha
  refine ⟨r, ?_⟩
  unfold robustRun
  rw [bindLocations_eq_ok.2 ⟨rfl, rfl, rfl⟩, Res.bind]
  exact hr

example := C110_any_fit true (fun _ => .serial) (fun _ => trivial) false none _ _ line_fits _ _ lineDist_map (line_usable 1 one_pos) (lineW_kernel 1 one_pos)
  _ _ true _ robust_line.choose_spec

/-- No observation is an outlier when the covariates explain the response completely, so the robust weights are 1 and prediction at the data gives the
coefficients of the fit. -/
example : ∃ r B, robustRun true (fun _ => .serial) ⟨false, none⟩ ⟨1, false, .Gaussian⟩ (lineCoords 1) exX (exX *ᵥ ![2, 3]) true = .ok r ∧
    robustPredict ⟨false, none⟩ ⟨1, false, .Gaussian⟩ (lineCoords 1) (lineCoords 1) 3 exX (exX *ᵥ ![2, 3]) = .ok (B, false) ∧ B = r.betas := by
  obtain ⟨r, h⟩ := robust_line
  obtain ⟨B, hB⟩ := gauss_predict (m := 3) (lineCoords 1) rfl rfl (exX *ᵥ ![2, 3])
  obtain ⟨mask, C, hf⟩ := C110_fit true (fun _ => .serial) (fun _ => trivial) none .Gaussian 1 one_pos (lineCoords 1) exX _ true r h
  refine ⟨r, B, h, hB, C111_predict_at_data_partial true none .Gaussian 1 one_pos (lineCoords 1) exX _ r mask C hf (fun l => ?_) B hB⟩
  have hm := hf.method
  rw [if_pos rfl] at hm
  obtain ⟨B₀, C₀, h1, h2, -⟩ := hm
  have h0 : ∀ i l : Fin 3, 0 ≤ kernelFormula .Gaussian 1 (plane ((lineCoords 1).val i) ((lineCoords 1).val l)) := fun i l => (Real.exp_pos _).le
  have hb : ∀ i, B₀ i = ![2, 3] := fun i =>
    wls_unique (h1.coefficients i) (wls_exact (h0 i) (wls_determined (h0 i) (h1.coefficients i)) _)
  have hres : residualAt exX (exX *ᵥ ![2, 3]) B₀ l = 0 := by
    unfold residualAt
    rw [hb]
    simp [mulVec, dotProduct]
  rw [h2]
  unfold outlierWeight
  rw [hres, abs_zero, if_neg (not_lt.2 (by positivity))]

/-! ## Single theorems -/

theorem gauss_adaptive : ∃ B : Matrix (Fin 3) (Fin 2) ℝ, gwrPredict ⟨false, none⟩ ⟨(2 : ℕ), true, .Gaussian⟩ (lineCoords 2) (lineCoords 2) 3 exX ![1, 3, 2]
    NoStop = .ok (B, false) := by
  obtain ⟨W, h1, hp⟩ := two_neighbours
  obtain ⟨B, hB⟩ := line_predict_ok ![1, 3, 2] W hp
  refine ⟨B, ?_⟩
  unfold gwrPredict
  rw [bindLocations_eq_ok.2 ⟨rfl, rfl, rfl⟩, Res.bind]
  dsimp only
  rw [Nat.cast_ofNat, h1, Res.bind, hB]

example := C98_adaptive_prediction_is_gwr none .Gaussian 2 (by norm_num) (by norm_num) (by norm_num) (lineCoords 2) (lineCoords 2) exX ![1, 3, 2] NoStop
  line_kth _ gauss_adaptive.choose_spec
example := C101_basic_prediction_pointwise _ _ _ _ _ _ _ _ _ _ _
  (gauss_predict (m := 3) (lineCoords 1) rfl rfl ![1, 3, 2]).choose_spec
  (gauss_predict (m := 1) ⟨1, 2, fun _ k => if k = 0 then 1 else 0⟩ rfl rfl ![1, 3, 2]).choose_spec 1 0 (by simp [lineCoords]) (by simp [lineCoords])

theorem search_fit : ∃ b a, gwrAutoFit .CV (CRSDistance.new false) ⟨50, false, .Boxcar⟩ (some 100) (some 200) (lineCoords 10) exX (exX *ᵥ ![2, 3]) true true =
    .ok (b, a) := by
  obtain ⟨d', r, b, h1, h2, h3⟩ := ex_search
  obtain ⟨⟨a, -, ha⟩, -⟩ := C57_selected_bandwidth_fits .CV _ _ b _ _ _ _ _ true true d' r h1 h2 h3
  exact ⟨b, a, ha⟩

example := C98_bandwidth_choice .CV none .Boxcar 50 _ _ _ _ _ true true _ _ search_fit.choose_spec.choose_spec
example := C102_selection_ignores_bandwidth someSort 0 ⟨false, some (selCoords, selCoords)⟩ .Boxcar false 11 3 selX selY true
example := C55_geo_finite_iff (fun k => if k = 0 then 0 else 45) (fun k => if k = 0 then 90 else 45) (by norm_num [abs_of_nonpos])

end Verif.Cases

import Verif.Props.GWRRidgeRun
import Verif.Props.SearchRange
import Verif.Props.RidgeRunGeneral
import Verif.Cases.Robust

/-! # Concrete cases for the theorems of `Props/GWRLocalCollinearity` and `Props/GWRRidgeRun` -/

namespace Verif.Cases
open Verif Verif.Model Verif.Spec Verif.Props Matrix Classical

/-- The response 0, 1, 4 at the three points of the line. -/
def sqY : Fin 3 → ℝ := fun l => (l.val : ℝ) ^ 2

/-! ## Condition numbers -/

theorem scaled_line : lcrScaled exX (fun _ => 1) = .ok (unitColumns exX fun _ => 1) := by
  obtain ⟨a, ha⟩ : ∃ a, lcrScaled exX (fun _ => 1) = .ok a := by
    unfold lcrScaled
    rw [if_neg (by push Not; exact exX_column fun _ => one_pos)]
    exact ⟨_, rfl⟩
  rw [ha, lcrScaled_unit ha]

theorem someSV : ∃ sv : Matrix (Fin 3) (Fin 2) ℝ → ℝ × ℝ, ExactSV sv := exactSV_exists two_pos

example := C38_lambda two_pos scaled_line (someSV.choose_spec _).1 (someSV.choose_spec _).2 (show (1 : ℝ) < 30 by norm_num) 0 true
example := C38_small_threshold (show (0 : ℝ) < 1 by norm_num) (show (1 : ℝ) < 2 by norm_num) (thresh := 1) 0

/-! ## One location -/

theorem one_ridge (y w : Fin 3 → ℝ) (hw : ∀ l, 0 < w l) (h0 : y 0 = 0) (h1 : y 1 ≠ 0) : ∃ b, ridgelm exX y w 1 = .ok b :=
  C70_exists exX y w one_pos le_rfl (fun l => (hw l).le) exX_scale (stddev_ne_zero (a := 0) (b := 1) (by
    rw [h0, zero_mul]
    exact (mul_ne_zero h1 (Real.sqrt_pos.2 (hw 1)).ne').symm))

example := C70_ridge _ _ _ zero_le_one (one_ridge ![0, 1, 4] ![1, 1 / 2, 1 / 4] (by intro l; fin_cases l <;> norm_num) rfl (by norm_num)).choose_spec

theorem zero_ridge : ∃ b, ridgelm exX sqY ![1, 1 / 2, 1 / 4] 0 = .ok b := by
  have hw : ∀ l, (0 : ℝ) < ![1, 1 / 2, 1 / 4] l := by intro l; fin_cases l <;> norm_num
  unfold ridgelm
  rw [if_neg (by norm_num), if_neg (by push Not; exact fun l => (hw l).le), if_neg (by push Not; exact exX_scale)]
  dsimp only
  rw [if_neg (stddev_ne_zero (a := 0) (b := 1) (by
    have : Real.sqrt (1 / 2) ≠ 0 := (Real.sqrt_pos.2 (by norm_num)).ne'
    simpa [sqY] using this.symm))]
  have hp : IsUnit ((Matrix.of fun l j => exX l j * Real.sqrt (![1, 1 / 2, 1 / 4] l) / ridgeScale exX j)ᵀ *
      (Matrix.of fun l j => exX l j * Real.sqrt (![1, 1 / 2, 1 / 4] l) / ridgeScale exX j) + (0 : ℝ) • (1 : Matrix (Fin 2) (Fin 2) ℝ)).det := by
    rw [zero_smul, add_zero]
    refine (isUnit_iff_isUnit_det _).1 (Matrix.PosDef.isUnit ?_)
    rw [← Matrix.conjTranspose_eq_transpose_of_trivial]
    refine Matrix.PosDef.conjTranspose_mul_self _ fun a b hab => ?_
    have e0 := congrFun hab 0
    have e1 := congrFun hab 1
    have s0 : ridgeScale exX 0 = 1 := by simp [ridgeScale]
    have s1 := exX_scale 1
    simp only [mulVec, dotProduct, of_apply, Fin.sum_univ_two, s0] at e0 e1
    generalize ridgeScale exX 1 = s at e0 e1 s1
    have f0 : a 0 = b 0 := by simpa [exX] using e0
    rw [f0] at e1
    have f1 := add_left_cancel e1
    funext j
    fin_cases j
    · exact f0
    · refine mul_left_cancel₀ ?_ f1
      simpa [exX] using s1
  simp only [Res.bind, invGeneral, hp, if_true]
  exact ⟨_, rfl⟩

example := C70_zero_is_wls _ _ _ zero_ridge.choose_spec
example := C70_exists exX sqY (fun _ => 1) one_pos le_rfl (fun _ => zero_le_one) exX_scale (stddev_ne_zero (a := 0) (b := 1) (by simp [sqY]))

theorem half_pos' (i l : Fin 3) : (0 : ℝ) < if l = i then 1 else 1 / 2 := by split <;> norm_num

theorem half_hat : ∃ h, lcrHatRow exX (fun l => if l = 1 then 1 else 1 / 2) 1 = .ok h := by
  have hp := (gram_posDef_iff_determined exX _ fun l => (half_pos' 1 l).le).2 (exX_determined _ (half_pos' 1))
  have hu : IsUnit (xtwx exX fun l => if l = 1 then 1 else 1 / 2).det := (isUnit_iff_isUnit_det _).1 hp.isUnit
  simp only [lcrHatRow, Res.bind, invGeneral, hu, if_true]
  exact ⟨_, rfl⟩

example := C71_leverage_too_large exX sqY (fun l => if l = 1 then 1 else 1 / 2) one_pos 1 (if_pos rfl)
  (fun h => by have := congrFun h 0; norm_num [exX] at this)
  (one_ridge sqY _ (half_pos' 1) (by simp [sqY]) (by simp [sqY])).choose_spec
  (one_ridge (Function.update sqY 1 (sqY 1 + 1)) _ (half_pos' 1) (by simp [sqY]) (by norm_num [sqY])).choose_spec half_hat.choose_spec
example (sv : Matrix (Fin 3) (Fin 2) ℝ → ℝ × ℝ) := C71_collinear_fit_fails sv ⟨1, true, 30⟩ (fun l j => ((j.val : ℝ) + 1) * ((l.val : ℝ) + 1)) sqY
  (fun _ _ => 1) (fun _ _ => zero_le_one) 0 0 fun h => by
    have := h ![2, -1] (fun l _ => by simp [Fin.sum_univ_two]; ring)
    simpa using congrFun this 0

/-! ## All locations -/

theorem ridge_pred (sv : Matrix (Fin 3) (Fin 2) ℝ → ℝ × ℝ) (W : Fin 3 → Fin 3 → ℝ) (hW : ∀ i l, 0 < W i l) :
    ∃ b, lcrPredictSerial sv ⟨1, false, 30⟩ exX sqY W NoStop = .ok (b, false) := by
  obtain ⟨r, h⟩ := ex_lcr_pos sv 1 one_pos W hW
  exact ⟨_, C73_predict_eq_fit sv _ _ _ _ 0 h⟩

/-- Each thread takes every second iteration. -/
example (sv : Matrix (Fin 3) (Fin 2) ℝ → ℝ × ℝ) := C39_lcr_parallel_repeatable sv _ _ _ _ (ex_lcr sv 1 one_pos).choose_spec twoThreads' 7
example (sv : Matrix (Fin 3) (Fin 2) ℝ → ℝ × ℝ) := C72_parallel_predict_dies sv ⟨1, false, 30⟩ exX sqY exW (by norm_num) twoThreads'
example (sv : Matrix (Fin 3) (Fin 2) ℝ → ℝ × ℝ) := C73_predict_rows sv _ _ _ _ (ridge_pred sv exW exW_pos).choose_spec
example (sv : Matrix (Fin 3) (Fin 2) ℝ → ℝ × ℝ) := C73_predict_eq_fit sv _ _ _ _ 0 (ex_lcr sv 1 one_pos).choose_spec
example (sv : Matrix (Fin 3) (Fin 2) ℝ → ℝ × ℝ) := C73_own_response_unused sv ⟨1, false, 30⟩ exX ![0, 1, 4] ![0, 7, 4] exW 1
  (by intro l h; fin_cases l <;> simp at h ⊢)

/-- With ridge parameter 1 the coefficients left by any two of the three observations are bounded. -/
theorem ridge_small {w : Fin 3 → ℝ} (hw : ∀ l, 0 ≤ w l ∧ w l ≤ 1) {b : Fin 2 → ℝ} (h : ridgelm exX sqY w 1 = .ok b) : b 0 ^ 2 + b 1 ^ 2 ≤ 17 := by
  obtain ⟨s, h0, h1, hmin⟩ := C70_ridge exX sqY w zero_le_one h
  have e0 := h0 0 rfl
  have e1 : s 1 ^ 2 = 1 := by
    have := (h1 1 (by norm_num)).2.2
    simp [Fin.sum_univ_three, exX] at this
    norm_num at this
    rcases this with e | e <;> rw [e] <;> norm_num
  have hle : ridgeObjective exX sqY w s 1 b ≤ ridgeObjective exX sqY w s 1 0 := by
    by_cases hb : (0 : Fin 2 → ℝ) = b
    · rw [hb]
    · exact (hmin 0 hb).le
  have hz : ridgeObjective exX sqY w s 1 0 ≤ 17 := by
    simp [ridgeObjective, wss, Fin.sum_univ_three, sqY]
    have := hw 1
    have := hw 2
    norm_num
    linarith
  have hp : b 0 ^ 2 + b 1 ^ 2 ≤ ridgeObjective exX sqY w s 1 b := by
    unfold ridgeObjective
    have : 0 ≤ wss exX sqY w b := Finset.sum_nonneg fun l _ => mul_nonneg (hw l).1 (sq_nonneg _)
    rw [Fin.sum_univ_two, mul_pow, mul_pow, e0, e1]
    linarith
  linarith

theorem cv_nonneg {W : Fin 3 → Fin 3 → ℝ} (hW : ∀ i l, 0 < W i l ∧ W i l ≤ 1) (i l : Fin 3) : 0 ≤ cvWeight W i l ∧ cvWeight W i l ≤ 1 := by
  unfold cvWeight
  by_cases h : l = i
  · subst h; simp
  · rw [Function.update_of_ne h]; exact ⟨(hW i l).1.le, (hW i l).2⟩

theorem ridge_left_out (sv : Matrix (Fin 3) (Fin 2) ℝ → ℝ × ℝ) {W : Fin 3 → Fin 3 → ℝ} (hW : ∀ i l, 0 < W i l ∧ W i l ≤ 1) (i : Fin 3) :
    ∃ b, lcrBeta sv ⟨1, false, 30⟩ exX sqY (cvWeight W i) = .ok b ∧ b 0 ^ 2 + b 1 ^ 2 ≤ 17 := by
  -- one of the observations 1 and 2 stays in
  obtain ⟨a, ha0, hai⟩ : ∃ a : Fin 3, a ≠ 0 ∧ a ≠ i := by
    by_cases h : i = 1
    · exact ⟨2, by decide, by rw [h]; decide⟩
    · exact ⟨1, by decide, fun e => h e.symm⟩
  have hpos : 0 < cvWeight W i a := by
    unfold cvWeight
    rw [Function.update_of_ne hai]
    exact (hW i a).1
  have hv : (0 : ℝ) < a.val := by
    have : 0 < a.val := Nat.pos_of_ne_zero fun h => ha0 (Fin.ext h)
    exact_mod_cast this
  obtain ⟨b, hb⟩ := C70_exists exX sqY (cvWeight W i) one_pos le_rfl (fun l => (cv_nonneg hW i l).1) exX_scale
    (stddev_ne_zero (a := 0) (b := a) (by
      have := Real.sqrt_pos.2 hpos
      have e : sqY 0 = 0 := by simp [sqY]
      rw [e, zero_mul]
      exact (mul_pos (pow_pos hv 2) this).ne))
  refine ⟨b, ?_, ridge_small (cv_nonneg hW i) hb⟩
  have hcol : ∀ j, ∑ l, lcrWeighted exX (cvWeight W i) l j * lcrWeighted exX (cvWeight W i) l j ≠ 0 := fun j => by
    have hx : exX a j ≠ 0 := by fin_cases a <;> fin_cases j <;> simp [exX] at ha0 ⊢
    have : lcrWeighted exX (cvWeight W i) a j ≠ 0 := mul_ne_zero hx hpos.ne'
    have hs : 0 < ∑ l, lcrWeighted exX (cvWeight W i) l j * lcrWeighted exX (cvWeight W i) l j :=
      Finset.sum_pos' (fun l _ => mul_self_nonneg _) ⟨a, Finset.mem_univ _, mul_self_pos.2 this⟩
    exact hs.ne'
  unfold lcrBeta lcrScaled
  rw [if_neg (by norm_num), if_neg (by push Not; exact hcol)]
  simp only [Res.bind, lcrLambda, Bool.false_eq_true, false_and, if_false, hb]
  rw [if_neg (by norm_num)]

theorem ridge_cv (sv : Matrix (Fin 3) (Fin 2) ℝ → ℝ × ℝ) {W : Fin 3 → Fin 3 → ℝ} (hW : ∀ i l, 0 < W i l ∧ W i l ≤ 1) :
    ∃ c, lcrCriterionCV sv ⟨1, false, 30⟩ exX sqY W NoStop = .ok c ∧ c ≤ 1000 := by
  choose f hf hs using ridge_left_out sv hW
  obtain ⟨c, hc⟩ : ∃ c, lcrCriterionCV sv ⟨1, false, 30⟩ exX sqY W NoStop = .ok c := by
    unfold lcrCriterionCV
    rw [serialFor_ok f _ _ _ (fun _ _ => rfl) fun i _ => hf i]
    exact ⟨_, rfl⟩
  refine ⟨c, hc, ?_⟩
  obtain ⟨b, hb, rfl⟩ := C73_score sv _ _ _ _ hc
  refine (min_le_left _ _).trans ?_
  have e : ∀ i, b i = f i := fun i => by
    have := hb i
    rw [hf i] at this
    exact (Res.ok.inj this).symm
  have k0 := hs 0
  have k1 := hs 1
  have k2 := hs 2
  simp only [e, Fin.sum_univ_three, Fin.sum_univ_two]
  rw [show exX 0 0 = 1 from rfl, show exX 0 1 = 0 from rfl, show exX 1 0 = 1 from rfl, show exX 1 1 = 1 from rfl, show exX 2 0 = 1 from rfl,
    show exX 2 1 = 2 from rfl, show sqY 0 = 0 by simp [sqY], show sqY 1 = 1 by simp [sqY], show sqY 2 = 4 by norm_num [sqY]]
  nlinarith [sq_nonneg (f 0 0), sq_nonneg (f 0 1), sq_nonneg (f 1 0 - f 1 1), sq_nonneg (f 2 0 - 2 * f 2 1), sq_nonneg (f 1 0 + f 1 1 + 1),
    sq_nonneg (f 2 0 + f 2 1 * 2 + 4), sq_nonneg (f 1 0), sq_nonneg (f 1 1), sq_nonneg (f 2 0), sq_nonneg (f 2 1)]

example (sv : Matrix (Fin 3) (Fin 2) ℝ → ℝ × ℝ) := C73_score sv _ _ _ _
  (ridge_cv sv (W := fun i l => if l = i then 1 else 1 / 2) fun i l => ⟨half_pos' i l, by split <;> norm_num⟩).choose_spec.1

/-! ## Whole runs -/

theorem gauss_le (D bw : ℝ) (i l : Fin 3) : 0 < kernelFormula .Gaussian bw (plane ((lineCoords D).val i) ((lineCoords D).val l)) ∧
    kernelFormula .Gaussian bw (plane ((lineCoords D).val i) ((lineCoords D).val l)) ≤ 1 := by
  refine ⟨Real.exp_pos _, Real.exp_le_one_iff.2 ?_⟩
  have : 0 ≤ (plane ((lineCoords D).val i) ((lineCoords D).val l) / bw) ^ 2 := sq_nonneg _
  linarith

theorem gauss_rows (D : ℝ) {bw : ℝ} (hb : 0 < bw) : weightRows ⟨false, some (lineCoords D, lineCoords D)⟩ ⟨bw, false, .Gaussian⟩ 3 3 =
    .ok (fun i l : Fin 3 => kernelFormula .Gaussian bw (plane ((lineCoords D).val i) ((lineCoords D).val l))) :=
  (weights_fixed hb).2 fun i => ⟨i.isLt, rfl, rfl⟩

theorem ridge_of_rows (sv : Matrix (Fin 3) (Fin 2) ℝ → ℝ × ℝ) {W : Fin 3 → Fin 3 → ℝ} (hW : ∀ i l, 0 < W i l) :
    ∃ r, lcrFit (lcrFitSerial sv ⟨1, false, 30⟩ exX sqY W fun _ => false) exX sqY 0 = .ok r := by
  obtain ⟨q, hq⟩ := ex_lcr_pos sv 1 one_pos W hW
  have hq' : lcrFitSerial sv ⟨1, false, 30⟩ exX sqY W (fun _ => false) 0 = .ok (q, false) := hq
  unfold lcrFit
  rw [hq']
  exact ⟨_, rfl⟩

theorem ridge_adaptive (sv : Matrix (Fin 3) (Fin 2) ℝ → ℝ × ℝ) :
    ∃ r, lcrRun sv ⟨1, false, 30⟩ ⟨false, none⟩ ⟨(2 : ℕ), true, .Gaussian⟩ (lineCoords 2) exX sqY = .ok r := by
  obtain ⟨W, h1, hp⟩ := two_neighbours
  obtain ⟨r, hr⟩ := ridge_of_rows sv hp
  refine ⟨r, ?_⟩
  unfold lcrRun
  rw [bindLocations_eq_ok.2 ⟨rfl, rfl, rfl⟩, Res.bind, Nat.cast_ofNat]
  dsimp only
  rw [h1, Res.bind, hr]

theorem ridge_line (sv : Matrix (Fin 3) (Fin 2) ℝ → ℝ × ℝ) :
    ∃ r, lcrRun sv ⟨1, false, 30⟩ ⟨false, none⟩ ⟨1, false, .Gaussian⟩ (lineCoords 2) exX sqY = .ok r := by
  obtain ⟨r, hr⟩ := ridge_of_rows sv fun i l => (gauss_le 2 1 i l).1
  refine ⟨r, ?_⟩
  unfold lcrRun
  rw [bindLocations_eq_ok.2 ⟨rfl, rfl, rfl⟩, Res.bind]
  dsimp only
  rw [gauss_rows 2 one_pos, Res.bind, hr]

theorem ridge_predict (sv : Matrix (Fin 3) (Fin 2) ℝ → ℝ × ℝ) :
    ∃ b, lcrPredictRun sv ⟨1, false, 30⟩ ⟨false, none⟩ ⟨1, false, .Gaussian⟩ (lineCoords 2) (lineCoords 2) 3 exX sqY = .ok (b, false) := by
  obtain ⟨b, hb⟩ := ridge_pred sv _ fun i l => (gauss_le 2 1 i l).1
  refine ⟨b, ?_⟩
  unfold lcrPredictRun
  rw [bindLocations_eq_ok.2 ⟨rfl, rfl, rfl⟩, Res.bind]
  dsimp only
  rw [gauss_rows 2 one_pos, Res.bind, ← hb]

theorem thousand_lt_dblMax : (1000 : ℝ) < dblMax := by
  unfold dblMax
  have h2 : (2 : ℝ) ^ 10 ≤ 2 ^ 1023 := pow_le_pow_right₀ (by norm_num) (by norm_num)
  have h3 : (2⁻¹ : ℝ) ^ 52 ≤ 1 := pow_le_one₀ (by norm_num) (by norm_num)
  have h4 : (1000 : ℝ) < 2 ^ 10 := by norm_num
  generalize (2 : ℝ) ^ 1023 = z at h2 ⊢
  generalize (2⁻¹ : ℝ) ^ 52 = y at h3 ⊢
  nlinarith

theorem tiny_max : ∃ M, (⟨false, some (lineCoords 1e-5, lineCoords 1e-5)⟩ : CRSDistance).maxDistance = .ok M ∧ 0 < M ∧ M ≤ 2e-5 := by
  have hp : ∀ i j : ℕ, plane ((lineCoords 1e-5).val i) ((lineCoords 1e-5).val j) = 1e-5 * |(j : ℝ) - i| := fun i j => by
    rw [← euclid_eq_plane, line_dist, abs_of_pos (by norm_num)]
  have hle : ∀ i j : ℕ, i < 3 → j < 3 → euclid ((lineCoords 1e-5).val i) ((lineCoords 1e-5).val j) ≤ 2e-5 := fun i j hi hj => by
    rw [euclid_eq_plane, hp]
    have h1 : |(j : ℝ) - i| ≤ 2 := by
      have hi : (i : ℝ) ≤ 2 := by exact_mod_cast Nat.lt_succ_iff.1 hi
      have hj : (j : ℝ) ≤ 2 := by exact_mod_cast Nat.lt_succ_iff.1 hj
      have hi0 : (0 : ℝ) ≤ i := Nat.cast_nonneg _
      have hj0 : (0 : ℝ) ≤ j := Nat.cast_nonneg _
      rw [abs_le]; constructor <;> linarith
    linarith
  obtain ⟨M, _, hM, -, h1, ⟨i, l, hl, hMl⟩, -⟩ := C08_max_min_sharp (lineCoords 1e-5) (lineCoords 1e-5) (by decide) (by decide) fun i hi j hj =>
    (hle i j hi hj).trans (by linarith [hundred_lt_dblMax])
  refine ⟨M, hM, ?_, ?_⟩
  · have := (h1 0 _ (by simp only [CRSDistance.distance]; rw [if_pos (by decide), crsDistRow_planar]) (euclid ((lineCoords 1e-5).val 0)
      ((lineCoords 1e-5).val 1)) (List.mem_map.2 ⟨1, by simp [lineCoords], rfl⟩)).2
    rw [euclid_eq_plane, hp] at this
    norm_num at this
    linarith
  · simp only [CRSDistance.distance] at hl
    by_cases hi : i < (lineCoords 1e-5).nRows
    · rw [if_pos hi, crsDistRow_planar] at hl
      cases Res.ok.inj hl
      obtain ⟨j, hj, rfl⟩ := List.mem_map.1 hMl
      exact hle i j hi (List.mem_range.1 hj)
    · rw [if_neg hi] at hl; cases hl

/-- Points 0.00001 apart: the search stops after its two starting values. -/
theorem ridge_search (sv : Matrix (Fin 3) (Fin 2) ℝ → ℝ × ℝ) : ∃ r b, lcrSelectBandwidth sv ⟨1, false, 30⟩ ⟨false, some (lineCoords 1e-5, lineCoords 1e-5)⟩
    ⟨1, false, .Gaussian⟩ exX sqY = .ok r ∧ r.out = .ok b ∧ 0 < b.mBandwidth ∧ b = ⟨b.mBandwidth, false, .Gaussian⟩ := by
  obtain ⟨M, hM, hM0, hM1⟩ := tiny_max
  obtain ⟨g1, g2⟩ := goldenR_bounds
  have hval : ∀ bw, 0 < bw → ∃ c, lcrCriterion sv ⟨1, false, 30⟩ ⟨false, some (lineCoords 1e-5, lineCoords 1e-5)⟩ exX sqY ⟨bw, false, .Gaussian⟩ = .ok c ∧
      c ≤ 1000 := fun bw hb => by
    unfold lcrCriterion
    rw [gauss_rows 1e-5 hb, Res.bind]
    exact ridge_cv sv fun i l => gauss_le 1e-5 bw i l
  have p1 : 0 < 0 + goldenR * (M - 0) := by nlinarith
  have p2 : 0 < M - goldenR * (M - 0) := by nlinarith
  set o : Oracle := fun _ b => (true, lcrScore sv ⟨1, false, 30⟩ ⟨false, some (lineCoords 1e-5, lineCoords 1e-5)⟩ exX sqY b) with ho
  obtain ⟨b, hout⟩ : ∃ b, (optimize ⟨1, false, .Gaussian⟩ 0 M o []).out = .ok b := by
    rcases optimize_cases ⟨1, false, .Gaussian⟩ 0 M o [] with ⟨-, he⟩ | ⟨-, -, hf, -, he⟩ | ⟨-, -, -, -, -, he⟩ | ⟨-, -, -, -, he⟩
    · exact ⟨_, by rw [he]⟩
    · obtain ⟨c, hc, hc1⟩ := hval _ p1
      have : (goldenInit ⟨1, false, .Gaussian⟩ 0 M o []).f1 = c := by
        simp only [goldenInit, ho, lcrScore, Bool.false_eq_true, if_false, hc]
      rw [this] at hf
      linarith [thousand_lt_dblMax]
    · exact ⟨_, by rw [he]⟩
    · exact ⟨_, by rw [he]⟩
  obtain ⟨hev, hb⟩ := golden_stops ⟨1, false, .Gaussian⟩ 0 M o rfl (fun hcon => by
    have := hcon.1
    rw [sub_zero, abs_of_pos (by nlinarith)] at this
    nlinarith) b (fun _ _ => rfl) hout
  refine ⟨optimize ⟨1, false, .Gaussian⟩ 0 M o [], b, ?_, hout, ?_, ?_⟩
  · unfold lcrSelectBandwidth
    simp only [Bool.false_eq_true, if_false, hM, Res.bind]
    rw [if_pos]
    intro e he
    have hx : e.x ∈ (optimize ⟨1, false, .Gaussian⟩ 0 M o []).evals.map Eval.x := List.mem_map_of_mem he
    rw [hev] at hx
    have : 0 < e.x := by
      rcases List.mem_cons.1 hx with h | h
      · rw [h]; exact p1
      · rw [List.mem_singleton.1 h]; exact p2
    obtain ⟨c, hc, -⟩ := hval _ this
    exact ⟨c, hc⟩
  · rcases hb with h | h <;> rw [h]
    · exact p1
    · exact p2
  · rw [optimize_kind _ _ _ _ _ hout]

theorem ridge_auto (sv : Matrix (Fin 3) (Fin 2) ℝ → ℝ × ℝ) : ∃ b r, lcrAutoRun sv ⟨1, false, 30⟩ ⟨false, none⟩ ⟨1, false, .Gaussian⟩ (lineCoords 1e-5) exX sqY =
    .ok (b, r) ∧ 0 < b.mBandwidth ∧ b = ⟨b.mBandwidth, false, .Gaussian⟩ := by
  obtain ⟨r, b, h1, h2, h3, h4⟩ := ridge_search sv
  obtain ⟨q, hq⟩ := ridge_of_rows sv fun i l => (gauss_le 1e-5 b.mBandwidth i l).1
  refine ⟨b, q, ?_, h3, h4⟩
  unfold lcrAutoRun
  rw [bindLocations_eq_ok.2 ⟨rfl, rfl, rfl⟩, Res.bind]
  dsimp only
  rw [h1, Res.bind, h2, Res.bind, h4, gauss_rows 1e-5 h3, Res.bind]
  rw [hq, Res.bind]

example := C103_adaptive_fit_is_local_ridge _ someSV.choose_spec ⟨1, false, 30⟩ zero_le_one (by norm_num) none .Gaussian 2 (by norm_num) (by norm_num) (by norm_num)
  (lineCoords 2) exX sqY line_kth _ (ridge_adaptive _).choose_spec
example : ∃ sv b r, lcrAutoRun sv ⟨1, false, 30⟩ ⟨false, none⟩ ⟨1, false, .Gaussian⟩ (lineCoords 1e-5) exX sqY = .ok (b, r) ∧ ∀ i : Fin 3,
    IsLocalRidge 1 false 30 exX sqY (fun l => kernelFormula b.mKernel b.mBandwidth (plane ((lineCoords 1e-5).val i) ((lineCoords 1e-5).val l))) (r.betas i) := by
  obtain ⟨sv, hsv⟩ := someSV
  obtain ⟨b, r, h, h0, e⟩ := ridge_auto sv
  exact ⟨sv, b, r, h, C103_auto_fit_is_local_ridge sv hsv ⟨1, false, 30⟩ zero_le_one (by norm_num) none _ b _ _ _ r (by rw [e]) h0 h⟩
example := C103_bandwidth_choice _ someSV.choose_spec ⟨1, false, 30⟩ zero_le_one (by norm_num) none .Gaussian 1 _ (lineCoords 1e-5) (by decide) exX sqY _
  (ridge_auto _).choose_spec.choose_spec.1
example := C103_prediction_is_local_ridge _ someSV.choose_spec ⟨1, false, 30⟩ zero_le_one (by norm_num) none .Gaussian 1 one_pos (lineCoords 2) (lineCoords 2) exX sqY
  _ false (ridge_predict _).choose_spec
example (sv : Matrix (Fin 3) (Fin 2) ℝ → ℝ × ℝ) := C103_diagnostics sv ⟨1, false, 30⟩ none .Gaussian 1 one_pos (lineCoords 2) exX sqY _ (ridge_line sv).choose_spec
example (sv : Matrix (Fin 3) (Fin 2) ℝ → ℝ × ℝ) := C127_ridge_range sv _ false _ (lineCoords 1e-5) ⟨rfl, rfl⟩ (by norm_num) _ (line_mapDistance 1e-5) _ _ _
  (ridge_search sv).choose_spec.choose_spec.1

/-- Two threads, the last place first. -/
noncomputable def exThreads : Exec 3 := .omp (T := 2) (seqEvents (fun i => if i = 0 then 0 else 1) [2, 1, 0])

theorem exThreads_valid : exThreads.Valid := by
  have h := seqEvents_schedule (T := Fin 2) (fun i : Fin 3 => if i = 0 then 0 else 1) [2, 1, 0]
  have hp : ([2, 1, 0] : List (Fin 3)).Perm (List.finRange 3) := by decide
  exact ⟨h.starts.trans hp, h.finishes.trans hp, h.order⟩

/-- A multithreaded run with automatic bandwidth selection completes and reports local ridge estimates. -/
example : ∃ sv b r, lcrAutoRunIn sv ⟨1, false, 30⟩ (fun _ => exThreads) exThreads ⟨false, none⟩ ⟨1, false, .Gaussian⟩ (lineCoords 1e-5) exX sqY = .ok (b, r) ∧
    b.mKernel = .Gaussian ∧ ∀ w, IsKernelWeight b (fun i j : Fin 3 => |(1e-5 : ℝ)| * |(j.val : ℝ) - i.val|) w →
      IsRidgeReport 1 false 30 exX sqY w r := by
  obtain ⟨sv, hsv⟩ := someSV
  obtain ⟨b, r, h, h0, e⟩ := ridge_auto sv
  have h' := ((C103_modes_agree sv ⟨1, false, 30⟩ (fun _ => exThreads) (fun _ => exThreads_valid) exThreads exThreads_valid _ _ _ _ _).2 _).2 h
  obtain ⟨k1, -, -, k2⟩ := C103_any_choice sv hsv ⟨1, false, 30⟩ zero_le_one (by norm_num) (fun _ => exThreads) (fun _ => exThreads_valid) exThreads
    exThreads_valid false none _ b (lineCoords 1e-5) ⟨rfl, rfl⟩ (by norm_num) _ (line_mapDistance 1e-5) exX sqY r h'
  refine ⟨sv, b, r, h', k1, k2 ⟨fun ha => ?_, fun i rad hr => ?_⟩⟩
  · rw [e] at ha; cases ha
  · rw [e] at hr
    have : rad = b.mBandwidth := by simpa [IsRadius] using hr
    rw [this]; exact h0
/-- A multithreaded run with two neighbours. -/
example : ∃ sv r, lcrRunIn sv ⟨1, false, 30⟩ exThreads ⟨false, none⟩ ⟨(2 : ℕ), true, .Gaussian⟩ (lineCoords 2) exX sqY = .ok r ∧
    ∀ w, IsKernelWeight ⟨(2 : ℕ), true, .Gaussian⟩ (fun i j : Fin 3 => |(2 : ℝ)| * |(j.val : ℝ) - i.val|) w →
      IsRidgeReport 1 false 30 exX sqY w r := by
  obtain ⟨sv, hsv⟩ := someSV
  obtain ⟨r, h⟩ := ridge_adaptive sv
  have h' := ((C103_modes_agree sv ⟨1, false, 30⟩ (fun _ => exThreads) (fun _ => exThreads_valid) exThreads exThreads_valid _ _ _ _ _).1 _).2 h
  refine ⟨sv, r, h', fun w hw => C103_any_fit sv hsv ⟨1, false, 30⟩ zero_le_one (by norm_num) exThreads exThreads_valid false none _ (lineCoords 2)
    ⟨rfl, rfl⟩ _ w (line_mapDistance 2) ⟨fun _ => ⟨by norm_num, by norm_num⟩, fun i rad hr => ?_⟩ hw exX sqY r h'⟩
  unfold IsRadius at hr
  rw [if_pos rfl] at hr
  rcases hr with ⟨q, s, t, t', -, -, e, h0, h1, h2, -, e2⟩ | ⟨e, -⟩
  · have hq : q = 2 := by
      have : ((2 : ℕ) : ℝ) = q + s := e
      have a1 : (q : ℝ) < 3 := by push_cast at this; linarith
      have a2 : (1 : ℝ) < q := by push_cast at this; linarith
      have a3 : q < 3 := by exact_mod_cast a1
      have a4 : 1 < q := by exact_mod_cast a2
      omega
    subst hq
    have hs : s = 0 := by
      have : ((2 : ℕ) : ℝ) = (2 : ℕ) + s := e
      linarith
    rw [e2, hs, sub_zero, one_mul, zero_mul, add_zero]
    refine line_kth i t ?_
    simp only [← euclid_eq_plane, line_dist]
    exact h2
  · norm_num at e

end Verif.Cases

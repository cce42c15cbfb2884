import Verif.Props.GWDARun

/-! # Concrete cases for the theorems of `Props/GWDA` and `Props/GWDARun` -/

namespace Verif.Cases
open Verif Verif.Model Verif.Spec Verif.Props Matrix Classical

/-! ## Classes, groups and entropy -/

example := C45_partition (daX 1 20) daY

theorem thirds : shannonEntropy (fun _ : Fin 3 => (1 / 3 : ℝ)) = .ok (entropyBits fun _ : Fin 3 => (1 / 3 : ℝ)) :=
  C45_entropy_formula (by norm_num) _ (fun _ => by norm_num) (by norm_num)

example := C45_entropy _ _ thirds
example := C45_entropy_formula (show (3 : ℕ) ≠ 0 by norm_num) ![(1 / 2 : ℝ), 1 / 4, 1 / 4] (by intro i; fin_cases i <;> norm_num)
  (by rw [Fin.sum_univ_three]; change (1 / 2 : ℝ) + 1 / 4 + 1 / 4 = 1; norm_num)
example := C80_entropy_bound_partial (m := 3) le_rfl ![1 / 2, 1 / 4, 1 / 4]
example := C80_entropy_exceeds_one (m := 3) le_rfl (1 / 3) (by norm_num)

theorem three_sum : 0 < ∑ i : Fin 3, if i.val < 3 - 1 then Real.exp (![(0 : ℝ), 1, 2] i) else ![(0 : ℝ), 1, 2] i := by
  rw [Fin.sum_univ_three]
  change 0 < Real.exp 0 + Real.exp 1 + 2
  have := Real.exp_pos 0
  have := Real.exp_pos 1
  linarith

/-- The scores 0, 1 and 2 of three classes. -/
theorem three_probs : ∃ p, gwdaProbs ![(0 : ℝ), 1, 2] = .ok p := by
  unfold gwdaProbs
  dsimp only
  rw [if_neg]
  · exact ⟨_, rfl⟩
  · exact three_sum.ne'

example := C84_sum_one_partial _ _ three_probs.choose_spec
example := C85_order_reversed _ _ three_probs.choose_spec three_sum 0 1 (by norm_num) (by norm_num)

/-! ## The linear rule: four observations in two classes -/

variable (sing : Matrix (Fin 2) (Fin 2) ℝ → (Fin 2 → ℝ) → Res (Fin 2 → ℝ))

example : ∃ e st' rows s, gwdaRun e ⟨false, false, false⟩ (daX 1 20) daY (fun _ _ => 1) = .ok (st', rows) ∧ gwdaGroup _ (rows 0) = .ok s ∧ ∀ l,
    ldaCost (daX 1 20 0) (classMean (daX 1 20) daY (fun l => if e.hasMean then usedWeight ⟨false, false, false⟩ (fun _ _ => 1) 0 l else 1) s)
      (pooled (daX 1 20) daY (fun l => if e.hasCov then usedWeight ⟨false, false, false⟩ (fun _ _ => 1) 0 l else 1))
      (classPrior daY (fun l => if e.hasPrior then usedWeight ⟨false, false, false⟩ (fun _ _ => 1) 0 l else 1) s) ≤
    ldaCost (daX 1 20 0) (classMean (daX 1 20) daY (fun l => if e.hasMean then usedWeight ⟨false, false, false⟩ (fun _ _ => 1) 0 l else 1) (daY l))
      (pooled (daX 1 20) daY (fun l => if e.hasCov then usedWeight ⟨false, false, false⟩ (fun _ _ => 1) 0 l else 1))
      (classPrior daY (fun l => if e.hasPrior then usedWeight ⟨false, false, false⟩ (fun _ _ => 1) 0 l else 1) (daY l)) := by
  obtain ⟨nrm, hN⟩ := ex_norm
  obtain ⟨st', rows, s, h1, h2, h3⟩ := ex_daRun nrm sing hN
  exact ⟨_, st', rows, s, h1, h2, C79_linear_rule _ _ _ rfl _ _ _ (fun _ _ => zero_le_one) _ h1 0 s h2 h3⟩
example := C105_linear_scores _ _ _ rfl _ _ _ _ (ex_daRun _ sing ex_norm.choose_spec).choose_spec.choose_spec.choose_spec.1 0
  (ex_daRun _ sing ex_norm.choose_spec).choose_spec.choose_spec.choose_spec.2.2
example := C81_quadratic_needs_all_options (daEnv ex_norm.choose sing) ⟨true, false, false⟩ rfl le_rfl (daX 1 20) daY (by norm_num) (fun _ _ => 1)
example := C82_parallel_differs _ sing ex_norm.choose_spec
example := C83_second_run_differs _ sing ex_norm.choose_spec
example := C83_later_runs_agree_partial (daEnv ex_norm.choose sing) false false true (daX 1 20) daY (fun _ _ => 1)
example := C84_negative_probability _ sing ex_norm.choose_spec
example := C85_named_class_less_probable _ sing ex_norm.choose_spec

/-! ## The quadratic rule: nine observations in two classes -/

example := C105_quadratic_rule_fails _ sing ex_norm.choose_spec
example : ∃ (x : Matrix (Fin 9) (Fin 2) ℝ) (y : Fin 9 → Bool) (W : Fin 9 → Fin 9 → ℝ) (e : GwdaEnv 2) (st st' : GwdaState), ∃ rows,
    gwdaRun e st x y W = .ok (st', rows) ∧ ∃ j : Fin 9, ∀ i : Fin (gwdaLevels (List.ofFn y)).length,
      0 < classTotal y (usedWeight st W j) ((gwdaLevels (List.ofFn y)).get i) / ∑ j', ∑ l, usedWeight st W j' l := by
  obtain ⟨x, y, W, e, st, st', -, -, hq, hW, rows, h, j, s, hd, hs, -⟩ := C105_quadratic_rule_fails _ sing ex_norm.choose_spec
  -- all hypotheses of the rule hold as well
  have := C105_quadratic_rule_partial e st st' hq x y W hW rows h j s hs fun l => (hd _).ne'
  exact ⟨x, y, W, e, st, st', rows, h, j, fun i => (C105_quadratic_scores e st st' hq x y W rows h j i (hd _).ne').1⟩

/-! ## Whole runs -/

example := C106_linear_run _ _ _ rfl none .Boxcar 10 (by norm_num) _ _ _ _ (ex_daFull _ sing ex_norm.choose_spec).choose_spec.choose_spec.1
example := C106_published _ _ _ none _ _ _ _ (by norm_num) _ (ex_daFull _ sing ex_norm.choose_spec).choose_spec.choose_spec.1

end Verif.Cases

import Verif.Props.GLMTrace
import Verif.Props.GWRGeneralized

/-! # Concrete cases for the theorems of `Props/GLM` and `Props/GLMTrace` -/

namespace Verif.Cases
open Verif Verif.Model Verif.Spec Verif.Props Matrix Classical

/-! ## Links and deviances -/

example := C46_binomial_range ![-3, 0, 40]
example := C46_binomial_link_linkinv ![-3, 0, 40]
example := C46_binomial_linkinv_link ![1 / 3, 9 / 10] (fun i => by fin_cases i <;> norm_num)
example := C46_binomial_link_domain _ _ (C46_binomial_link_linkinv ![-3, 0, 40])
example := C46_binomial_muEta ![-3, 0, 40] 2
example := C46_poisson_range (n := 3) (by norm_num) ![-3, 0, 4]

theorem glm_eps_le : poisEps ≤ 1 := by unfold poisEps; norm_num

theorem glm_tiny : Real.exp (-80) < poisEps := by
  have h1 : Real.exp (-80) = (Real.exp 1 ^ 80)⁻¹ := by rw [← Real.exp_nat_mul, ← Real.exp_neg]; norm_num
  have h2 : (2 : ℝ) ^ 80 ≤ Real.exp 1 ^ 80 := pow_le_pow_left₀ (by norm_num) (by linarith [Real.exp_one_gt_d9]) 80
  rw [h1]
  refine lt_of_le_of_lt (inv_anti₀ (by positivity) h2) ?_
  unfold poisEps
  norm_num

theorem glm_exp_ge (a : ℝ) (h : 0 ≤ a) : poisEps ≤ Real.exp a := glm_eps_le.trans (Real.one_le_exp h)

example := C46_poisson_link_linkinv (n := 3) (by norm_num) ![0, 1, 4] (fun i => glm_exp_ge _ (by fin_cases i <;> norm_num))
example := C46_poisson_linkinv_link (n := 3) (by norm_num) ![1, 2, 9] (fun i => glm_eps_le.trans (by fin_cases i <;> norm_num))
example := C46_poisson_clamped (n := 2) (by norm_num) ![1, -80] 1 (by simpa using glm_tiny)
example : ∃ me, poissonMuEta ![1, -80] = .ok me ∧ HasDerivAt Real.exp (me 0) 1 := by
  obtain ⟨mu, h, -⟩ := C46_poisson_range (n := 2) (by norm_num) ![1, -80]
  refine ⟨mu, h, (C46_poisson_muEta (n := 2) ![1, -80] mu h 0 ?_).1⟩
  have : poisEps < 1 := by unfold poisEps; norm_num
  exact this.trans_le (Real.one_le_exp (by norm_num))

example (w : Fin 2 → ℝ) := C46_poisson_deviance (n := 2) (by norm_num) ![0, 3] ![1 / 2, 2] w (fun i => by fin_cases i <;> norm_num)
  (fun i => by fin_cases i <;> norm_num)
example (w : Fin 2 → ℝ) := C46_binomial_deviance ![0, 1] ![1 / 2, 1 / 3] w (fun i => by fin_cases i <;> norm_num)
  (fun i => by fin_cases i <;> norm_num)
example := C46_poisson_deviance_sign (n := 2) (by norm_num) ![0, 3] ![1 / 2, 2] (fun i => by fin_cases i <;> norm_num)
  (fun i => by fin_cases i <;> norm_num)
example := C46_binomial_deviance_sign ![0, 1] ![1 / 2, 1 / 3] (fun i => by fin_cases i <;> norm_num) (fun i => by fin_cases i <;> norm_num)

/-! ## Fits -/

theorem counts_nonneg (i : Fin 3) : 0 ≤ (![0, 2, 7] : Fin 3 → ℝ) i := by fin_cases i <;> norm_num
theorem outcomes_range (i : Fin 3) : 0 ≤ (![0, 1, 1] : Fin 3 → ℝ) i ∧ (![0, 1, 1] : Fin 3 → ℝ) i ≤ 1 := by fin_cases i <;> norm_num

theorem counts_fit : ∃ s it conv, glmFit (glmPoisson 3) exX ![0, 2, 7] = .ok (s, it, conv) :=
  C46_poisson_fit_completes (n := 3) (by norm_num) exX _ counts_nonneg (exX_determined _ fun _ => one_pos)
theorem outcomes_fit : ∃ s it conv, glmFit (glmBinomial 3) exX ![0, 1, 1] = .ok (s, it, conv) :=
  C46_binomial_fit_completes exX _ outcomes_range (exX_determined _ fun _ => one_pos)

example := C46_iteration_limit counts_fit.choose_spec.choose_spec.choose_spec
example := C46_iteration_limit outcomes_fit.choose_spec.choose_spec.choose_spec
example := C46_reported_state counts_fit.choose_spec.choose_spec.choose_spec
example := C46_poisson_fit_deviance (by norm_num) counts_nonneg counts_fit.choose_spec.choose_spec.choose_spec
example := C46_binomial_fit_deviance outcomes_range outcomes_fit.choose_spec.choose_spec.choose_spec
example := C107_logistic_trace exX _ outcomes_range _ _ _ outcomes_fit.choose_spec.choose_spec.choose_spec

/-- Two observations, a constant predictor: the logarithm of the mean response solves the equations. -/
theorem glm_point : ∃ mu s, poissonLinkinv (glmOnes *ᵥ 0) = .ok mu ∧ glmStep (glmPoisson 2) glmOnes ![0, 2] (glmOnes *ᵥ 0) mu = .ok s ∧
    s.coef = 0 := by
  refine C46_poisson_stationary (by norm_num) 0 (fun i => by fin_cases i <;> norm_num) ?_ ?_ ?_
  · intro b hb; funext j; have := hb 0 one_pos; fin_cases j; simpa [glmOnes] using this
  · intro i; simpa using glm_eps_le
  · intro j; simp only [mulVec_zero, Pi.zero_apply, Real.exp_zero, Fin.sum_univ_two, glmOnes, of_apply]; norm_num

theorem logit_point : ∃ s, glmStep (glmBinomial 2) glmOnes ![0, 1] (glmOnes *ᵥ 0) (binomialLinkinv (glmOnes *ᵥ 0)) = .ok s ∧ s.coef = 0 := by
  refine C46_binomial_stationary 0 (fun i => by fin_cases i <;> norm_num) ?_ ?_
  · intro b hb; funext j; have := hb 0 one_pos; fin_cases j; simpa [glmOnes] using this
  · intro j; simp only [mulVec_zero, binomialLinkinv, Pi.zero_apply, Real.exp_zero, Fin.sum_univ_two, glmOnes, of_apply]; norm_num

example : ∀ b, poissonLL glmOnes ![0, 2] b ≤ poissonLL glmOnes ![0, 2] 0 := by
  obtain ⟨mu, s, h1, h2, h3⟩ := glm_point
  rw [← h3] at h1 h2 ⊢
  exact (C46_poisson_fixed_point (fun i => by rw [h3]; simpa using glm_eps_le) h1 h2).2

example : ∀ b, logisticLL glmOnes ![0, 1] b ≤ logisticLL glmOnes ![0, 1] 0 := by
  obtain ⟨s, h2, h3⟩ := logit_point
  rw [← h3] at h2 ⊢
  exact (C46_binomial_fixed_point h2).2

example : ∃ mu s, ∃ me, (glmPoisson 2).muEta (glmOnes *ᵥ 0) = .ok me ∧
    IsWLS glmOnes (fun i => (glmOnes *ᵥ 0) i + (![0, 2] i - mu i) / me i) (fun i => me i * me i / (glmPoisson 2).variance mu i) (s : Fin 1 → ℝ) := by
  obtain ⟨mu, s, -, h2, -⟩ := glm_point
  exact ⟨mu, s.coef, C46_iteration_wls h2⟩

/-! ## Diagnostics -/

example := C86_correction_partial 10 3 (by norm_num) (by norm_num)
example := C86_correction_truncated 11 3 3 (by norm_num) (by norm_num) (by norm_num) rfl
example := C93_penalty ![0, 3] ![1 / 2, 2] (fun i => by fin_cases i <;> norm_num)
example := C93_penalty_too_large (k := 1) ![0, 3] ![1 / 2, 2] (fun i => by fin_cases i <;> norm_num) (by norm_num)

def glmThree : Matrix (Fin 3) (Fin 1) ℝ := Matrix.of fun _ _ => 1
theorem glmThree_determined : Determined glmThree fun _ => 1 := fun b hb => by
  funext j; have := hb 0 one_pos; fin_cases j; simpa [glmThree] using this

theorem glm_diag : ∃ d, calGlm (glmPoisson 3) glmThree ![1, 2, 7] = .ok d :=
  calGlm_poisson_total (fun i => by fin_cases i <;> norm_num) ⟨0, 1, by norm_num⟩ glmThree_determined (by norm_num) (by norm_num)

example := C46_poisson_pseudo_r2 (by norm_num) (fun i => by fin_cases i <;> norm_num) glm_diag.choose_spec
example := C107_poisson_diagnostics (by norm_num) glmThree ![1, 2, 7] (fun i => by fin_cases i <;> norm_num) ⟨1, by norm_num⟩ _ glm_diag.choose_spec

theorem logit_diag : ∃ d, calGlm (glmBinomial 3) glmThree ![0, 1, 1] = .ok d := by
  obtain ⟨s, it, conv, h1⟩ := C46_binomial_fit_completes glmThree _ outcomes_range glmThree_determined
  have hm : (∑ i, (![0, 1, 1] : Fin 3 → ℝ) i) / ((3 : ℕ) : ℝ) = 2 / 3 := by simp [Fin.sum_univ_succ]; norm_num
  obtain ⟨d, e1, e2, e3⟩ := C46_binomial_deviance_sign ![0, 1, 1] (fun _ => (2 / 3 : ℝ)) outcomes_range fun _ => by norm_num
  have hnd : ∑ i, d i ≠ 0 := fun h => by
    have := congrFun (e3.1 h) 0
    norm_num at this
  obtain ⟨c, hc, _⟩ := C86_correction_partial 3 1 (by norm_num) (by norm_num)
  have e0 : glmNullDev (glmBinomial 3) ![0, 1, 1] = .ok (∑ i, d i) := by
    unfold glmNullDev
    rw [fdiv_ne (by norm_num), hm, Res.bind]
    change (binomialDevResids ![0, 1, 1] (fun _ => (2 / 3 : ℝ)) fun _ => 1).bind _ = _
    rw [e1]; rfl
  unfold calGlm
  rw [h1, Res.bind, e0, Res.bind, fdiv_ne hnd, Res.bind, hc]
  exact ⟨_, rfl⟩

example := C107_logistic_diagnostics glmThree ![0, 1, 1] outcomes_range ⟨1, by norm_num⟩ ⟨0, by norm_num⟩ _ logit_diag.choose_spec

end Verif.Cases

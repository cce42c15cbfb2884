import Verif.Model.GLM
import Verif.Spec.GLM
import Verif.Props.GWDR
import Mathlib.Analysis.SpecialFunctions.Log.Deriv
import Mathlib.Analysis.SpecialFunctions.ExpDeriv
import Mathlib.Analysis.Complex.ExponentialBounds

/-! # Generalised linear models -/

namespace Verif.Props
open Verif Verif.Model Verif.Spec Matrix

variable {n k : ℕ}

theorem poisEps_pos : 0 < poisEps := by unfold poisEps; norm_num

theorem flog_pos {a : ℝ} (h : 0 < a) : flog a = .ok (Real.log a) := by unfold flog; rw [if_neg (not_le.2 h)]

theorem fdiv_ne {a b : ℝ} (h : b ≠ 0) : fdiv a b = .ok (a / b) := by unfold fdiv; rw [if_neg h]

/-! ## Links -/

/-- C46: the logistic inverse link maps every linear predictor strictly between 0 and 1. -/
theorem C46_binomial_range (eta : Fin n → ℝ) (i : Fin n) : 0 < binomialLinkinv eta i ∧ binomialLinkinv eta i < 1 := by
  have h := Real.exp_pos (eta i)
  unfold binomialLinkinv
  exact ⟨by positivity, by rw [div_lt_one (by positivity)]; linarith⟩

/-- C46: link after inverse link returns every linear predictor. -/
theorem C46_binomial_link_linkinv (eta : Fin n → ℝ) : binomialLinkfun (binomialLinkinv eta) = .ok eta := by
  rw [binomialLinkfun, Res.tabulate_eq_ok]
  intro i
  have h := Real.exp_pos (eta i)
  have h1 : 1 - binomialLinkinv eta i = 1 / (1 + Real.exp (eta i)) := by unfold binomialLinkinv; field_simp; ring
  have h2 : binomialLinkinv eta i / (1 - binomialLinkinv eta i) = Real.exp (eta i) := by
    rw [h1]; unfold binomialLinkinv; field_simp
  rw [fdiv_ne (by rw [h1]; positivity), Res.bind, h2, flog_pos h, Real.log_exp]

/-- C46: inverse link after link returns every vector of means strictly between 0 and 1. -/
theorem C46_binomial_linkinv_link (mu : Fin n → ℝ) (h : ∀ i, 0 < mu i ∧ mu i < 1) :
    ∃ eta, binomialLinkfun mu = .ok eta ∧ binomialLinkinv eta = mu := by
  refine ⟨fun i => Real.log (mu i / (1 - mu i)), ?_, ?_⟩
  · rw [binomialLinkfun, Res.tabulate_eq_ok]
    intro i
    have h1 : 0 < 1 - mu i := by linarith [(h i).2]
    rw [fdiv_ne h1.ne', Res.bind, flog_pos (div_pos (h i).1 h1)]
  · funext i
    have h1 : 0 < 1 - mu i := by linarith [(h i).2]
    unfold binomialLinkinv
    rw [Real.exp_log (div_pos (h i).1 h1)]
    field_simp
    ring

example : ∀ i : Fin 2, 0 < (![1 / 3, 9 / 10] : Fin 2 → ℝ) i ∧ (![1 / 3, 9 / 10] : Fin 2 → ℝ) i < 1 := by
  intro i; fin_cases i <;> norm_num

/-- C46: means outside the open unit interval are refused by the link: no finite linear predictor is returned. -/
theorem C46_binomial_link_domain (mu eta : Fin n → ℝ) (h : binomialLinkfun mu = .ok eta) (i : Fin n) : 0 < mu i ∧ mu i < 1 := by
  rw [binomialLinkfun, Res.tabulate_eq_ok] at h
  have := h i
  unfold fdiv at this
  by_cases h0 : 1 - mu i = 0
  · rw [if_pos h0] at this; cases this
  · rw [if_neg h0, Res.bind] at this
    unfold flog at this
    by_cases h1 : mu i / (1 - mu i) ≤ 0
    · rw [if_pos h1] at this; cases this
    · rcases div_pos_iff.1 (not_le.1 h1) with ⟨a, b⟩ | ⟨a, b⟩
      · exact ⟨a, by linarith⟩
      · linarith

/-- C46: the logistic `muEta` is the derivative of the inverse link. -/
theorem C46_binomial_muEta (eta : Fin n → ℝ) (i : Fin n) :
    HasDerivAt (fun t => binomialLinkinv (fun _ : Fin 1 => t) 0) (binomialMuEta eta i) (eta i) := by
  unfold binomialLinkinv binomialMuEta
  have h := Real.exp_pos (eta i)
  have h1 := (Real.hasDerivAt_exp (eta i)).div ((Real.hasDerivAt_exp (eta i)).const_add 1) (by positivity)
  refine h1.congr_deriv ?_
  field_simp
  ring

/-- The value the Poisson inverse link gives one observation. -/
theorem poissonLinkinv_ok {eta mu : Fin n → ℝ} (h : poissonLinkinv eta = .ok mu) (i : Fin n) :
    mu i = max (Real.exp (eta i)) poisEps := by
  unfold poissonLinkinv at h
  by_cases h0 : n = 0
  · subst h0; exact i.elim0
  · rw [if_neg h0] at h
    by_cases h1 : ∀ i, Real.exp (eta i) > poisEps
    · rw [if_pos h1] at h; cases h; rw [max_eq_left (h1 i).le]
    · rw [if_neg h1] at h; cases h
      by_cases h2 : Real.exp (eta i) > poisEps
      · simp only [if_pos h2]; rw [max_eq_left h2.le]
      · simp only [if_neg h2]; rw [max_eq_right (not_lt.1 h2)]

theorem poissonMuEta_eq (eta : Fin n → ℝ) : poissonMuEta eta = poissonLinkinv eta := rfl

/-- C46: Poisson means are positive for every linear predictor, and the inverse link succeeds whenever there is an observation. -/
theorem C46_poisson_range (hn : n ≠ 0) (eta : Fin n → ℝ) : ∃ mu, poissonLinkinv eta = .ok mu ∧ ∀ i, 0 < mu i := by
  have : ∃ mu, poissonLinkinv eta = .ok mu := by
    unfold poissonLinkinv
    rw [if_neg hn]
    split_ifs <;> exact ⟨_, rfl⟩
  obtain ⟨mu, h⟩ := this
  exact ⟨mu, h, fun i => by rw [poissonLinkinv_ok h i]; exact lt_max_of_lt_right poisEps_pos⟩

/-- C46, Poisson: link after inverse link returns every linear predictor whose exponential is not below the clamping constant. -/
theorem C46_poisson_link_linkinv (hn : n ≠ 0) (eta : Fin n → ℝ) (h : ∀ i, poisEps ≤ Real.exp (eta i)) :
    ∃ mu, poissonLinkinv eta = .ok mu ∧ poissonLinkfun mu = .ok eta := by
  obtain ⟨mu, h1, h2⟩ := C46_poisson_range hn eta
  refine ⟨mu, h1, ?_⟩
  rw [poissonLinkfun, Res.tabulate_eq_ok]
  intro i
  rw [flog_pos (h2 i), poissonLinkinv_ok h1 i, max_eq_left (h i), Real.log_exp]

/-- C46, Poisson: inverse link after link returns every vector of means not below the clamping constant. -/
theorem C46_poisson_linkinv_link (hn : n ≠ 0) (mu : Fin n → ℝ) (h : ∀ i, poisEps ≤ mu i) :
    ∃ eta, poissonLinkfun mu = .ok eta ∧ poissonLinkinv eta = .ok mu := by
  have h0 : ∀ i, 0 < mu i := fun i => lt_of_lt_of_le poisEps_pos (h i)
  refine ⟨fun i => Real.log (mu i), ?_, ?_⟩
  · rw [poissonLinkfun, Res.tabulate_eq_ok]; exact fun i => flog_pos (h0 i)
  · obtain ⟨m, h1, _⟩ := C46_poisson_range hn fun i => Real.log (mu i)
    rw [h1]
    congr 1
    funext i
    rw [poissonLinkinv_ok h1 i, Real.exp_log (h0 i), max_eq_left (h i)]

/-- C46 fails for very negative Poisson linear predictors: they are clamped and the link does not return them. -/
theorem C46_poisson_clamped (hn : n ≠ 0) (eta : Fin n → ℝ) (i : Fin n) (h : Real.exp (eta i) < poisEps) :
    ∃ mu eta', poissonLinkinv eta = .ok mu ∧ poissonLinkfun mu = .ok eta' ∧ eta' ≠ eta := by
  obtain ⟨mu, h1, h2⟩ := C46_poisson_range hn eta
  refine ⟨mu, fun i => Real.log (mu i), h1, ?_, fun he => ?_⟩
  · rw [poissonLinkfun, Res.tabulate_eq_ok]; exact fun i => flog_pos (h2 i)
  · have : Real.log (mu i) = eta i := congrFun he i
    rw [poissonLinkinv_ok h1 i, max_eq_right h.le] at this
    rw [← this, Real.exp_log poisEps_pos] at h
    exact lt_irrefl _ h

example : Real.exp ((fun _ : Fin 1 => (-80 : ℝ)) 0) < poisEps := by
  have h1 : Real.exp (-80) = (Real.exp 1 ^ 80)⁻¹ := by rw [← Real.exp_nat_mul, ← Real.exp_neg]; norm_num
  have h2 : (2 : ℝ) ^ 80 ≤ Real.exp 1 ^ 80 := pow_le_pow_left₀ (by norm_num) (by linarith [Real.exp_one_gt_d9]) 80
  change Real.exp (-80) < poisEps
  rw [h1]
  refine lt_of_le_of_lt (inv_anti₀ (by positivity) h2) ?_
  unfold poisEps
  norm_num

/-- C46: away from the clamping constant the Poisson `muEta` is the derivative of the inverse link. -/
theorem C46_poisson_muEta (eta me : Fin n → ℝ) (h : poissonMuEta eta = .ok me) (i : Fin n) (hi : poisEps < Real.exp (eta i)) :
    HasDerivAt Real.exp (me i) (eta i) ∧ ∀ mu, poissonLinkinv eta = .ok mu → mu i = Real.exp (eta i) := by
  rw [poissonMuEta_eq] at h
  refine ⟨?_, fun mu hm => by rw [poissonLinkinv_ok hm i, max_eq_left hi.le]⟩
  rw [poissonLinkinv_ok h i, max_eq_left hi.le]
  exact Real.hasDerivAt_exp _

/-! ## Deviance -/

theorem log_tangent {a b : ℝ} (ha : 0 < a) (hb : 0 < b) : a - b ≤ a * Real.log (a / b) ∧ (a * Real.log (a / b) = a - b → a = b) := by
  have hq : 0 < b / a := div_pos hb ha
  have hl : Real.log (a / b) = - Real.log (b / a) := by rw [← Real.log_inv, inv_div]
  have hm : a * (b / a) = b := by field_simp
  rw [hl]
  refine ⟨?_, fun he => ?_⟩
  · have := Real.log_le_sub_one_of_pos hq
    nlinarith [mul_le_mul_of_nonneg_left this ha.le]
  · by_contra hne
    have hne' : b / a ≠ 1 := fun h => hne (by rw [h, mul_one] at hm; exact hm)
    have := Real.log_lt_sub_one_of_pos hq hne'
    nlinarith [mul_lt_mul_of_pos_left this ha]

/-- The unit deviances are non-negative and zero exactly for a perfect fit. -/
theorem poissonUnitDev_nonneg {y mu : ℝ} (hy : 0 ≤ y) (hm : 0 < mu) :
    0 ≤ poissonUnitDev y mu ∧ (poissonUnitDev y mu = 0 ↔ y = mu) := by
  unfold poissonUnitDev
  rcases hy.eq_or_lt with h | h
  · subst h
    simp only [zero_mul, zero_sub, sub_neg_eq_add, zero_add]
    exact ⟨by positivity, by constructor <;> intro h <;> linarith⟩
  · obtain ⟨h1, h2⟩ := log_tangent h hm
    refine ⟨by linarith, fun h0 => h2 (by linarith), fun he => ?_⟩
    rw [he, div_self hm.ne', Real.log_one]; ring

theorem binomialUnitDev_nonneg {y mu : ℝ} (hy : 0 ≤ y ∧ y ≤ 1) (hm : 0 < mu ∧ mu < 1) :
    0 ≤ binomialUnitDev y mu ∧ (binomialUnitDev y mu = 0 ↔ y = mu) := by
  have a1 : y - mu ≤ y * Real.log (y / mu) ∧ (y * Real.log (y / mu) = y - mu → y = mu) := by
    rcases hy.1.eq_or_lt with h | h
    · subst h; simp only [zero_mul]; exact ⟨by linarith, fun h => by linarith⟩
    · exact log_tangent h hm.1
  have a2 : (1 - y) - (1 - mu) ≤ (1 - y) * Real.log ((1 - y) / (1 - mu)) := by
    rcases hy.2.eq_or_lt with h | h
    · subst h; simp only [sub_self, zero_mul]; linarith
    · exact (log_tangent (by linarith : 0 < 1 - y) (by linarith : 0 < 1 - mu)).1
  unfold binomialUnitDev
  refine ⟨by linarith [a1.1], fun h0 => a1.2 (by linarith [a1.1]), fun he => ?_⟩
  rw [he, div_self hm.1.ne', div_self (sub_pos.2 hm.2).ne']
  simp

theorem poissonTerm_pos {y mu w : ℝ} (hy : 0 < y) (hm : 0 < mu) :
    poissonTerm y mu w = .ok (w * (y * Real.log (y / mu) - (y - mu))) := by
  unfold poissonTerm
  rw [fdiv_ne hm.ne', Res.bind, flog_pos (div_pos hy hm)]; rfl

/-- C46: for non-negative counts and positive means `devResids` returns the weighted unit deviances. -/
theorem C46_poisson_deviance (hn : n ≠ 0) (y mu w : Fin n → ℝ) (hy : ∀ i, 0 ≤ y i) (hm : ∀ i, 0 < mu i) :
    poissonDevResids y mu w = .ok fun i => w i * poissonUnitDev (y i) (mu i) := by
  have key : ∀ i, (if 0 < y i then poissonTerm (y i) (mu i) (w i) else .ok (mu i * w i))
      = .ok (w i * (y i * Real.log (y i / mu i) - (y i - mu i))) := by
    intro i
    by_cases h : 0 < y i
    · rw [if_pos h, poissonTerm_pos h (hm i)]
    · have : y i = 0 := le_antisymm (not_lt.1 h) (hy i)
      rw [if_neg h, this]; congr 1; ring
  have fin : (fun i => 2 * (w i * (y i * Real.log (y i / mu i) - (y i - mu i)))) = fun i => w i * poissonUnitDev (y i) (mu i) := by
    funext i; unfold poissonUnitDev; ring
  unfold poissonDevResids
  rw [if_neg hn, ← fin]
  by_cases h : ∀ i, 0 < y i
  · rw [if_pos h, Res.tabulate_eq_ok.2 fun i => poissonTerm_pos (h i) (hm i)]; rfl
  · rw [if_neg h, Res.tabulate_eq_ok.2 key]; rfl

theorem yLogY_ok {y mu : ℝ} (hy : 0 ≤ y) (hm : 0 < mu) : yLogY y mu = .ok (y * Real.log (y / mu)) := by
  unfold yLogY
  by_cases h : y = 0
  · rw [if_neg (not_not.2 h), h, zero_mul]
  · rw [if_pos h, fdiv_ne hm.ne', Res.bind, flog_pos (div_pos (lt_of_le_of_ne hy (Ne.symm h)) hm)]; rfl

/-- C46: for proportions and means strictly between 0 and 1 `devResids` returns the weighted unit deviances. -/
theorem C46_binomial_deviance (y mu w : Fin n → ℝ) (hy : ∀ i, 0 ≤ y i ∧ y i ≤ 1) (hm : ∀ i, 0 < mu i ∧ mu i < 1) :
    binomialDevResids y mu w = .ok fun i => w i * binomialUnitDev (y i) (mu i) := by
  rw [binomialDevResids, Res.tabulate_eq_ok]
  intro i
  rw [yLogY_ok (hy i).1 (hm i).1, Res.bind, yLogY_ok (by linarith [(hy i).2]) (by linarith [(hm i).2]), Res.bind]
  unfold binomialUnitDev
  congr 1
  ring

/-- C46: the Poisson deviance of a model is non-negative, and zero exactly for a perfect fit. -/
theorem C46_poisson_deviance_sign (hn : n ≠ 0) (y mu : Fin n → ℝ) (hy : ∀ i, 0 ≤ y i) (hm : ∀ i, 0 < mu i) :
    ∃ d, poissonDevResids y mu (fun _ => 1) = .ok d ∧ 0 ≤ ∑ i, d i ∧ (∑ i, d i = 0 ↔ y = mu) := by
  refine ⟨_, C46_poisson_deviance hn y mu _ hy hm, ?_, ?_⟩
  · exact Finset.sum_nonneg fun i _ => by rw [one_mul]; exact (poissonUnitDev_nonneg (hy i) (hm i)).1
  · rw [Finset.sum_eq_zero_iff_of_nonneg fun i _ => by rw [one_mul]; exact (poissonUnitDev_nonneg (hy i) (hm i)).1]
    simp only [Finset.mem_univ, true_imp_iff, one_mul]
    exact ⟨fun h => funext fun i => (poissonUnitDev_nonneg (hy i) (hm i)).2.1 (h i),
      fun h i => (poissonUnitDev_nonneg (hy i) (hm i)).2.2 (congrFun h i)⟩

/-- C46: the binomial deviance of a model is non-negative, and zero exactly for a perfect fit. -/
theorem C46_binomial_deviance_sign (y mu : Fin n → ℝ) (hy : ∀ i, 0 ≤ y i ∧ y i ≤ 1) (hm : ∀ i, 0 < mu i ∧ mu i < 1) :
    ∃ d, binomialDevResids y mu (fun _ => 1) = .ok d ∧ 0 ≤ ∑ i, d i ∧ (∑ i, d i = 0 ↔ y = mu) := by
  refine ⟨_, C46_binomial_deviance y mu _ hy hm, ?_, ?_⟩
  · exact Finset.sum_nonneg fun i _ => by rw [one_mul]; exact (binomialUnitDev_nonneg (hy i) (hm i)).1
  · rw [Finset.sum_eq_zero_iff_of_nonneg fun i _ => by rw [one_mul]; exact (binomialUnitDev_nonneg (hy i) (hm i)).1]
    simp only [Finset.mem_univ, true_imp_iff, one_mul]
    exact ⟨fun h => funext fun i => (binomialUnitDev_nonneg (hy i) (hm i)).2.1 (h i),
      fun h i => (binomialUnitDev_nonneg (hy i) (hm i)).2.2 (congrFun h i)⟩

example : (∀ i : Fin 2, (0 : ℝ) ≤ (![0, 3] : Fin 2 → ℝ) i) ∧ ∀ i : Fin 2, (0 : ℝ) < (![1 / 2, 2] : Fin 2 → ℝ) i := by
  constructor <;> intro i <;> fin_cases i <;> norm_num

/-! ## Iteratively reweighted least squares -/

/-- Scaling the rows of design and response by `w` is weighting by `w * w`. -/
theorem gwPredict_scaled (x : Matrix (Fin n) (Fin k) ℝ) (z w : Fin n → ℝ) :
    gwPredict (Matrix.of fun i j => x i j * w i) (fun i => z i * w i) (fun _ => 1) = gwPredict x z fun i => w i * w i := by
  have h1 : xtwx (Matrix.of fun i j => x i j * w i) (fun _ => 1) = xtwx x fun i => w i * w i := by
    ext a b
    simp only [xtwx_apply, of_apply]
    exact Finset.sum_congr rfl fun l _ => by ring
  have h2 : xtw (Matrix.of fun i j => x i j * w i) (fun _ => 1) *ᵥ (fun i => z i * w i) = xtw x (fun i => w i * w i) *ᵥ z := by
    funext a
    simp only [mulVec, dotProduct, xtw, of_apply]
    exact Finset.sum_congr rfl fun l _ => by ring
  unfold gwPredict
  rw [h1, h2]

/-- `gwPredict` with non-negative weights returns the solution of the normal equations, the unique weighted least squares fit. -/
theorem gwPredict_ok {x : Matrix (Fin n) (Fin k) ℝ} {z v : Fin n → ℝ} {b : Fin k → ℝ} (hv : ∀ i, 0 ≤ v i)
    (h : gwPredict x z v = .ok b) : IsWLS x z v b ∧ Determined x v ∧ xtwx x v *ᵥ b = xtw x v *ᵥ z := by
  unfold gwPredict at h
  rw [invGeneral_gram x v hv] at h
  unfold invSympd at h
  by_cases hp : (xtwx x v).PosDef
  · rw [if_pos hp] at h
    cases h
    exact ⟨isWLS_of_posDef hp, (gram_posDef_iff_determined x v hv).1 hp, normal_equations hp⟩
  · rw [if_neg hp] at h; cases h

theorem gwPredict_of_determined {x : Matrix (Fin n) (Fin k) ℝ} {v : Fin n → ℝ} (hv : ∀ i, 0 ≤ v i) (hd : Determined x v)
    (z : Fin n → ℝ) : ∃ b, gwPredict x z v = .ok b := by
  unfold gwPredict
  rw [invGeneral_gram x v hv]
  unfold invSympd
  rw [if_pos ((gram_posDef_iff_determined x v hv).2 hd)]
  exact ⟨_, rfl⟩

/-- What a successful iteration computes. -/
theorem glmStep_ok {F : GlmFamily n} {x : Matrix (Fin n) (Fin k) ℝ} {y eta mu : Fin n → ℝ} {s : GlmState n k}
    (h : glmStep F x y eta mu = .ok s) :
    ∃ me, F.muEta eta = .ok me ∧ (∀ i, me i ≠ 0 ∧ F.variance mu i ≠ 0 ∧ 0 ≤ me i * me i / F.variance mu i) ∧
      gwPredict x (fun i => eta i + (y i - mu i) / me i) (fun i => me i * me i / F.variance mu i) = .ok s.coef ∧
      s.eta = x *ᵥ s.coef ∧ F.linkinv s.eta = .ok s.mu ∧ ∃ d, F.devResids y s.mu (fun _ => 1) = .ok d ∧ s.dev = ∑ i, d i := by
  unfold glmStep at h
  obtain ⟨me, hme, h⟩ := Res.bind_eq_ok'.1 h
  obtain ⟨z, hz, h⟩ := Res.bind_eq_ok'.1 h
  obtain ⟨w, hw, h⟩ := Res.bind_eq_ok'.1 h
  obtain ⟨coef, hc, h⟩ := Res.bind_eq_ok'.1 h
  obtain ⟨mu', hm, h⟩ := Res.bind_eq_ok'.1 h
  obtain ⟨d, hd, h⟩ := Res.bind_eq_ok'.1 h
  cases h
  have hz' : ∀ i, me i ≠ 0 ∧ z i = eta i + (y i - mu i) / me i := by
    intro i
    have := Res.tabulate_eq_ok.1 hz i
    unfold fdiv at this
    by_cases h0 : me i = 0
    · rw [if_pos h0] at this; cases this
    · rw [if_neg h0, Res.bind] at this; exact ⟨h0, (Res.ok.inj this).symm⟩
  have hw' : ∀ i, F.variance mu i ≠ 0 ∧ 0 ≤ me i * me i / F.variance mu i ∧ w i = Real.sqrt (me i * me i / F.variance mu i) := by
    intro i
    have := Res.tabulate_eq_ok.1 hw i
    unfold fdiv at this
    by_cases h0 : F.variance mu i = 0
    · rw [if_pos h0] at this; cases this
    · rw [if_neg h0, Res.bind] at this
      unfold fsqrt at this
      by_cases h1 : me i * me i / F.variance mu i < 0
      · rw [if_pos h1] at this; cases this
      · rw [if_neg h1] at this
        exact ⟨h0, not_lt.1 h1, (Res.ok.inj this).symm⟩
  refine ⟨me, hme, fun i => ⟨(hz' i).1, (hw' i).1, (hw' i).2.1⟩, ?_, rfl, hm, d, hd, rfl⟩
  rw [gwPredict_scaled] at hc
  have e1 : z = fun i => eta i + (y i - mu i) / me i := funext fun i => (hz' i).2
  have e2 : (fun i => w i * w i) = fun i => me i * me i / F.variance mu i := by
    funext i; rw [(hw' i).2.2, Real.mul_self_sqrt (hw' i).2.1]
  rw [e1, e2] at hc
  exact hc

/-- C46: every iteration of the generalised linear model is the unique weighted least squares fit of the working response
`eta + (y - mu) / mu'(eta)` with the working weights `mu'(eta)² / variance`. -/
theorem C46_iteration_wls {F : GlmFamily n} {x : Matrix (Fin n) (Fin k) ℝ} {y eta mu : Fin n → ℝ} {s : GlmState n k}
    (h : glmStep F x y eta mu = .ok s) :
    ∃ me, F.muEta eta = .ok me ∧
      IsWLS x (fun i => eta i + (y i - mu i) / me i) (fun i => me i * me i / F.variance mu i) s.coef := by
  obtain ⟨me, h1, h2, h3, _⟩ := glmStep_ok h
  exact ⟨me, h1, (gwPredict_ok (fun i => (h2 i).2.2) h3).1⟩

/-- Invariant of the loop. -/
theorem glmLoop_inv {F : GlmFamily n} {x : Matrix (Fin n) (Fin k) ℝ} {y : Fin n → ℝ} (fuel : ℕ) :
    ∀ (s : GlmState n k) (it : ℕ) (r : GlmState n k × ℕ × Bool), glmLoop F x y fuel s it = .ok r →
      r.2.1 ≤ it + fuel ∧ (r.2.2 = false → r.2.1 = it + fuel) ∧
      (0 < fuel → it < r.2.1 ∧ r.1.eta = x *ᵥ r.1.coef ∧ F.linkinv r.1.eta = .ok r.1.mu ∧
        ∃ d, F.devResids y r.1.mu (fun _ => 1) = .ok d ∧ r.1.dev = ∑ i, d i) := by
  induction fuel with
  | zero =>
    intro s it r h
    cases h
    exact ⟨le_rfl, fun _ => rfl, fun h => absurd h (lt_irrefl 0)⟩
  | succ fuel ih =>
    intro s it r h
    unfold glmLoop at h
    obtain ⟨s', hs, h⟩ := Res.bind_eq_ok'.1 h
    obtain ⟨_, _, _, _, e1, e2, e3⟩ := glmStep_ok hs
    by_cases hc : glmConverged s'.dev s.dev
    · rw [if_pos hc] at h
      cases h
      exact ⟨by simp only; omega, fun h => (by cases h), fun _ => ⟨Nat.lt_succ_self _, e1, e2, e3⟩⟩
    · rw [if_neg hc] at h
      obtain ⟨a, b, c⟩ := ih s' (it + 1) r h
      refine ⟨by omega, fun hf => by rw [b hf]; omega, fun _ => ?_⟩
      rcases Nat.eq_zero_or_pos fuel with h0 | h0
      · subst h0
        cases h
        exact ⟨Nat.lt_succ_self _, e1, e2, e3⟩
      · obtain ⟨c1, c2⟩ := c h0
        exact ⟨by omega, c2⟩

/-- C46: the fit performs between one and 25 iterations, and exactly 25 when the deviance has not settled. -/
theorem C46_iteration_limit {F : GlmFamily n} {x : Matrix (Fin n) (Fin k) ℝ} {y : Fin n → ℝ} {s : GlmState n k} {it : ℕ} {conv : Bool}
    (h : glmFit F x y = .ok (s, it, conv)) : 1 ≤ it ∧ it ≤ 25 ∧ (conv = false → it = 25) := by
  unfold glmFit at h
  obtain ⟨_, _, h⟩ := Res.bind_eq_ok'.1 h
  obtain ⟨_, _, h⟩ := Res.bind_eq_ok'.1 h
  obtain ⟨_, _, h⟩ := Res.bind_eq_ok'.1 h
  obtain ⟨a, b, c⟩ := glmLoop_inv 25 _ _ _ h
  simp only [zero_add] at a b
  exact ⟨(c (by norm_num)).1, a, b⟩

/-- C46: whether or not the iteration converged, the reported means are the inverse link of the linear predictor of the reported
coefficients, and the reported deviance is the deviance of these means. -/
theorem C46_reported_state {F : GlmFamily n} {x : Matrix (Fin n) (Fin k) ℝ} {y : Fin n → ℝ} {s : GlmState n k} {it : ℕ} {conv : Bool}
    (h : glmFit F x y = .ok (s, it, conv)) :
    F.linkinv (x *ᵥ s.coef) = .ok s.mu ∧ ∃ d, F.devResids y s.mu (fun _ => 1) = .ok d ∧ s.dev = ∑ i, d i := by
  unfold glmFit at h
  obtain ⟨_, _, h⟩ := Res.bind_eq_ok'.1 h
  obtain ⟨_, _, h⟩ := Res.bind_eq_ok'.1 h
  obtain ⟨_, _, h⟩ := Res.bind_eq_ok'.1 h
  obtain ⟨_, _, c⟩ := glmLoop_inv 25 _ _ _ h
  obtain ⟨_, c1, c2, c3⟩ := c (by norm_num)
  simp only at c1 c2
  rw [c1] at c2
  exact ⟨c2, c3⟩

/-- C46: the deviance reported for Poisson counts is non-negative, and zero exactly when the means reproduce the counts. -/
theorem C46_poisson_fit_deviance {x : Matrix (Fin n) (Fin k) ℝ} {y : Fin n → ℝ} {s : GlmState n k} {it : ℕ} {conv : Bool}
    (hn : n ≠ 0) (hy : ∀ i, 0 ≤ y i) (h : glmFit (glmPoisson n) x y = .ok (s, it, conv)) :
    (∀ i, 0 < s.mu i) ∧ 0 ≤ s.dev ∧ (s.dev = 0 ↔ y = s.mu) := by
  obtain ⟨h1, d, h2, h3⟩ := C46_reported_state h
  have hm : ∀ i, 0 < s.mu i := by
    obtain ⟨mu, a, b⟩ := C46_poisson_range hn (x *ᵥ s.coef)
    have : s.mu = mu := Res.ok.inj (h1.symm.trans a)
    rw [this]; exact b
  obtain ⟨d', e1, e2, e3⟩ := C46_poisson_deviance_sign hn y s.mu hy hm
  have : d = d' := Res.ok.inj (h2.symm.trans e1)
  rw [h3, this]
  exact ⟨hm, e2, e3⟩

/-- C46: the deviance reported for proportions is non-negative, and zero exactly when the means reproduce them. -/
theorem C46_binomial_fit_deviance {x : Matrix (Fin n) (Fin k) ℝ} {y : Fin n → ℝ} {s : GlmState n k} {it : ℕ} {conv : Bool}
    (hy : ∀ i, 0 ≤ y i ∧ y i ≤ 1) (h : glmFit (glmBinomial n) x y = .ok (s, it, conv)) :
    (∀ i, 0 < s.mu i ∧ s.mu i < 1) ∧ 0 ≤ s.dev ∧ (s.dev = 0 ↔ y = s.mu) := by
  obtain ⟨h1, d, h2, h3⟩ := C46_reported_state h
  have hm : ∀ i, 0 < s.mu i ∧ s.mu i < 1 := by
    have : s.mu = binomialLinkinv (x *ᵥ s.coef) := (Res.ok.inj h1).symm
    rw [this]; exact C46_binomial_range _
  obtain ⟨d', e1, e2, e3⟩ := C46_binomial_deviance_sign y s.mu hy hm
  have : d = d' := Res.ok.inj (h2.symm.trans e1)
  rw [h3, this]
  exact ⟨hm, e2, e3⟩

/-- The score equations at a fixed point: when the working weight times the working residual is the raw residual. -/
theorem score_of_fixed {x : Matrix (Fin n) (Fin k) ℝ} {y mu me v : Fin n → ℝ} {b : Fin k → ℝ}
    (hr : ∀ i, v i * ((y i - mu i) / me i) = y i - mu i)
    (h : xtwx x v *ᵥ b = xtw x v *ᵥ fun i => (x *ᵥ b) i + (y i - mu i) / me i) (j : Fin k) :
    ∑ i, x i j * (y i - mu i) = 0 := by
  rw [xtwx_mulVec] at h
  have h1 := congrFun h j
  simp only [mulVec, dotProduct, xtw, of_apply] at h1
  have h2 : ∑ i, x i j * v i * ((∑ a, x i a * b a) + (y i - mu i) / me i)
      = ∑ i, x i j * v i * (∑ a, x i a * b a) + ∑ i, x i j * (y i - mu i) := by
    rw [← Finset.sum_add_distrib]
    refine Finset.sum_congr rfl fun i _ => ?_
    have := hr i
    calc _ = x i j * v i * (∑ a, x i a * b a) + x i j * (v i * ((y i - mu i) / me i)) := by ring
      _ = _ := by rw [this]
  linarith

/-- Sum of residuals times the change of the linear predictor vanishes under the score equations. -/
theorem score_dot {x : Matrix (Fin n) (Fin k) ℝ} {r : Fin n → ℝ} (h : ∀ j, ∑ i, x i j * r i = 0) (c : Fin k → ℝ) :
    ∑ i, r i * ∑ j, x i j * c j = 0 := by
  have : ∑ i, r i * ∑ j, x i j * c j = ∑ j, c j * ∑ i, x i j * r i := by
    simp only [Finset.mul_sum]
    rw [Finset.sum_comm]
    exact Finset.sum_congr rfl fun _ _ => Finset.sum_congr rfl fun _ _ => by ring
  rw [this]
  exact Finset.sum_eq_zero fun j _ => by rw [h j, mul_zero]

/-- C46: coefficients that an iteration reproduces (Poisson, no mean clamped) satisfy the score equations and maximise the likelihood. -/
theorem C46_poisson_fixed_point {x : Matrix (Fin n) (Fin k) ℝ} {y mu : Fin n → ℝ} {s : GlmState n k}
    (he : ∀ i, poisEps ≤ Real.exp ((x *ᵥ s.coef) i)) (hmu : poissonLinkinv (x *ᵥ s.coef) = .ok mu)
    (h : glmStep (glmPoisson n) x y (x *ᵥ s.coef) mu = .ok s) :
    (∀ j, ∑ i, x i j * (y i - Real.exp ((x *ᵥ s.coef) i)) = 0) ∧ ∀ b, poissonLL x y b ≤ poissonLL x y s.coef := by
  obtain ⟨me, h1, h2, h3, _⟩ := glmStep_ok h
  have hme : ∀ i, me i = Real.exp ((x *ᵥ s.coef) i) := fun i => by
    have : poissonLinkinv (x *ᵥ s.coef) = .ok me := h1
    rw [poissonLinkinv_ok this i, max_eq_left (he i)]
  have hm : ∀ i, mu i = Real.exp ((x *ᵥ s.coef) i) := fun i => by rw [poissonLinkinv_ok hmu i, max_eq_left (he i)]
  have hs := score_of_fixed (x := x) (y := y) (mu := mu) (me := me) (fun i => ?_) (gwPredict_ok (fun i => (h2 i).2.2) h3).2.2
  · have hs' : ∀ j, ∑ i, x i j * (y i - Real.exp ((x *ᵥ s.coef) i)) = 0 := fun j => by
      rw [← hs j]; exact Finset.sum_congr rfl fun i _ => by rw [hm i]
    refine ⟨hs', fun b => ?_⟩
    have hd := score_dot hs' (b - s.coef)
    unfold poissonLL
    rw [← add_zero (∑ i, (y i * (∑ j, x i j * s.coef j) - _)), ← hd, ← Finset.sum_add_distrib]
    refine Finset.sum_le_sum fun i _ => ?_
    have e : ∑ j, x i j * (b - s.coef) j = ∑ j, x i j * b j - ∑ j, x i j * s.coef j := by
      rw [← Finset.sum_sub_distrib]; exact Finset.sum_congr rfl fun j _ => by rw [Pi.sub_apply]; ring
    rw [e, mulVec_eq]
    set p := ∑ j, x i j * b j
    set q := ∑ j, x i j * s.coef j
    have t : Real.exp q * (p - q + 1) ≤ Real.exp p := by
      have := mul_le_mul_of_nonneg_left (Real.add_one_le_exp (p - q)) (Real.exp_pos q).le
      rwa [← Real.exp_add, add_sub_cancel] at this
    linarith
  · change me i * me i / mu i * ((y i - mu i) / me i) = y i - mu i
    have := Real.exp_pos ((x *ᵥ s.coef) i)
    rw [hme i, hm i]
    field_simp

/-- C46: coefficients that an iteration reproduces (logistic) satisfy the score equations and maximise the likelihood. -/
theorem C46_binomial_fixed_point {x : Matrix (Fin n) (Fin k) ℝ} {y : Fin n → ℝ} {s : GlmState n k}
    (h : glmStep (glmBinomial n) x y (x *ᵥ s.coef) (binomialLinkinv (x *ᵥ s.coef)) = .ok s) :
    (∀ j, ∑ i, x i j * (y i - binomialLinkinv (x *ᵥ s.coef) i) = 0) ∧ ∀ b, logisticLL x y b ≤ logisticLL x y s.coef := by
  obtain ⟨me, h1, h2, h3, _⟩ := glmStep_ok h
  have hme : me = binomialMuEta (x *ᵥ s.coef) := (Res.ok.inj h1).symm
  have hs := score_of_fixed (x := x) (y := y) (mu := binomialLinkinv (x *ᵥ s.coef)) (me := me) (fun i => ?_)
    (gwPredict_ok (fun i => (h2 i).2.2) h3).2.2
  · refine ⟨hs, fun b => ?_⟩
    have hd := score_dot hs (b - s.coef)
    unfold logisticLL
    rw [← add_zero (∑ i, (y i * (∑ j, x i j * s.coef j) - _)), ← hd, ← Finset.sum_add_distrib]
    refine Finset.sum_le_sum fun i _ => ?_
    have e : ∑ j, x i j * (b - s.coef) j = ∑ j, x i j * b j - ∑ j, x i j * s.coef j := by
      rw [← Finset.sum_sub_distrib]; exact Finset.sum_congr rfl fun j _ => by rw [Pi.sub_apply]; ring
    have e2 : binomialLinkinv (x *ᵥ s.coef) i
        = Real.exp (∑ j, x i j * s.coef j) / (1 + Real.exp (∑ j, x i j * s.coef j)) := rfl
    rw [e, e2]
    set p := ∑ j, x i j * b j
    set q := ∑ j, x i j * s.coef j
    have hp := Real.exp_pos p
    have hq := Real.exp_pos q
    have t : Real.exp q / (1 + Real.exp q) * (p - q) ≤ Real.log (1 + Real.exp p) - Real.log (1 + Real.exp q) := by
      rw [← Real.log_div (by positivity) (by positivity), Real.le_log_iff_exp_le (by positivity)]
      have c1 : 0 ≤ Real.exp q / (1 + Real.exp q) := by positivity
      have c2 : 0 ≤ 1 / (1 + Real.exp q) := by positivity
      have c3 : Real.exp q / (1 + Real.exp q) + 1 / (1 + Real.exp q) = 1 := by field_simp; ring
      have hc := convexOn_exp.2 (Set.mem_univ (p - q)) (Set.mem_univ (0 : ℝ)) c1 c2 c3
      simp only [smul_eq_mul, mul_zero, add_zero, Real.exp_zero, mul_one] at hc
      refine hc.trans (le_of_eq ?_)
      rw [Real.exp_sub]
      field_simp
      ring
    linarith
  · change me i * me i / (binomialLinkinv (x *ᵥ s.coef) i * (1 - binomialLinkinv (x *ᵥ s.coef) i)) *
      ((y i - binomialLinkinv (x *ᵥ s.coef) i) / me i) = y i - binomialLinkinv (x *ᵥ s.coef) i
    have hp := Real.exp_pos ((x *ᵥ s.coef) i)
    have e1 : me i = binomialLinkinv (x *ᵥ s.coef) i * (1 - binomialLinkinv (x *ᵥ s.coef) i) := by
      rw [hme]; unfold binomialMuEta binomialLinkinv; field_simp; ring
    have e2 : me i ≠ 0 := (h2 i).1
    rw [← e1]
    field_simp

/-! ## The fit always completes -/

/-- A step succeeds when derivatives and variances are positive, the design has full column rank and the family accepts what comes out. -/
theorem glmStep_total {F : GlmFamily n} {x : Matrix (Fin n) (Fin k) ℝ} {y eta mu me : Fin n → ℝ} (hx : Determined x fun _ => 1)
    (hme : F.muEta eta = .ok me) (h1 : ∀ i, 0 < me i) (h2 : ∀ i, 0 < F.variance mu i)
    (h3 : ∀ e, ∃ m d, F.linkinv e = .ok m ∧ F.devResids y m (fun _ => 1) = .ok d) :
    ∃ s, glmStep F x y eta mu = .ok s := by
  have hz : (Res.tabulate n fun i => (fdiv (y i - mu i) (me i)).bind fun q => .ok (eta i + q))
      = .ok fun i => eta i + (y i - mu i) / me i :=
    Res.tabulate_eq_ok.2 fun i => by rw [fdiv_ne (h1 i).ne', Res.bind]
  have hv : ∀ i, 0 < me i * me i / F.variance mu i := fun i => div_pos (mul_pos (h1 i) (h1 i)) (h2 i)
  have hw : (Res.tabulate n fun i => (fdiv (me i * me i) (F.variance mu i)).bind fsqrt)
      = .ok fun i => Real.sqrt (me i * me i / F.variance mu i) :=
    Res.tabulate_eq_ok.2 fun i => by
      rw [fdiv_ne (h2 i).ne', Res.bind]
      unfold fsqrt
      rw [if_neg (not_lt.2 (hv i).le)]
  obtain ⟨b, hb⟩ := gwPredict_of_determined (x := x) (v := fun i => me i * me i / F.variance mu i) (fun i => (hv i).le)
    (fun c hc => hx c fun l _ => hc l (hv l)) fun i => eta i + (y i - mu i) / me i
  obtain ⟨m, d, hm, hd⟩ := h3 (x *ᵥ b)
  have hb' : gwPredict (Matrix.of fun i j => x i j * Real.sqrt (me i * me i / F.variance mu i))
      (fun i => (eta i + (y i - mu i) / me i) * Real.sqrt (me i * me i / F.variance mu i)) (fun _ => 1) = .ok b := by
    have := gwPredict_scaled x (fun i => eta i + (y i - mu i) / me i) fun i => Real.sqrt (me i * me i / F.variance mu i)
    rw [this, ← hb]
    congr 1
    funext i
    exact Real.mul_self_sqrt (hv i).le
  refine ⟨⟨b, x *ᵥ b, m, ∑ i, d i⟩, ?_⟩
  unfold glmStep
  rw [hme, Res.bind, hz, Res.bind, hw, Res.bind, hb', Res.bind, hm, Res.bind, hd]
  rfl

theorem glmLoop_total {F : GlmFamily n} {x : Matrix (Fin n) (Fin k) ℝ} {y : Fin n → ℝ} (G : (Fin n → ℝ) → Prop)
    (hG : ∀ e m, F.linkinv e = .ok m → G m) (hs : ∀ eta mu, G mu → ∃ s, glmStep F x y eta mu = .ok s) (fuel : ℕ) :
    ∀ (s : GlmState n k) (it : ℕ), G s.mu → ∃ r, glmLoop F x y fuel s it = .ok r := by
  induction fuel with
  | zero => exact fun s it _ => ⟨_, rfl⟩
  | succ fuel ih =>
    intro s it hm
    obtain ⟨s', h⟩ := hs s.eta s.mu hm
    obtain ⟨_, _, _, _, _, e, _⟩ := glmStep_ok h
    unfold glmLoop
    rw [h, Res.bind]
    by_cases hc : glmConverged s'.dev s.dev
    · rw [if_pos hc]; exact ⟨_, rfl⟩
    · rw [if_neg hc]; exact ih s' _ (hG _ _ e)

/-- C46: the Poisson fit completes for all non-negative counts and every design of full column rank. -/
theorem C46_poisson_fit_completes (hn : n ≠ 0) (x : Matrix (Fin n) (Fin k) ℝ) (y : Fin n → ℝ) (hy : ∀ i, 0 ≤ y i)
    (hx : Determined x fun _ => 1) : ∃ s it conv, glmFit (glmPoisson n) x y = .ok (s, it, conv) := by
  have hlink : ∀ e, ∃ m d, (glmPoisson n).linkinv e = .ok m ∧ (glmPoisson n).devResids y m (fun _ => 1) = .ok d := by
    intro e
    obtain ⟨m, h1, h2⟩ := C46_poisson_range hn e
    exact ⟨m, _, h1, C46_poisson_deviance hn y m _ hy h2⟩
  have hpos : ∀ e m, (glmPoisson n).linkinv e = .ok m → ∀ i, 0 < m i := by
    intro e m h
    obtain ⟨m', h1, h2⟩ := C46_poisson_range hn e
    have : m = m' := Res.ok.inj (h.symm.trans h1)
    rw [this]; exact h2
  have h0 : ∀ i, 0 < poissonMuStart y i := fun i => by unfold poissonMuStart; linarith [hy i]
  have hl : (glmPoisson n).linkfun ((glmPoisson n).muStart y) = .ok fun i => Real.log (poissonMuStart y i) :=
    Res.tabulate_eq_ok.2 fun i => flog_pos (h0 i)
  obtain ⟨m, d, hm, hd⟩ := hlink fun i => Real.log (poissonMuStart y i)
  obtain ⟨r, hr⟩ := glmLoop_total (F := glmPoisson n) (x := x) (y := y) (fun m => ∀ i, 0 < m i) hpos
    (fun eta mu hmu => by
      obtain ⟨me, a, b⟩ := C46_poisson_range hn eta
      exact glmStep_total hx (me := me) a b hmu hlink) 25 ⟨0, _, m, ∑ i, d i⟩ 0 (hpos _ _ hm)
  refine ⟨r.1, r.2.1, r.2.2, ?_⟩
  unfold glmFit
  rw [hl, Res.bind, hm, Res.bind, hd, Res.bind]
  exact hr

/-- C46: the logistic fit completes for all proportions and every design of full column rank. -/
theorem C46_binomial_fit_completes (x : Matrix (Fin n) (Fin k) ℝ) (y : Fin n → ℝ) (hy : ∀ i, 0 ≤ y i ∧ y i ≤ 1)
    (hx : Determined x fun _ => 1) : ∃ s it conv, glmFit (glmBinomial n) x y = .ok (s, it, conv) := by
  have hlink : ∀ e, ∃ m d, (glmBinomial n).linkinv e = .ok m ∧ (glmBinomial n).devResids y m (fun _ => 1) = .ok d :=
    fun e => ⟨_, _, rfl, C46_binomial_deviance y _ _ hy (C46_binomial_range e)⟩
  have hpos : ∀ e m, (glmBinomial n).linkinv e = .ok m → ∀ i, 0 < m i ∧ m i < 1 := by
    intro e m h
    have : m = binomialLinkinv e := (Res.ok.inj h).symm
    rw [this]; exact C46_binomial_range e
  have h0 : ∀ i, 0 < binomialMuStart y (fun _ => 1) i ∧ binomialMuStart y (fun _ => 1) i < 1 := fun i => by
    unfold binomialMuStart
    have := hy i
    exact ⟨by apply div_pos <;> linarith, by rw [div_lt_one (by norm_num)]; linarith⟩
  obtain ⟨eta, hl, _⟩ := C46_binomial_linkinv_link _ h0
  have hl' : (glmBinomial n).linkfun ((glmBinomial n).muStart y) = .ok eta := hl
  obtain ⟨m, d, hm, hd⟩ := hlink eta
  obtain ⟨r, hr⟩ := glmLoop_total (F := glmBinomial n) (x := x) (y := y) (fun m => ∀ i, 0 < m i ∧ m i < 1) hpos
    (fun eta mu hmu => glmStep_total hx (me := binomialMuEta eta) rfl
      (fun i => by unfold binomialMuEta; have := Real.exp_pos (eta i); positivity)
      (fun i => mul_pos (hmu i).1 (by linarith [(hmu i).2])) hlink) 25 ⟨0, eta, m, ∑ i, d i⟩ 0 (hpos _ _ hm)
  refine ⟨r.1, r.2.1, r.2.2, ?_⟩
  unfold glmFit
  rw [hl', Res.bind, hm, Res.bind, hd, Res.bind]
  exact hr

theorem exX_ones : Determined exX fun _ => 1 := exX_determined _ fun _ => one_pos

example : ∃ s it conv, glmFit (glmPoisson 3) exX ![0, 2, 7] = .ok (s, it, conv) :=
  C46_poisson_fit_completes (by norm_num) exX _ (fun i => by fin_cases i <;> norm_num) exX_ones

example : ∃ s it conv, glmFit (glmBinomial 3) exX ![0, 1, 1] = .ok (s, it, conv) :=
  C46_binomial_fit_completes exX _ (fun i => by fin_cases i <;> norm_num) exX_ones

/-! ## Diagnostics -/

/-- C86, partial: for `n > k + 1` the correction of the global model is the integer part of the stated correction; it is exact when the
division leaves no remainder. Missing: the fractional part in general, and `n ≤ k + 1`. -/
theorem C86_correction_partial (n k : ℕ) (h : k + 1 < n) (hn : n < 2 ^ 64) :
    ∃ c, glmCorrection n k = .ok c ∧ (c : ℝ) ≤ aiccCorrection n k ∧ aiccCorrection n k < c + 1 ∧
      ((n - k - 1) ∣ 2 * k * (k + 1) → (c : ℝ) = aiccCorrection n k) := by
  have hu : uSub (uSub n k) 1 = n - k - 1 := by unfold uSub; omega
  have hp : 0 < n - k - 1 := by omega
  have hc : ((n - k - 1 : ℕ) : ℝ) = (n : ℝ) - k - 1 := by rw [Nat.cast_sub (by omega), Nat.cast_sub (by omega)]; norm_num
  have hp' : (0 : ℝ) < (n : ℝ) - k - 1 := by rw [← hc]; exact_mod_cast hp
  have hnum : ((2 * k * (k + 1) : ℕ) : ℝ) = 2 * k * (k + 1) := by push_cast; ring
  have he : aiccCorrection n k = ((2 * k * (k + 1) : ℕ) : ℝ) / ((n - k - 1 : ℕ) : ℝ) := by unfold aiccCorrection; rw [hc, hnum]
  refine ⟨2 * k * (k + 1) / (n - k - 1), ?_, ?_, ?_, ?_⟩
  · unfold glmCorrection; rw [hu, if_neg hp.ne']
  · rw [he]; exact Nat.cast_div_le
  · rw [he, div_lt_iff₀ (by rw [hc]; exact hp')]
    have := Nat.lt_mul_div_succ (2 * k * (k + 1)) hp
    have h2 : ((2 * k * (k + 1) : ℕ) : ℝ) < (((n - k - 1) * (2 * k * (k + 1) / (n - k - 1) + 1) : ℕ) : ℝ) := by exact_mod_cast this
    rw [Nat.cast_mul (n - k - 1), Nat.cast_add (2 * k * (k + 1) / (n - k - 1)), Nat.cast_one] at h2
    linarith
  · intro hd
    rw [he, Nat.cast_div hd (by exact_mod_cast hp.ne')]

/-- C86 fails: whenever the division leaves a remainder the reported correction is strictly too small. -/
theorem C86_correction_truncated (n k c : ℕ) (h : k + 1 < n) (hn : n < 2 ^ 64) (hd : ¬ (n - k - 1) ∣ 2 * k * (k + 1))
    (hc : glmCorrection n k = .ok c) : (c : ℝ) < aiccCorrection n k := by
  obtain ⟨c', h1, h2, _, _⟩ := C86_correction_partial n k h hn
  have : c = c' := Res.ok.inj (hc.symm.trans h1)
  subst this
  refine lt_of_le_of_ne h2 fun he => hd ?_
  have hcst : ((n - k - 1 : ℕ) : ℝ) = (n : ℝ) - k - 1 := by rw [Nat.cast_sub (by omega), Nat.cast_sub (by omega)]; norm_num
  have hp : (0 : ℝ) < (n : ℝ) - k - 1 := by rw [← hcst]; exact_mod_cast (by omega : 0 < n - k - 1)
  unfold aiccCorrection at he
  rw [eq_div_iff hp.ne', ← hcst] at he
  exact ⟨c, by have : c * (n - k - 1) = 2 * k * (k + 1) := by exact_mod_cast he
               rw [← this, mul_comm]⟩

/-- C86 fails: 100 observations and 3 variables give no correction at all instead of 24/96. -/
theorem C86_correction_vanishes : glmCorrection 100 3 = .ok 0 ∧ aiccCorrection 100 3 = 1 / 4 := by
  constructor
  · rfl
  · unfold aiccCorrection; norm_num

/-- **C86 (few observations).** With no more observations than coefficients the unsigned difference wraps around, so the correction is 0 instead of
negative: AICc is reported as AIC. -/
theorem C86_correction_few (n k : ℕ) (h : n ≤ k) (hk : k < 2 ^ 31) : glmCorrection n k = .ok 0 := by
  have h1 : uSub (uSub n k) 1 = 2 ^ 64 + n - k - 1 := by unfold uSub; omega
  unfold glmCorrection
  rw [h1, if_neg (by omega)]
  have h2 : 2 * k * (k + 1) ≤ 2 * 2 ^ 31 * 2 ^ 31 := Nat.mul_le_mul (by omega) (by omega)
  rw [Nat.div_eq_of_lt (by omega)]

example : glmCorrection 5 7 = .ok 0 := C86_correction_few 5 7 (by norm_num) (by norm_num)

/-- C86 fails: with one observation more than variables the program divides an integer by zero, whatever the data. -/
theorem C86_division_by_zero (F : GlmFamily (k + 1)) (x : Matrix (Fin (k + 1)) (Fin k) ℝ) (y : Fin (k + 1) → ℝ) :
    (∀ d, calGlm F x y ≠ .ok d) ∧ glmCorrection (k + 1) k = .ub := by
  have h : glmCorrection (k + 1) k = .ub := by
    unfold glmCorrection
    rw [if_pos (by unfold uSub; omega)]
  refine ⟨fun d hd => ?_, h⟩
  unfold calGlm at hd
  obtain ⟨_, _, hd⟩ := Res.bind_eq_ok'.1 hd
  obtain ⟨_, _, hd⟩ := Res.bind_eq_ok'.1 hd
  obtain ⟨_, _, hd⟩ := Res.bind_eq_ok'.1 hd
  rw [h] at hd
  cases hd

/-- C93 fails: for Poisson counts `aic()` charges two units for every observation, not for every coefficient. -/
theorem C93_penalty (y mu : Fin n → ℝ) (hm : ∀ i, 0 < mu i) :
    glmPoissonAic y mu = .ok (aicOf (∑ i, poissonLogPmf (y i) (mu i)) n) := by
  have : (Res.tabulate n fun i => dpois (y i) (mu i)) = .ok fun i => poissonLogPmf (y i) (mu i) :=
    Res.tabulate_eq_ok.2 fun i => by
      unfold dpois poissonLogPmf
      rw [flog_pos (hm i), Res.bind]
      congr 1
      ring
  unfold glmPoissonAic aicOf
  rw [this, Res.bind]

/-- C93 fails: with fewer coefficients than observations the reported value is strictly too large. -/
theorem C93_penalty_too_large (y mu : Fin n → ℝ) (hm : ∀ i, 0 < mu i) (hk : k < n) :
    ∃ a, glmPoissonAic y mu = .ok a ∧ aicOf (∑ i, poissonLogPmf (y i) (mu i)) k < a := by
  refine ⟨_, C93_penalty y mu hm, ?_⟩
  unfold aicOf
  have : (k : ℝ) < n := by exact_mod_cast hk
  linarith

example : ∀ i : Fin 3, (0 : ℝ) < (fun _ => 2 : Fin 3 → ℝ) i := fun _ => by norm_num

/-- C46: the pseudo coefficient of determination of the global Poisson model never exceeds one. -/
theorem C46_poisson_pseudo_r2 (hn : n ≠ 0) {x : Matrix (Fin n) (Fin k) ℝ} {y : Fin n → ℝ} {d : GlmDiag} (hy : ∀ i, 0 < y i)
    (h : calGlm (glmPoisson n) x y = .ok d) : 0 ≤ d.dev ∧ 0 < d.nullDev ∧ d.rSquare ≤ 1 := by
  unfold calGlm at h
  obtain ⟨r, hr, h⟩ := Res.bind_eq_ok'.1 h
  obtain ⟨nd, hnd, h⟩ := Res.bind_eq_ok'.1 h
  obtain ⟨q, hq, h⟩ := Res.bind_eq_ok'.1 h
  obtain ⟨c, _, h⟩ := Res.bind_eq_ok'.1 h
  cases h
  obtain ⟨_, h1, _⟩ := C46_poisson_fit_deviance (it := r.2.1) (conv := r.2.2) hn (fun i => (hy i).le) hr
  unfold glmNullDev at hnd
  obtain ⟨m, hm, hnd⟩ := Res.bind_eq_ok'.1 hnd
  obtain ⟨dv, hdv, hnd⟩ := Res.bind_eq_ok'.1 hnd
  cases hnd
  have hn' : (0 : ℝ) < n := by exact_mod_cast Nat.pos_of_ne_zero hn
  rw [fdiv_ne hn'.ne'] at hm
  cases hm
  have hmp : 0 < (∑ i, y i) / (n : ℝ) := by
    have : Nonempty (Fin n) := ⟨⟨0, Nat.pos_of_ne_zero hn⟩⟩
    exact div_pos (Finset.sum_pos (fun i _ => hy i) Finset.univ_nonempty) hn'
  obtain ⟨d', e1, e2, _⟩ := C46_poisson_deviance_sign hn y (fun _ => (∑ i, y i) / (n : ℝ)) (fun i => (hy i).le) fun _ => hmp
  have : dv = d' := Res.ok.inj (hdv.symm.trans e1)
  subst this
  unfold fdiv at hq
  by_cases h0 : ∑ i, dv i = 0
  · rw [if_pos h0] at hq; cases hq
  · rw [if_neg h0] at hq
    cases hq
    have hp : 0 < ∑ i, dv i := lt_of_le_of_ne e2 (Ne.symm h0)
    exact ⟨h1, hp, by have := div_nonneg h1 hp.le; simp only; linarith⟩

/-! ## Stationary points -/

theorem xtw_gram_cancel {x : Matrix (Fin n) (Fin k) ℝ} {z v : Fin n → ℝ} {b : Fin k → ℝ} (hv : ∀ i, 0 ≤ v i)
    (hb : gwPredict x z v = .ok b) (c : Fin k → ℝ) (hc : xtwx x v *ᵥ c = xtw x v *ᵥ z) : b = c := by
  obtain ⟨_, h2, h3⟩ := gwPredict_ok hv hb
  have hp := (gram_posDef_iff_determined x v hv).2 h2
  rw [← inv_mul_gram hp b, h3, ← hc, inv_mul_gram hp c]

theorem fixed_of_score {x : Matrix (Fin n) (Fin k) ℝ} {y mu me v : Fin n → ℝ} {b : Fin k → ℝ}
    (hr : ∀ i, v i * ((y i - mu i) / me i) = y i - mu i) (h : ∀ j, ∑ i, x i j * (y i - mu i) = 0) :
    xtwx x v *ᵥ b = xtw x v *ᵥ fun i => (x *ᵥ b) i + (y i - mu i) / me i := by
  rw [xtwx_mulVec]
  funext j
  simp only [mulVec, dotProduct, xtw, of_apply]
  have h2 : ∑ i, x i j * v i * ((∑ a, x i a * b a) + (y i - mu i) / me i)
      = ∑ i, x i j * v i * (∑ a, x i a * b a) + ∑ i, x i j * (y i - mu i) := by
    rw [← Finset.sum_add_distrib]
    refine Finset.sum_congr rfl fun i _ => ?_
    have := hr i
    calc _ = x i j * v i * (∑ a, x i a * b a) + x i j * (v i * ((y i - mu i) / me i)) := by ring
      _ = _ := by rw [this]
  rw [h2, h j, add_zero]

/-- C46: a Poisson iteration started at coefficients satisfying the score equations returns these coefficients (no mean clamped). -/
theorem C46_poisson_stationary (hn : n ≠ 0) {x : Matrix (Fin n) (Fin k) ℝ} {y : Fin n → ℝ} (b : Fin k → ℝ) (hy : ∀ i, 0 ≤ y i)
    (hx : Determined x fun _ => 1) (he : ∀ i, poisEps ≤ Real.exp ((x *ᵥ b) i))
    (hs : ∀ j, ∑ i, x i j * (y i - Real.exp ((x *ᵥ b) i)) = 0) :
    ∃ mu s, poissonLinkinv (x *ᵥ b) = .ok mu ∧ glmStep (glmPoisson n) x y (x *ᵥ b) mu = .ok s ∧ s.coef = b := by
  obtain ⟨mu, h1, h2⟩ := C46_poisson_range hn (x *ᵥ b)
  have hm : ∀ i, mu i = Real.exp ((x *ᵥ b) i) := fun i => by rw [poissonLinkinv_ok h1 i, max_eq_left (he i)]
  have hlink : ∀ e, ∃ m d, (glmPoisson n).linkinv e = .ok m ∧ (glmPoisson n).devResids y m (fun _ => 1) = .ok d := by
    intro e
    obtain ⟨m, h1, h2⟩ := C46_poisson_range hn e
    exact ⟨m, _, h1, C46_poisson_deviance hn y m _ hy h2⟩
  obtain ⟨s, hst⟩ := glmStep_total (F := glmPoisson n) (mu := mu) hx (me := mu) h1 h2 h2 hlink
  refine ⟨mu, s, h1, hst, ?_⟩
  obtain ⟨me, g1, g2, g3, _⟩ := glmStep_ok hst
  have hme : me = mu := Res.ok.inj (g1.symm.trans h1)
  subst hme
  refine xtw_gram_cancel (fun i => (g2 i).2.2) g3 b (fixed_of_score (mu := me) (fun i => ?_) fun j => ?_)
  · change me i * me i / me i * ((y i - me i) / me i) = y i - me i
    have := h2 i
    field_simp
  · rw [← hs j]; exact Finset.sum_congr rfl fun i _ => by rw [hm i]

/-- C46: a logistic iteration started at coefficients satisfying the score equations returns these coefficients. -/
theorem C46_binomial_stationary {x : Matrix (Fin n) (Fin k) ℝ} {y : Fin n → ℝ} (b : Fin k → ℝ) (hy : ∀ i, 0 ≤ y i ∧ y i ≤ 1)
    (hx : Determined x fun _ => 1) (hs : ∀ j, ∑ i, x i j * (y i - binomialLinkinv (x *ᵥ b) i) = 0) :
    ∃ s, glmStep (glmBinomial n) x y (x *ᵥ b) (binomialLinkinv (x *ᵥ b)) = .ok s ∧ s.coef = b := by
  have hlink : ∀ e, ∃ m d, (glmBinomial n).linkinv e = .ok m ∧ (glmBinomial n).devResids y m (fun _ => 1) = .ok d :=
    fun e => ⟨_, _, rfl, C46_binomial_deviance y _ _ hy (C46_binomial_range e)⟩
  have hr := C46_binomial_range (x *ᵥ b)
  obtain ⟨s, hst⟩ := glmStep_total (F := glmBinomial n) (eta := x *ᵥ b) (mu := binomialLinkinv (x *ᵥ b)) hx
    (me := binomialMuEta (x *ᵥ b)) rfl (fun i => by unfold binomialMuEta; have := Real.exp_pos ((x *ᵥ b) i); positivity)
    (fun i => mul_pos (hr i).1 (by linarith [(hr i).2])) hlink
  refine ⟨s, hst, ?_⟩
  obtain ⟨me, g1, g2, g3, _⟩ := glmStep_ok hst
  have hme : me = binomialMuEta (x *ᵥ b) := (Res.ok.inj g1).symm
  refine xtw_gram_cancel (fun i => (g2 i).2.2) g3 b (fixed_of_score (mu := binomialLinkinv (x *ᵥ b)) (fun i => ?_) hs)
  change me i * me i / (binomialLinkinv (x *ᵥ b) i * (1 - binomialLinkinv (x *ᵥ b) i)) *
    ((y i - binomialLinkinv (x *ᵥ b) i) / me i) = y i - binomialLinkinv (x *ᵥ b) i
  have hp := Real.exp_pos ((x *ᵥ b) i)
  have e1 : me i = binomialLinkinv (x *ᵥ b) i * (1 - binomialLinkinv (x *ᵥ b) i) := by
    rw [hme]; unfold binomialMuEta binomialLinkinv; field_simp; ring
  have e2 : me i ≠ 0 := (g2 i).1
  rw [← e1]
  field_simp

/-- One column of ones for two observations. -/
def glmOnes : Matrix (Fin 2) (Fin 1) ℝ := Matrix.of fun _ _ => 1

/-- A fixed point exists: counts 0 and 2, mean 1. -/
example : ∃ mu s, poissonLinkinv (glmOnes *ᵥ 0) = .ok mu ∧ glmStep (glmPoisson 2) glmOnes ![0, 2] (glmOnes *ᵥ 0) mu = .ok s ∧
    s.coef = 0 := by
  refine C46_poisson_stationary (by norm_num) 0 (fun i => by fin_cases i <;> norm_num) ?_ ?_ ?_
  · intro b hb; funext j; have := hb 0 one_pos; fin_cases j; simpa [glmOnes] using this
  · intro i; simp only [mulVec_zero, Pi.zero_apply, Real.exp_zero]; unfold poisEps; norm_num
  · intro j; simp only [mulVec_zero, Pi.zero_apply, Real.exp_zero, Fin.sum_univ_two, glmOnes, of_apply]; norm_num

/-- A fixed point exists: one success and one failure, mean one half. -/
example : ∃ s, glmStep (glmBinomial 2) glmOnes ![0, 1] (glmOnes *ᵥ 0) (binomialLinkinv (glmOnes *ᵥ 0)) = .ok s ∧ s.coef = 0 := by
  refine C46_binomial_stationary 0 (fun i => by fin_cases i <;> norm_num) ?_ ?_
  · intro b hb; funext j; have := hb 0 one_pos; fin_cases j; simpa [glmOnes] using this
  · intro j; simp only [mulVec_zero, binomialLinkinv, Pi.zero_apply, Real.exp_zero, Fin.sum_univ_two, glmOnes, of_apply]; norm_num

end Verif.Props

import Verif.Lemmas.LocalRegression
import Mathlib.Tactic.FieldSimp
import Mathlib.Data.Fin.VecNotation
import Mathlib.LinearAlgebra.Matrix.Notation
import Mathlib.Tactic.FinCases
import Mathlib.Tactic.NormNum

/-! # C21–C26, C56: what a GWR fit means

Throughout, `fitCoreSerial … = .ok (a, false)` says: the fit returned normally and no stop request was seen. -/

namespace Verif.Props
open Verif Verif.Model Verif.Spec Matrix Classical

variable {n k m : ℕ}

/-- No stop request ever arrives. -/
abbrev NoStop : ℕ → Bool := fun _ => false

/-! ## C21 -/

/-- **C21.** At every location the coefficients returned by a fit are the unique minimiser of the weighted residual sum of
squares with the weights of that location. -/
theorem C21_fit_is_weighted_least_squares (x : Matrix (Fin n) (Fin k) ℝ) (y : Fin n → ℝ) (W : Fin n → Fin n → ℝ)
    (sS sC : Bool) (stop : ℕ → Bool) (a : FitAcc n k) (h : fitCoreSerial x y W 0 n sS sC stop = .ok (a, false)) (i : Fin n) :
    IsWLS x y (W i) (a.betas i) := by
  obtain ⟨hp, hc⟩ := fitCoreSerial_ok h
  rw [hc.betas i (Nat.zero_le _) i.isLt]
  exact isWLS_of_posDef (hp i (Nat.zero_le _) i.isLt)

/-- **C21 (normal equations).** The weighted residuals are orthogonal to every covariate. -/
theorem C21_normal_equations (x : Matrix (Fin n) (Fin k) ℝ) (y : Fin n → ℝ) (W : Fin n → Fin n → ℝ)
    (sS sC : Bool) (stop : ℕ → Bool) (a : FitAcc n k) (h : fitCoreSerial x y W 0 n sS sC stop = .ok (a, false)) (i : Fin n)
    (j : Fin k) : ∑ l, x l j * W i l * (y l - ∑ j', x l j' * a.betas i j') = 0 := by
  obtain ⟨hp, hc⟩ := fitCoreSerial_ok h
  have hn := normal_equations (y := y) (hp i (Nat.zero_le _) i.isLt)
  have hb : a.betas i = (xtwx x (W i))⁻¹ *ᵥ (xtw x (W i) *ᵥ y) := hc.betas i (Nat.zero_le _) i.isLt
  rw [← hb, xtwx_mulVec] at hn
  have := congrFun hn j
  simp only [mulVec, dotProduct, xtw, of_apply] at this
  have e : ∑ l, x l j * W i l * (y l - ∑ j', x l j' * a.betas i j') =
      ∑ l, x l j * W i l * y l - ∑ l, x l j * W i l * ∑ j', x l j' * a.betas i j' := by
    rw [← Finset.sum_sub_distrib]; exact Finset.sum_congr rfl fun l _ => by ring
  rw [e, this, sub_self]

/-- **C21 (prediction).** The coefficients predicted at a location are the weighted least squares fit there. -/
theorem C21_prediction_is_weighted_least_squares (x : Matrix (Fin n) (Fin k) ℝ) (y : Fin n → ℝ) (W : Fin m → Fin n → ℝ)
    (stop : ℕ → Bool) (b : Matrix (Fin m) (Fin k) ℝ) (h : predictSerial x y W stop = .ok (b, false)) (i : Fin m) :
    IsWLS x y (W i) (b i) := by
  obtain ⟨h1, -⟩ := betaLoop_ok (List.nodup_finRange m) h
  obtain ⟨hp, hb⟩ := localBeta_eq_ok.1 (h1 i (List.mem_finRange i))
  rw [hb]
  exact isWLS_of_posDef hp

theorem fit_of_posDef (x : Matrix (Fin n) (Fin k) ℝ) (y : Fin n → ℝ) (W : Fin n → Fin n → ℝ) (f s : ℕ) (sS sC : Bool)
    (hp : ∀ i : Fin n, f ≤ i.val → i.val < s → (xtwx x (W i)).PosDef) :
    ∃ a, fitCoreSerial x y W f s sS sC NoStop = .ok (a, false) ∧ CoreFit x y W f s sS sC a (fitAt x y W) := by
  have hr : ∀ i ∈ workRange n f s, localFit x y (W i) (x i) = .ok (fitAt x y W i) :=
    fun i hi => localFit_fitAt (hp i (mem_workRange.1 hi).1 (mem_workRange.1 hi).2)
  exact ⟨_, serialFor_ok (fitAt x y W) _ 0 _ (fun _ _ => rfl) hr, coreFit_of_fold x y W f s sS sC _ hr⟩

/-- **C21 (when a fit succeeds).** With non-negative weights and no stop request, a fit returns normally exactly when at every
location the observations of positive weight determine the coefficients; otherwise it throws. -/
theorem C21_fit_succeeds_iff (x : Matrix (Fin n) (Fin k) ℝ) (y : Fin n → ℝ) (W : Fin n → Fin n → ℝ) (hW : ∀ i l, 0 ≤ W i l)
    (sS sC : Bool) :
    ((∃ a, fitCoreSerial x y W 0 n sS sC NoStop = .ok (a, false)) ↔ ∀ i, Determined x (W i)) ∧
    ((∃ i, ¬ Determined x (W i)) → fitCoreSerial x y W 0 n sS sC NoStop = .throw .singular) := by
  refine ⟨⟨?_, ?_⟩, ?_⟩
  · rintro ⟨a, h⟩ i
    exact (gram_posDef_iff_determined x (W i) (hW i)).1 ((fitCoreSerial_ok h).1 i (Nat.zero_le _) i.isLt)
  · intro h
    obtain ⟨a, ha, -⟩ := fit_of_posDef x y W 0 n sS sC
      (fun i _ _ => (gram_posDef_iff_determined x (W i) (hW i)).2 (h i))
    exact ⟨a, ha⟩
  · rintro ⟨i, hi⟩
    refine serialFor_fail (fun i => localFit_cases x y (W i) (x i)) _ 0 _ (fun _ _ => rfl)
      ⟨i, mem_workRange.2 ⟨Nat.zero_le _, i.isLt⟩, ?_⟩
    rcases localFit_cases x y (W i) (x i) with ⟨r, hr⟩ | hr
    · exact absurd ((gram_posDef_iff_determined x (W i) (hW i)).1 (localFit_eq_ok.1 hr).1) hi
    · exact hr

/-- A concrete design: intercept and one covariate at 0, 1, 2. -/
def exX : Matrix (Fin 3) (Fin 2) ℝ := !![1, 0; 1, 1; 1, 2]

/-- Concrete weights: 1 at the own observation, one half elsewhere. -/
noncomputable def exW : Fin 3 → Fin 3 → ℝ := fun i l => if l = i then 1 else 1 / 2

theorem exW_pos (i l : Fin 3) : 0 < exW i l := by unfold exW; split <;> norm_num

theorem exX_determined (w : Fin 3 → ℝ) (hw : ∀ l, 0 < w l) : Determined exX w := by
  intro b hb
  have h0 := hb 0 (hw 0)
  have h1 := hb 1 (hw 1)
  simp [exX, Fin.sum_univ_two] at h0 h1
  funext j
  fin_cases j
  · simpa using h0
  · simp only [Fin.mk_one, Fin.isValue, Pi.zero_apply]; linarith

/-- The hypotheses of the C21–C27 theorems are met: this fit succeeds for every response. -/
theorem ex_fit (y : Fin 3 → ℝ) (sS sC : Bool) : ∃ a, fitCoreSerial exX y exW 0 3 sS sC NoStop = .ok (a, false) :=
  (C21_fit_succeeds_iff exX y exW (fun i l => (exW_pos i l).le) sS sC).1.2 (fun i => exX_determined _ (exW_pos i))

example : ∃ a, fitCoreSerial exX ![1, 3, 2] exW 0 3 true true NoStop = .ok (a, false) ∧
    ∀ i, IsWLS exX ![1, 3, 2] (exW i) (a.betas i) := by
  obtain ⟨a, ha⟩ := ex_fit ![1, 3, 2] true true
  exact ⟨a, ha, C21_fit_is_weighted_least_squares _ _ _ _ _ _ _ ha⟩

/-! ## C22 -/

/-- **C22.** If the response is an exact linear combination of the covariates, every location gets exactly those
coefficients, the fitted values are the responses and the residual sum of squares is 0. -/
theorem C22_exact_law (x : Matrix (Fin n) (Fin k) ℝ) (y : Fin n → ℝ) (W : Fin n → Fin n → ℝ)
    (sS sC : Bool) (stop : ℕ → Bool) (a : FitAcc n k) (h : fitCoreSerial x y W 0 n sS sC stop = .ok (a, false))
    (β : Fin k → ℝ) (hy : ∀ l, y l = ∑ j, x l j * β j) :
    (∀ i, a.betas i = β) ∧ (∀ i, fitted x a.betas i = y i) ∧ rss x y a.betas = 0 := by
  obtain ⟨hp, hc⟩ := fitCoreSerial_ok h
  have hb : ∀ i, a.betas i = β := by
    intro i
    rw [hc.betas i (Nat.zero_le _) i.isLt]
    have : y = x *ᵥ β := by funext l; rw [hy l]; rfl
    simp only [fitAt]
    rw [this, ← xtwx_mulVec, inv_mul_gram (hp i (Nat.zero_le _) i.isLt)]
  have hf : ∀ i, fitted x a.betas i = y i := by
    intro i
    unfold fitted
    rw [hb i, hy i]; exact Finset.sum_congr rfl fun j _ => mul_comm _ _
  refine ⟨hb, hf, ?_⟩
  unfold rss
  exact Finset.sum_eq_zero fun i _ => by rw [hf i]; ring

/-- **C22 (prediction).** The same at predicted locations. -/
theorem C22_exact_law_prediction (x : Matrix (Fin n) (Fin k) ℝ) (y : Fin n → ℝ) (W : Fin m → Fin n → ℝ) (stop : ℕ → Bool)
    (b : Matrix (Fin m) (Fin k) ℝ) (h : predictSerial x y W stop = .ok (b, false)) (β : Fin k → ℝ)
    (hy : ∀ l, y l = ∑ j, x l j * β j) (i : Fin m) : b i = β := by
  obtain ⟨h1, -⟩ := betaLoop_ok (List.nodup_finRange m) h
  obtain ⟨hp, hb⟩ := localBeta_eq_ok.1 (h1 i (List.mem_finRange i))
  have : y = x *ᵥ β := by funext l; rw [hy l]; rfl
  rw [hb, this, ← xtwx_mulVec, inv_mul_gram hp]

/-! ## C23 -/

theorem xtw_smul (x : Matrix (Fin n) (Fin k) ℝ) (w : Fin n → ℝ) (c : ℝ) : xtw x (c • w) = c • xtw x w := by
  ext j l; simp only [xtw, of_apply, Matrix.smul_apply, Pi.smul_apply, smul_eq_mul]; ring

theorem xtwx_smul (x : Matrix (Fin n) (Fin k) ℝ) (w : Fin n → ℝ) (c : ℝ) : xtwx x (c • w) = c • xtwx x w := by
  unfold xtwx; rw [xtw_smul, smul_mul]

theorem posDef_smul_gram {x : Matrix (Fin n) (Fin k) ℝ} {w : Fin n → ℝ} {c : ℝ} (hc : 0 < c) (h : (xtwx x w).PosDef) :
    (xtwx x (c • w)).PosDef := by
  rw [gram_posDef_iff] at h ⊢
  intro b hb
  have := mul_pos hc (h b hb)
  rw [Finset.mul_sum] at this
  simpa [mul_assoc] using this

theorem fitAt_smul {x : Matrix (Fin n) (Fin k) ℝ} {y : Fin n → ℝ} {W : Fin n → Fin n → ℝ} {c : Fin n → ℝ} {i : Fin n}
    (hc : 0 < c i) (h : (xtwx x (W i)).PosDef) : fitAt x y (fun i => c i • W i) i = fitAt x y W i := by
  have hinv : (c i • xtwx x (W i))⁻¹ = (c i)⁻¹ • (xtwx x (W i))⁻¹ := by
    apply inv_eq_right_inv
    rw [smul_mul, Matrix.mul_smul, smul_smul, mul_nonsing_inv _ ((isUnit_iff_isUnit_det _).1 h.isUnit),
      mul_inv_cancel₀ hc.ne', one_smul]
  have hci : (c i • xtwx x (W i))⁻¹ * (c i • xtw x (W i)) = (xtwx x (W i))⁻¹ * xtw x (W i) := by
    rw [hinv, smul_mul, Matrix.mul_smul, smul_smul, inv_mul_cancel₀ hc.ne', one_smul]
  simp only [fitAt, xtwx_smul, xtw_smul]
  rw [mulVec_mulVec, hci, mulVec_mulVec]

theorem fold_congr_mem {α β : Type} (f g : β → α → β) (l : List α) (b : β) (h : ∀ b, ∀ a ∈ l, f b a = g b a) :
    l.foldl f b = l.foldl g b := by
  induction l generalizing b with
  | nil => rfl
  | cons a l ih =>
    rw [List.foldl_cons, List.foldl_cons, h b a List.mem_cons_self]
    exact ih _ (fun b a' ha => h b a' (List.mem_cons_of_mem _ ha))

/-- **C23 (scale of the weights).** Multiplying the weights of each location by a positive number changes nothing in the
result: coefficients, standard error terms, traces and hat matrix are the same. -/
theorem C23_weight_scale (x : Matrix (Fin n) (Fin k) ℝ) (y : Fin n → ℝ) (W : Fin n → Fin n → ℝ) (sS sC : Bool)
    (a : FitAcc n k) (c : Fin n → ℝ) (hc : ∀ i, 0 < c i)
    (h : fitCoreSerial x y W 0 n sS sC NoStop = .ok (a, false)) :
    fitCoreSerial x y (fun i l => c i * W i l) 0 n sS sC NoStop = .ok (a, false) := by
  obtain ⟨hp, -⟩ := fitCoreSerial_ok h
  have hr : ∀ i ∈ workRange n 0 n, localFit x y (W i) (x i) = .ok (fitAt x y W i) :=
    fun i hi => localFit_fitAt (hp i (mem_workRange.1 hi).1 (mem_workRange.1 hi).2)
  have hr' : ∀ i ∈ workRange n 0 n, localFit x y ((fun i l => c i * W i l) i) (x i) = .ok (fitAt x y W i) := by
    intro i hi
    have hpi := hp i (mem_workRange.1 hi).1 (mem_workRange.1 hi).2
    rw [← fitAt_smul (y := y) (hc i) hpi]
    exact localFit_fitAt (W := fun i => c i • W i) (posDef_smul_gram (hc i) hpi)
  have e1 : fitCoreSerial x y W 0 n sS sC NoStop = _ := serialFor_ok (fitAt x y W) _ 0 _ (fun _ _ => rfl) hr
  have e2 : fitCoreSerial x y (fun i l => c i * W i l) 0 n sS sC NoStop = _ :=
    serialFor_ok (fitAt x y W) _ 0 _ (fun _ _ => rfl) hr'
  rw [e2, ← e1, h]

/-- **C23 (linearity).** The coefficients of `α y + β z` are `α` times those of `y` plus `β` times those of `z`, and the
hat matrix does not depend on the response. -/
theorem C23_linear_in_response (x : Matrix (Fin n) (Fin k) ℝ) (y z : Fin n → ℝ) (α β : ℝ) (W : Fin n → Fin n → ℝ) (sS sC : Bool)
    (stop : ℕ → Bool) (a b c : FitAcc n k)
    (ha : fitCoreSerial x y W 0 n sS sC stop = .ok (a, false)) (hb : fitCoreSerial x z W 0 n sS sC stop = .ok (b, false))
    (hc : fitCoreSerial x (fun l => α * y l + β * z l) W 0 n sS sC stop = .ok (c, false)) :
    (∀ i j, c.betas i j = α * a.betas i j + β * b.betas i j) ∧ a.shat = b.shat ∧ (sS = true → ∀ i : Fin n, a.s i = b.s i) := by
  obtain ⟨hp, ca⟩ := fitCoreSerial_ok ha
  obtain ⟨-, cb⟩ := fitCoreSerial_ok hb
  obtain ⟨-, cc⟩ := fitCoreSerial_ok hc
  refine ⟨fun i j => ?_, ?_, fun hS i => ?_⟩
  · rw [ca.betas i (Nat.zero_le _) i.isLt, cb.betas i (Nat.zero_le _) i.isLt, cc.betas i (Nat.zero_le _) i.isLt]
    have : (fun l => α * y l + β * z l) = α • y + β • z := rfl
    simp only [fitAt, this, mulVec_add, mulVec_smul, Pi.add_apply, Pi.smul_apply, smul_eq_mul]
  · rw [ca.shat, cb.shat]; rfl
  · have h1 := ca.s hS i (Nat.zero_le _) i.isLt
    have h2 := cb.s hS i (Nat.zero_le _) i.isLt
    simp only [Nat.sub_zero] at h1 h2
    rw [h1, h2]; rfl

theorem xtw_congr {x x' : Matrix (Fin n) (Fin k) ℝ} {w : Fin n → ℝ} (h : ∀ l, w l ≠ 0 → x l = x' l) : xtw x w = xtw x' w := by
  ext j l
  simp only [xtw, of_apply]
  by_cases hl : w l = 0
  · rw [hl]; ring
  · rw [h l hl]

theorem xtwx_congr {x x' : Matrix (Fin n) (Fin k) ℝ} {w : Fin n → ℝ} (h : ∀ l, w l ≠ 0 → x l = x' l) :
    xtwx x w = xtwx x' w := by
  ext a b
  simp only [xtwx_apply]
  refine Finset.sum_congr rfl fun l _ => ?_
  by_cases hl : w l = 0
  · rw [hl]; ring
  · rw [h l hl]

theorem xtwy_congr {x x' : Matrix (Fin n) (Fin k) ℝ} {y y' w : Fin n → ℝ} (h : ∀ l, w l ≠ 0 → x l = x' l ∧ y l = y' l) :
    xtw x w *ᵥ y = xtw x' w *ᵥ y' := by
  ext j
  simp only [xtw, mulVec, dotProduct, of_apply]
  refine Finset.sum_congr rfl fun l _ => ?_
  by_cases hl : w l = 0
  · rw [hl]; ring
  · rw [(h l hl).1, (h l hl).2]

theorem localBeta_congr {x x' : Matrix (Fin n) (Fin k) ℝ} {y y' w : Fin n → ℝ}
    (h : ∀ l, w l ≠ 0 → x l = x' l ∧ y l = y' l) : localBeta x y w = localBeta x' y' w := by
  unfold localBeta
  rw [xtwx_congr (fun l hl => (h l hl).1), xtwy_congr h]

/-- **C23 (observations of weight zero).** Two data sets that differ only in observations whose weight at location `i` is zero
give the same coefficients at `i`. -/
theorem C23_zero_weight_ignored (x x' : Matrix (Fin n) (Fin k) ℝ) (y y' : Fin n → ℝ) (W : Fin n → Fin n → ℝ)
    (sS sC : Bool) (stop : ℕ → Bool) (a a' : FitAcc n k)
    (h : fitCoreSerial x y W 0 n sS sC stop = .ok (a, false)) (h' : fitCoreSerial x' y' W 0 n sS sC stop = .ok (a', false))
    (i : Fin n) (hd : ∀ l, W i l ≠ 0 → x l = x' l ∧ y l = y' l) : a.betas i = a'.betas i := by
  obtain ⟨-, ca⟩ := fitCoreSerial_ok h
  obtain ⟨-, ca'⟩ := fitCoreSerial_ok h'
  rw [ca.betas i (Nat.zero_le _) i.isLt, ca'.betas i (Nat.zero_le _) i.isLt]
  simp only [fitAt]
  rw [xtwx_congr (fun l hl => (hd l hl).1), xtwy_congr hd]

/-! ## C24 -/

/-- **C24.** The leave-one-out coefficients of observation `i` do not depend on that observation: replace its covariates and
its response by anything, and they stay the same. -/
theorem C24_own_observation_unused (x x' : Matrix (Fin n) (Fin k) ℝ) (y y' : Fin n → ℝ) (W : Fin n → Fin n → ℝ)
    (stop : ℕ → Bool) (b b' : Matrix (Fin n) (Fin k) ℝ)
    (h : fitCoreCVSerial x y W 0 n stop = .ok (b, false)) (h' : fitCoreCVSerial x' y' W 0 n stop = .ok (b', false))
    (i : Fin n) (hd : ∀ l, l ≠ i → x l = x' l ∧ y l = y' l) : b i = b' i := by
  obtain ⟨h1, -⟩ := betaLoop_ok (nodup_workRange n 0 n) h
  obtain ⟨h2, -⟩ := betaLoop_ok (nodup_workRange n 0 n) h'
  have hi : i ∈ workRange n 0 n := mem_workRange.2 ⟨Nat.zero_le _, i.isLt⟩
  have e1 := h1 i hi
  have e2 := h2 i hi
  rw [localBeta_congr (x' := x') (y' := y') (fun l hl => hd l (by
    rintro rfl
    simp [cvWeight] at hl))] at e1
  exact Res.ok.inj (e1.symm.trans e2)

/-- **C24 (meaning of the score).** The cross-validation score is the sum over observations of the squared error of predicting
the response (as long as that number fits in a `double`) with coefficients that are the weighted least squares fit to the other observations. -/
theorem C24_score_is_leave_one_out (x : Matrix (Fin n) (Fin k) ℝ) (y : Fin n → ℝ) (W : Fin n → Fin n → ℝ) (stop : ℕ → Bool)
    (b : Matrix (Fin n) (Fin k) ℝ) (h : fitCoreCVSerial x y W 0 n stop = .ok (b, false)) :
    (∀ i, IsWLS x y (fun l => if l = i then 0 else W i l) (b i)) ∧
    (∑ i, (y i - ∑ j, x i j * b i j) ^ 2 ≤ dblMax →
      criterionCV x y false (fitCoreCVSerial x y W 0 n stop) = ∑ i, (y i - ∑ j, x i j * b i j) ^ 2) := by
  obtain ⟨h1, -⟩ := betaLoop_ok (nodup_workRange n 0 n) h
  refine ⟨fun i => ?_, ?_⟩
  · obtain ⟨hp, hb⟩ := localBeta_eq_ok.1 (h1 i (mem_workRange.2 ⟨Nat.zero_le _, i.isLt⟩))
    have : cvWeight W i = fun l => if l = i then 0 else W i l := by
      funext l; simp only [cvWeight, Function.update_apply]
    rw [this] at hp hb
    rw [hb]
    exact isWLS_of_posDef hp
  · intro hle
    have e : rss x y b = ∑ i, (y i - ∑ j, x i j * b i j) ^ 2 := by
      simp only [rss, fitted]
      refine Finset.sum_congr rfl fun i _ => ?_
      rw [← sq]
      congr 2
      exact Finset.sum_congr rfl fun j _ => mul_comm _ _
    have hnn : 0 ≤ rss x y b := Finset.sum_nonneg fun i _ => mul_self_nonneg _
    simp only [h, criterionCV, and_self, if_true, finiteOrMax]
    rw [abs_of_nonneg hnn, e, if_pos hle]

/-- The concrete design also passes leave-one-out. -/
example : ∃ b, fitCoreCVSerial exX ![1, 3, 2] exW 0 3 NoStop = .ok (b, false) := by
  have hdet : ∀ i : Fin 3, (xtwx exX (cvWeight exW i)).PosDef := by
    intro i
    rw [gram_posDef_iff_determined _ _ (fun l => by
      simp only [cvWeight, Function.update_apply]; split
      · exact le_rfl
      · exact (exW_pos i l).le)]
    intro b hb
    have hpos : ∀ l, l ≠ i → 0 < cvWeight exW i l := fun l hl => by
      simp only [cvWeight, Function.update_apply, if_neg hl]; exact exW_pos i l
    have key : ∀ l, l ≠ i → b 0 + exX l 1 * b 1 = 0 := fun l hl => by
      have := hb l (hpos l hl)
      fin_cases l <;> simpa [exX, Fin.sum_univ_two] using this
    have k0 := key 0; have k1 := key 1; have k2 := key 2
    have hb01 : b 0 = 0 ∧ b 1 = 0 := by
      fin_cases i
      · have a1 := k1 (by decide); have a2 := k2 (by decide)
        simp [exX] at a1 a2
        constructor <;> linarith
      · have a1 := k0 (by decide); have a2 := k2 (by decide)
        simp [exX] at a1 a2
        constructor <;> linarith
      · have a1 := k0 (by decide); have a2 := k1 (by decide)
        simp [exX] at a1 a2
        constructor <;> linarith
    funext j
    fin_cases j
    · exact hb01.1
    · exact hb01.2
  exact ⟨_, serialFor_ok (fun i => (xtwx exX (cvWeight exW i))⁻¹ *ᵥ (xtw exX (cvWeight exW i) *ᵥ ![1, 3, 2])) _ 0 _
    (fun _ _ => rfl) (fun i _ => localBeta_eq_ok.2 ⟨hdet i, rfl⟩)⟩

/-! ## C25 -/

theorem sum_workRange {M : Type} [AddCommMonoid M] (f : Fin n → M) : ((workRange n 0 n).map f).sum = ∑ i, f i := by
  rw [workRange_all]; exact (List.sum_ofFn (f := f) ▸ by rw [List.ofFn_eq_map])

/-- The hat matrix of a fit (rows stored for all observations). -/
def hatMatrix (a : FitAcc n k) : Matrix (Fin n) (Fin n) ℝ := Matrix.of fun i l => a.s i.val l

theorem hat_rows {x : Matrix (Fin n) (Fin k) ℝ} {y : Fin n → ℝ} {W : Fin n → Fin n → ℝ} {sC : Bool} {stop : ℕ → Bool}
    {a : FitAcc n k} (h : fitCoreSerial x y W 0 n true sC stop = .ok (a, false)) (i l : Fin n) :
    hatMatrix a i l = (fitAt x y W i).si l := by
  have := (fitCoreSerial_ok h).2.s rfl i (Nat.zero_le _) i.isLt
  simp only [Nat.sub_zero] at this
  simp [hatMatrix, this]

/-- **C25 (fitted values).** Fitted values are the hat matrix times the responses. -/
theorem C25_fitted_eq_hat_mul (x : Matrix (Fin n) (Fin k) ℝ) (y : Fin n → ℝ) (W : Fin n → Fin n → ℝ) (sC : Bool)
    (stop : ℕ → Bool) (a : FitAcc n k) (h : fitCoreSerial x y W 0 n true sC stop = .ok (a, false)) (i : Fin n) :
    fitted x a.betas i = ∑ l, hatMatrix a i l * y l := by
  have hc := (fitCoreSerial_ok h).2
  have : fitted x a.betas i = x i ⬝ᵥ a.betas i := by
    unfold fitted dotProduct; exact Finset.sum_congr rfl fun j _ => mul_comm _ _
  rw [this, hc.betas i (Nat.zero_le _) i.isLt]
  simp only [hat_rows h, fitAt]
  rw [mulVec_mulVec, dotProduct_mulVec]; rfl

/-- **C25 (traces).** The two reported numbers are the traces of `S` and of `S'S`. -/
theorem C25_traces (x : Matrix (Fin n) (Fin k) ℝ) (y : Fin n → ℝ) (W : Fin n → Fin n → ℝ) (sC : Bool)
    (stop : ℕ → Bool) (a : FitAcc n k) (h : fitCoreSerial x y W 0 n true sC stop = .ok (a, false)) :
    a.shat 0 = (hatMatrix a).trace ∧ a.shat 1 = ((hatMatrix a)ᵀ * hatMatrix a).trace := by
  have hc := (fitCoreSerial_ok h).2
  rw [hc.shat, sum_workRange]
  constructor
  · rw [Finset.sum_apply]
    simp only [trace, diag_apply, hat_rows h]; rfl
  · rw [Finset.sum_apply]
    simp only [trace, diag_apply, mul_apply, transpose_apply, hat_rows h]
    rw [Finset.sum_comm]; rfl

/-- **C25 (traces without storing).** The traces do not depend on whether rows of `S` or slices of `C` are stored. -/
theorem C25_traces_independent_of_storage (x : Matrix (Fin n) (Fin k) ℝ) (y : Fin n → ℝ) (W : Fin n → Fin n → ℝ)
    (sS sC sS' sC' : Bool) (stop : ℕ → Bool) (a a' : FitAcc n k)
    (h : fitCoreSerial x y W 0 n sS sC stop = .ok (a, false)) (h' : fitCoreSerial x y W 0 n sS' sC' stop = .ok (a', false)) :
    a.shat = a'.shat ∧ a.betas = a'.betas ∧ a.se = a'.se ∧ a.qdiag = a'.qdiag := by
  have hc := (fitCoreSerial_ok h).2
  have hc' := (fitCoreSerial_ok h').2
  refine ⟨by rw [hc.shat, hc'.shat], ?_, ?_, by rw [hc.qdiag, hc'.qdiag]⟩
  · ext i j; rw [hc.betas i (Nat.zero_le _) i.isLt, hc'.betas i (Nat.zero_le _) i.isLt]
  · ext i j; rw [hc.se i (Nat.zero_le _) i.isLt, hc'.se i (Nat.zero_le _) i.isLt]

theorem ci_mul_x {x : Matrix (Fin n) (Fin k) ℝ} {w : Fin n → ℝ} (h : (xtwx x w).PosDef) :
    (xtwx x w)⁻¹ * xtw x w * x = 1 := by
  rw [Matrix.mul_assoc]
  exact nonsing_inv_mul _ ((isUnit_iff_isUnit_det _).1 h.isUnit)

/-- **C25 (reproduction).** The hat matrix reproduces every covariate; in particular, with an intercept every row sums
to 1. -/
theorem C25_hat_reproduces_covariates (x : Matrix (Fin n) (Fin k) ℝ) (y : Fin n → ℝ) (W : Fin n → Fin n → ℝ) (sC : Bool)
    (stop : ℕ → Bool) (a : FitAcc n k) (h : fitCoreSerial x y W 0 n true sC stop = .ok (a, false)) :
    hatMatrix a * x = x ∧ ∀ j0, (∀ l, x l j0 = 1) → ∀ i, ∑ l, hatMatrix a i l = 1 := by
  have hp := (fitCoreSerial_ok h).1
  have key : hatMatrix a * x = x := by
    ext i j
    have e : (hatMatrix a * x) i j = (x i ᵥ* ((xtwx x (W i))⁻¹ * xtw x (W i)) ᵥ* x) j := by
      simp only [mul_apply, hat_rows h]; rfl
    rw [e, vecMul_vecMul, ci_mul_x (hp i (Nat.zero_le _) i.isLt), vecMul_one]
  refine ⟨key, fun j0 hj i => ?_⟩
  have := congrFun (congrFun key i) j0
  rw [mul_apply] at this
  simp only [hj, mul_one] at this
  exact this

/-- **C25 (standard error terms).** The stored term for coefficient `j` at `i` is the squared length of row `j` of the matrix
that maps responses to coefficients at `i`. -/
theorem C25_se_terms (x : Matrix (Fin n) (Fin k) ℝ) (y : Fin n → ℝ) (W : Fin n → Fin n → ℝ) (sS : Bool)
    (stop : ℕ → Bool) (a : FitAcc n k) (h : fitCoreSerial x y W 0 n sS true stop = .ok (a, false)) (i : Fin n) (j : Fin k) :
    a.betas i j = ∑ l, a.c i.val j l * y l ∧ a.se i j = ∑ l, a.c i.val j l ^ 2 := by
  have hc := (fitCoreSerial_ok h).2
  have hci := hc.c rfl i (Nat.zero_le _) i.isLt
  simp only [Nat.sub_zero] at hci
  rw [hc.betas i (Nat.zero_le _) i.isLt, hc.se i (Nat.zero_le _) i.isLt, hci]
  constructor
  · simp only [fitAt]
    rw [mulVec_mulVec]; rfl
  · simp only [seRow, sq]

/-- **C25 (Q diagonal).** The reported diagonal is that of `(I - S)'(I - S)`. -/
theorem C25_qdiag (x : Matrix (Fin n) (Fin k) ℝ) (y : Fin n → ℝ) (W : Fin n → Fin n → ℝ) (sC : Bool)
    (stop : ℕ → Bool) (a : FitAcc n k) (h : fitCoreSerial x y W 0 n true sC stop = .ok (a, false)) (l : Fin n) :
    a.qdiag l = ((1 - hatMatrix a)ᵀ * (1 - hatMatrix a) : Matrix (Fin n) (Fin n) ℝ) l l := by
  have hc := (fitCoreSerial_ok h).2
  rw [hc.qdiag, sum_workRange, Finset.sum_apply, mul_apply]
  refine Finset.sum_congr rfl fun i _ => ?_
  simp only [qRow, transpose_apply, Matrix.sub_apply, hat_rows h, Function.update_apply, one_apply]
  by_cases hl : l = i
  · subst hl; simp; ring
  · simp [hl, Ne.symm hl]

/-! ## C26 -/

/-- **C26.** Effective parameters and effective degrees of freedom add up to the number of observations; the residual sum of
squares is non-negative and is that of the coefficients; R² is at most 1; the diagnostic AICc is the criterion AICc. -/
theorem C26_diagnostics (x : Matrix (Fin n) (Fin k) ℝ) (y : Fin n → ℝ) (betas : Matrix (Fin n) (Fin k) ℝ) (shat : Fin 2 → ℝ) :
    (calcDiagnostic x y betas shat).ENP + (calcDiagnostic x y betas shat).EDF = n ∧
    0 ≤ (calcDiagnostic x y betas shat).RSS ∧
    (calcDiagnostic x y betas shat).RSS = ∑ i, (y i - ∑ j, x i j * betas i j) ^ 2 ∧
    (∀ v, (calcDiagnostic x y betas shat).RSquare = .ok v → v ≤ 1) ∧
    (calcDiagnostic x y betas shat).AICc = aicc x y betas (shat 0) := by
  have hrss : 0 ≤ rss x y betas := Finset.sum_nonneg fun i _ => mul_self_nonneg _
  refine ⟨by simp only [calcDiagnostic]; ring, hrss, ?_, ?_, rfl⟩
  · simp only [calcDiagnostic, rss, fitted]
    refine Finset.sum_congr rfl fun i _ => ?_
    rw [← sq]; congr 2
    exact Finset.sum_congr rfl fun j _ => mul_comm _ _
  · intro v hv
    simp only [calcDiagnostic, Res.bind_eq_ok', fdiv] at hv
    obtain ⟨q, hq, hv⟩ := hv
    split at hq
    · cases hq
    · have h1 := Res.ok.inj hq
      have h2 := Res.ok.inj hv
      have : 0 ≤ q := by
        rw [← h1]
        exact div_nonneg hrss (Finset.sum_nonneg fun i _ => mul_self_nonneg _)
      linarith

/-- **C26 (adjusted R²).** Whenever both are reported, `1 - R²adj = (1 - R²)(n - 1)/(EDF - 1)`, and R² is
`1 - RSS / Σ (y - mean)²`. -/
theorem C26_rsquare (x : Matrix (Fin n) (Fin k) ℝ) (y : Fin n → ℝ) (betas : Matrix (Fin n) (Fin k) ℝ) (shat : Fin 2 → ℝ)
    (v va : ℝ) (h : (calcDiagnostic x y betas shat).RSquare = .ok v) (ha : (calcDiagnostic x y betas shat).RSquareAdjust = .ok va) :
    v = 1 - (calcDiagnostic x y betas shat).RSS / ∑ i, (y i - (∑ l, y l) / n) ^ 2 ∧
    va = 1 - (1 - v) * (n - 1) / ((calcDiagnostic x y betas shat).EDF - 1) := by
  have hv : v = 1 - (calcDiagnostic x y betas shat).RSS / ∑ i, (y i - (∑ l, y l) / n) ^ 2 := by
    simp only [calcDiagnostic, Res.bind_eq_ok', fdiv] at h
    obtain ⟨q, hq, h⟩ := h
    split at hq
    · cases hq
    · rw [← Res.ok.inj h, ← Res.ok.inj hq]
      simp only [calcDiagnostic, meanVec, sq]
  refine ⟨hv, ?_⟩
  have ha' : (calcDiagnostic x y betas shat).RSquareAdjust =
      (calcDiagnostic x y betas shat).RSquare.bind fun r2 =>
        (fdiv ((1 - r2) * (n - 1)) ((calcDiagnostic x y betas shat).EDF - 1)).bind fun q => .ok (1 - q) := rfl
  rw [ha', h] at ha
  simp only [Res.bind_eq_ok', fdiv, Res.ok.injEq] at ha
  obtain ⟨r2, rfl, q, hq, ha⟩ := ha
  split at hq
  · cases hq
  · rw [← ha, ← Res.ok.inj hq]

/-! ## C56 -/

theorem hat_entry {x : Matrix (Fin n) (Fin k) ℝ} {W : Fin n → Fin n → ℝ} {y : Fin n → ℝ} (i l : Fin n) :
    (fitAt x y W i).si l = W i l * ∑ j, x l j * ((x i ᵥ* (xtwx x (W i))⁻¹) j) := by
  simp only [fitAt]
  rw [← vecMul_vecMul]
  simp only [vecMul, dotProduct, xtw, of_apply]
  rw [Finset.mul_sum]
  exact Finset.sum_congr rfl fun j _ => by ring

/-- For a location with positive definite Gram matrix: `v = (X'WX)⁻¹ x_i` has `x_i · v = Σ w_l (x_l · v)²`. -/
theorem leverage_identity {x : Matrix (Fin n) (Fin k) ℝ} {w : Fin n → ℝ} (h : (xtwx x w).PosDef) (xi : Fin k → ℝ) :
    ∑ j, xi j * (xi ᵥ* (xtwx x w)⁻¹) j = ∑ l, w l * (∑ j, x l j * (xi ᵥ* (xtwx x w)⁻¹) j) ^ 2 := by
  have hg := gram_form x w (xi ᵥ* (xtwx x w)⁻¹)
  simp only [mulVec_eq] at hg
  rw [← hg]
  have hsym : (xtwx x w)ᵀ = xtwx x w := by
    have := xtwx_isHermitian x w
    rwa [IsHermitian, conjTranspose_eq_transpose_of_trivial] at this
  have : xtwx x w *ᵥ (xi ᵥ* (xtwx x w)⁻¹) = xi := by
    conv_lhs => enter [1]; rw [← hsym]
    rw [mulVec_transpose, vecMul_vecMul, nonsing_inv_mul _ ((isUnit_iff_isUnit_det _).1 h.isUnit), vecMul_one]
  rw [this]
  simp only [dotProduct]
  exact Finset.sum_congr rfl fun j _ => mul_comm _ _

/-- **C56 (leverages).** With non-negative weights every diagonal entry of the hat matrix is between 0 and 1, so its trace
is between 0 and the number of observations. -/
theorem C56_leverage (x : Matrix (Fin n) (Fin k) ℝ) (y : Fin n → ℝ) (W : Fin n → Fin n → ℝ) (hW : ∀ i l, 0 ≤ W i l) (sC : Bool)
    (stop : ℕ → Bool) (a : FitAcc n k) (h : fitCoreSerial x y W 0 n true sC stop = .ok (a, false)) :
    (∀ i, 0 ≤ hatMatrix a i i ∧ hatMatrix a i i ≤ 1) ∧ 0 ≤ a.shat 0 ∧ a.shat 0 ≤ n := by
  have hp := (fitCoreSerial_ok h).1
  have key : ∀ i, 0 ≤ hatMatrix a i i ∧ hatMatrix a i i ≤ 1 := by
    intro i
    rw [hat_rows h, hat_entry]
    set q := ∑ j, x i j * (x i ᵥ* (xtwx x (W i))⁻¹) j with hq
    have hid := leverage_identity (hp i (Nat.zero_le _) i.isLt) (x i)
    rw [← hq] at hid
    have hnn : ∀ l ∈ Finset.univ, 0 ≤ W i l * (∑ j, x l j * (x i ᵥ* (xtwx x (W i))⁻¹) j) ^ 2 :=
      fun l _ => mul_nonneg (hW i l) (sq_nonneg _)
    have hle : W i i * q ^ 2 ≤ q := by
      conv_rhs => rw [hid]
      exact Finset.single_le_sum hnn (Finset.mem_univ i)
    have hq0 : 0 ≤ q := by rw [hid]; exact Finset.sum_nonneg hnn
    have hs0 : 0 ≤ W i i * q := mul_nonneg (hW i i) hq0
    refine ⟨hs0, ?_⟩
    have : (W i i * q) * (W i i * q) ≤ W i i * q := by
      have := mul_le_mul_of_nonneg_left hle (hW i i)
      calc (W i i * q) * (W i i * q) = W i i * (W i i * q ^ 2) := by ring
        _ ≤ W i i * q := this
    nlinarith
  obtain ⟨ht, -⟩ := C25_traces x y W sC stop a h
  refine ⟨key, ?_, ?_⟩
  · rw [ht]; exact Finset.sum_nonneg fun i _ => (key i).1
  · rw [ht]
    calc (hatMatrix a).trace = ∑ i, hatMatrix a i i := rfl
      _ ≤ ∑ _i : Fin n, (1 : ℝ) := Finset.sum_le_sum fun i _ => (key i).2
      _ = n := by simp

/-- **C56 (degrees of freedom).** The effective degrees of freedom `n - 2 tr S + tr S'S` of a fit are never negative: they are
the sum of the reported Q diagonal, so the error variance estimate is never negative. -/
theorem C56_edf_nonneg (x : Matrix (Fin n) (Fin k) ℝ) (y : Fin n → ℝ) (W : Fin n → Fin n → ℝ) (sS sC : Bool)
    (stop : ℕ → Bool) (a : FitAcc n k) (h : fitCoreSerial x y W 0 n sS sC stop = .ok (a, false)) :
    (calcDiagnostic x y a.betas a.shat).EDF = ∑ l, a.qdiag l ∧ 0 ≤ (calcDiagnostic x y a.betas a.shat).EDF := by
  have hc := (fitCoreSerial_ok h).2
  have e : (calcDiagnostic x y a.betas a.shat).EDF = ∑ l, a.qdiag l := by
    simp only [calcDiagnostic]
    rw [hc.qdiag, hc.shat, sum_workRange, sum_workRange]
    simp only [Finset.sum_apply, shatRow, Matrix.cons_val_zero, Matrix.cons_val_one]
    rw [Finset.sum_comm (f := fun l i => qRow i (fitAt x y W i) l)]
    have : ∀ i : Fin n, ∑ l, qRow i (fitAt x y W i) l =
        1 - 2 * (fitAt x y W i).si i + ∑ l, (fitAt x y W i).si l * (fitAt x y W i).si l := by
      intro i
      have h1 : ∀ l, qRow i (fitAt x y W i) l = (fitAt x y W i).si l * (fitAt x y W i).si l +
          (if l = i then 1 - 2 * (fitAt x y W i).si i else 0) := by
        intro l
        simp only [qRow, Function.update_apply]
        split
        · rename_i hl; subst hl; ring
        · ring
      simp only [h1, Finset.sum_add_distrib, Finset.sum_ite_eq', Finset.mem_univ, if_true]
      ring
    simp only [this, Finset.sum_add_distrib, Finset.sum_sub_distrib, Finset.sum_const, Finset.card_univ, Fintype.card_fin,
      nsmul_eq_mul, mul_one, Finset.mul_sum]
  refine ⟨e, ?_⟩
  rw [e, hc.qdiag, sum_workRange]
  refine Finset.sum_nonneg fun l _ => ?_
  rw [Finset.sum_apply]
  exact Finset.sum_nonneg fun i _ => mul_self_nonneg _

/-- **C56 (effective parameters).** If moreover no weight at a location exceeds that of the location's own observation, which
is 1 (true for all kernels, see C01), then `tr S'S ≤ tr S`, so the effective number of parameters is between 0 and `n`. -/
theorem C56_enp_range (x : Matrix (Fin n) (Fin k) ℝ) (y : Fin n → ℝ) (W : Fin n → Fin n → ℝ)
    (hW : ∀ i l, 0 ≤ W i l ∧ W i l ≤ 1) (hown : ∀ i, W i i = 1) (sC : Bool)
    (stop : ℕ → Bool) (a : FitAcc n k) (h : fitCoreSerial x y W 0 n true sC stop = .ok (a, false)) :
    a.shat 1 ≤ a.shat 0 ∧ 0 ≤ (calcDiagnostic x y a.betas a.shat).ENP ∧ (calcDiagnostic x y a.betas a.shat).ENP ≤ n := by
  obtain ⟨hp, hc⟩ := fitCoreSerial_ok h
  obtain ⟨-, ht0, ht1⟩ := C56_leverage x y W (fun i l => (hW i l).1) sC stop a h
  have hle : a.shat 1 ≤ a.shat 0 := by
    rw [hc.shat, sum_workRange, Finset.sum_apply, Finset.sum_apply]
    refine Finset.sum_le_sum fun i _ => ?_
    simp only [shatRow, Matrix.cons_val_zero, Matrix.cons_val_one, hat_entry, hown, one_mul]
    rw [leverage_identity (hp i (Nat.zero_le _) i.isLt) (x i)]
    refine Finset.sum_le_sum fun l _ => ?_
    obtain ⟨w0, w1⟩ := hW i l
    set t := ∑ j, x l j * (x i ᵥ* (xtwx x (W i))⁻¹) j
    have : W i l * W i l ≤ W i l := by nlinarith
    calc W i l * t * (W i l * t) = (W i l * W i l) * t ^ 2 := by ring
      _ ≤ W i l * t ^ 2 := mul_le_mul_of_nonneg_right this (sq_nonneg _)
  have hedf := (C56_edf_nonneg x y W true sC stop a h).2
  have hsum := (C26_diagnostics x y a.betas a.shat).1
  refine ⟨hle, ?_, by linarith⟩
  simp only [calcDiagnostic]
  linarith

example : ∃ a, fitCoreSerial exX ![1, 3, 2] exW 0 3 true false NoStop = .ok (a, false) ∧
    (∀ i l, 0 ≤ exW i l ∧ exW i l ≤ 1) ∧ ∀ i, exW i i = 1 := by
  obtain ⟨a, ha⟩ := ex_fit ![1, 3, 2] true false
  exact ⟨a, ha, fun i l => ⟨(exW_pos i l).le, by unfold exW; split <;> norm_num⟩, fun i => by simp [exW]⟩

end Verif.Props

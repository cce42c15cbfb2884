import Verif.Spec.WeightedCov
import Verif.Props.GWSS
import Verif.Props.GWDA

/-! # C141: the weighted covariances and correlations offered to callers -/

namespace Verif.Props
open Verif Verif.Model Verif.Spec Matrix Classical

variable {n k : ℕ}

theorem finRange_sum (f : Fin n → ℝ) : ((List.finRange n).map f).sum = ∑ l, f l := by rw [← List.ofFn_eq_map, List.sum_ofFn]

/-- **C141 (matrix).** For every matrix and all weights the covariance matrix exists exactly if the sum of the weights is not zero and its square is not the
sum of their squares, and then each entry is the weighted covariance of the two columns. -/
theorem C141_matrix (x : Matrix (Fin n) (Fin k) ℝ) (w : Fin n → ℝ) (cov : Matrix (Fin k) (Fin k) ℝ) :
    covwtmat x (List.finRange n) w = .ok cov ↔ ∑ l, w l ≠ 0 ∧ (∑ l, w l) ^ 2 ≠ ∑ l, w l ^ 2 ∧
      ∀ a b, cov a b = reliabilityCov w (fun l => x l a) (fun l => x l b) := by
  unfold covwtmat
  simp only [finRange_sum]
  have h1 : ∀ a, (∑ l, x l a * w l) / ∑ l, w l = centre w fun l => x l a := fun a => by
    unfold centre; congr 1; exact Finset.sum_congr rfl fun l _ => mul_comm _ _
  have h2 : ∑ l, w l * w l = ∑ l, w l ^ 2 := Finset.sum_congr rfl fun l _ => (sq _).symm
  rw [h2]
  simp only [h1]
  split_ifs with h
  · simp only [reduceCtorEq, false_iff]
    rintro ⟨g1, g2, -⟩
    rcases h with h | h
    · exact g2 (by linarith [sq (∑ l, w l)])
    · exact g1 h
  · push Not at h
    obtain ⟨g2, g1⟩ := h
    have e : ∀ a b, (∑ l, w l) / ((∑ l, w l) * (∑ l, w l) - ∑ l, w l ^ 2) *
        ∑ l, w l * ((x l a - centre w fun l => x l a) * (x l b - centre w fun l => x l b)) = reliabilityCov w (fun l => x l a) (fun l => x l b) := by
      intro a b
      unfold reliabilityCov
      have : (∑ l, w l) - (∑ l, w l ^ 2) / ∑ l, w l = ((∑ l, w l) * (∑ l, w l) - ∑ l, w l ^ 2) / ∑ l, w l := by field_simp
      rw [this]
      field_simp
    simp only [e, Res.ok.injEq]
    constructor
    · rintro rfl
      exact ⟨g1, fun h => g2 (by rw [← h]; ring), fun a b => rfl⟩
    · rintro ⟨-, -, h⟩
      ext a b
      exact (h a b).symm

theorem reliability_scaled (w u v : Fin n → ℝ) {c : ℝ} (hc : c ≠ 0) : reliabilityCov (fun l => c * w l) u v = reliabilityCov w u v := by
  have hm : ∀ u, centre (fun l => c * w l) u = centre w u := fun u => by
    simp only [centre, mul_assoc, ← Finset.mul_sum]
    rw [mul_div_mul_left _ _ hc]
  simp only [reliabilityCov, hm, mul_assoc, mul_pow, ← Finset.mul_sum]
  have : c * ∑ l, w l - c ^ 2 * (∑ l, w l ^ 2) / (c * ∑ l, w l) = c * ((∑ l, w l) - (∑ l, w l ^ 2) / ∑ l, w l) := by
    rw [mul_sub, sq, mul_assoc, mul_div_mul_left _ _ hc, mul_div_assoc]
  rw [this, mul_div_mul_left _ _ hc]

/-- **C141 (unit of the weights).** Multiplying all weights by one number other than zero changes nothing. -/
theorem C141_weights_unit (x : Matrix (Fin n) (Fin k) ℝ) (w : Fin n → ℝ) (c : ℝ) (hc : c ≠ 0) :
    covwtmat x (List.finRange n) (fun l => c * w l) = covwtmat x (List.finRange n) w := by
  by_cases h : ∑ l, w l ≠ 0 ∧ (∑ l, w l) ^ 2 ≠ ∑ l, w l ^ 2
  · rw [(C141_matrix x w (Matrix.of fun a b => reliabilityCov w (fun l => x l a) fun l => x l b)).2 ⟨h.1, h.2, fun a b => rfl⟩]
    refine (C141_matrix x _ _).2 ⟨?_, ?_, fun a b => (reliability_scaled w _ _ hc).symm⟩
    · rw [← Finset.mul_sum]; exact mul_ne_zero hc h.1
    · simp only [mul_pow, ← Finset.mul_sum]
      exact fun e => h.2 (mul_left_cancel₀ (pow_ne_zero 2 hc) e)
  · have key : ∀ w : Fin n → ℝ, ¬ (∑ l, w l ≠ 0 ∧ (∑ l, w l) ^ 2 ≠ ∑ l, w l ^ 2) → covwtmat x (List.finRange n) w = .nonfinite := by
      intro w h
      unfold covwtmat
      simp only [finRange_sum]
      rw [if_pos]
      by_contra hn
      push Not at hn
      exact h ⟨hn.2, fun e => hn.1 (by rw [← sq, e, sub_eq_zero]; exact Finset.sum_congr rfl fun l _ => sq _)⟩
    rw [key w h, key]
    rintro ⟨h1, h2⟩
    refine h ⟨fun e => h1 (by rw [← Finset.mul_sum, e, mul_zero]), fun e => h2 ?_⟩
    simp only [mul_pow, ← Finset.mul_sum, e]

/-- **C141 (equal weights).** With the same weight everywhere the result is the sample covariance with divisor `n - 1`, for at least two observations. -/
theorem C141_equal_weights (x : Matrix (Fin n) (Fin k) ℝ) (c : ℝ) (hc : c ≠ 0) (hn : 2 ≤ n) :
    covwtmat x (List.finRange n) (fun _ => c) = .ok (Matrix.of fun a b => sampleCov (fun l => x l a) fun l => x l b) := by
  have h := C141_weights_unit x (fun _ => 1) c hc
  simp only [mul_one] at h
  rw [h]
  have hn' : (2 : ℝ) ≤ n := by exact_mod_cast hn
  refine (C141_matrix x _ _).2 ⟨?_, ?_, fun a b => ?_⟩
  · simp; omega
  · simp only [one_pow, Finset.sum_const, Finset.card_univ, Fintype.card_fin, nsmul_eq_mul, mul_one]
    intro e
    nlinarith
  · simp only [Matrix.of_apply, sampleCov, reliabilityCov, centre, one_mul, one_pow, Finset.sum_const, Finset.card_univ, Fintype.card_fin, nsmul_eq_mul,
      mul_one]
    rw [div_self (by linarith)]

/-- **C141 (shape).** The covariance matrix is symmetric, does not change when a constant is added to a column, and is quadratic in the unit of the data; with
non-negative weights no linear combination of the columns has a negative variance. -/
theorem C141_shape (x : Matrix (Fin n) (Fin k) ℝ) (w : Fin n → ℝ) (cov : Matrix (Fin k) (Fin k) ℝ) (h : covwtmat x (List.finRange n) w = .ok cov) :
    (∀ a b, cov a b = cov b a) ∧
    (∀ (s : Fin k → ℝ) (c : Fin k → ℝ), covwtmat (Matrix.of fun l a => s a * x l a + c a) (List.finRange n) w = .ok (Matrix.of fun a b => s a * s b * cov a b)) ∧
    ((∀ l, 0 ≤ w l) → ∀ v : Fin k → ℝ, 0 ≤ ∑ a, ∑ b, v a * v b * cov a b) := by
  obtain ⟨h1, h2, h3⟩ := (C141_matrix x w cov).1 h
  refine ⟨fun a b => ?_, fun s c => ?_, fun h0 v => ?_⟩
  · rw [h3, h3]
    unfold reliabilityCov
    congr 1
    exact Finset.sum_congr rfl fun l _ => by ring
  · refine (C141_matrix _ w _).2 ⟨h1, h2, fun a b => ?_⟩
    have hm : ∀ a, centre w (fun l => s a * x l a + c a) = s a * centre w (fun l => x l a) + c a := fun a => by
      unfold centre
      rw [div_eq_iff h1, add_mul, mul_assoc, div_mul_cancel₀ _ h1, Finset.mul_sum, Finset.mul_sum, ← Finset.sum_add_distrib]
      exact Finset.sum_congr rfl fun l _ => by ring
    simp only [Matrix.of_apply, h3, reliabilityCov, hm]
    rw [← mul_div_assoc, Finset.mul_sum]
    congr 1
    exact Finset.sum_congr rfl fun l _ => by ring
  · simp only [h3, reliabilityCov]
    have e : ∑ a, ∑ b, v a * v b * ((∑ l, w l * ((x l a - centre w fun l => x l a) * (x l b - centre w fun l => x l b))) /
        ((∑ l, w l) - (∑ l, w l ^ 2) / ∑ l, w l)) =
        (∑ l, w l * (∑ a, v a * (x l a - centre w fun l => x l a)) ^ 2) / ((∑ l, w l) - (∑ l, w l ^ 2) / ∑ l, w l) := by
      simp only [← mul_div_assoc, ← Finset.sum_div]
      congr 1
      have hsq : ∀ l, w l * (∑ a, v a * (x l a - centre w fun l => x l a)) ^ 2 =
          ∑ a, ∑ b, w l * ((v a * (x l a - centre w fun l => x l a)) * (v b * (x l b - centre w fun l => x l b))) := fun l => by
        rw [sq, Finset.sum_mul_sum]; simp only [Finset.mul_sum]
      simp only [hsq, Finset.mul_sum]
      conv_rhs => rw [Finset.sum_comm]
      refine Finset.sum_congr rfl fun a _ => ?_
      conv_rhs => rw [Finset.sum_comm]
      exact Finset.sum_congr rfl fun b _ => Finset.sum_congr rfl fun l _ => by ring
    rw [e]
    have hpos : 0 < ∑ l, w l := lt_of_le_of_ne (Finset.sum_nonneg fun l _ => h0 l) (Ne.symm h1)
    refine div_nonneg (Finset.sum_nonneg fun l _ => mul_nonneg (h0 l) (sq_nonneg _)) ?_
    rw [sub_nonneg, div_le_iff₀ hpos, ← sq]
    exact Finset.sum_sq_le_sq_sum_of_nonneg fun l _ => h0 l

/-- **C141 (pairs).** For non-negative weights that add up to one, not all on one observation, the covariance of a pair of variables is the entry of the
covariance matrix, and the correlation lies between -1 and 1 when both variables vary. -/
theorem C141_pairs (u v w : Fin n → ℝ) (h0 : ∀ l, 0 ≤ w l) (h1 : ∑ l, w l = 1) (h2 : ∑ l, w l ^ 2 ≠ 1) :
    covwt u v w = some (reliabilityCov w u v) ∧
    (0 < reliabilityCov w u u → 0 < reliabilityCov w v v → ∃ r, corwt u v w = some r ∧
      r = reliabilityCov w u v / Real.sqrt (reliabilityCov w u u * reliabilityCov w v v) ∧ |r| ≤ 1) := by
  have hs : IsShare w := ⟨h0, h1⟩
  have hd : 1 - ∑ l, w l * w l ≠ 0 := fun e => h2 (by rw [eq_comm, ← sub_eq_zero, ← e]; congr 1; exact Finset.sum_congr rfl fun l _ => sq _)
  have hc : ∀ u v, covwt u v w = some (reliabilityCov w u v) := by
    intro u v
    rw [covwt_eq hs, odiv, if_neg hd]
    congr 1
    unfold reliabilityCov wcov centre wmean
    simp only [h1, div_one]
    congr 2
    exact Finset.sum_congr rfl fun l _ => (sq _).symm
  refine ⟨hc u v, fun hu hv => ?_⟩
  have hp := mul_pos hu hv
  have hsq := Real.sqrt_pos.2 hp
  refine ⟨_, ?_, rfl, ?_⟩
  · simp only [corwt, hc, Option.bind_some, osqrt, not_lt.2 hp.le, if_false, odiv, hsq.ne']
  · rw [abs_div, abs_of_pos hsq, div_le_one hsq]
    refine Real.abs_le_sqrt ?_
    have hD : 0 < (∑ l, w l) - (∑ l, w l ^ 2) / ∑ l, w l := by
      rw [h1, div_one, sub_pos]
      refine lt_of_le_of_ne ?_ h2
      have := Finset.sum_sq_le_sq_sum_of_nonneg (s := Finset.univ) fun l _ => h0 l
      rwa [h1, one_pow] at this
    unfold reliabilityCov
    rw [div_pow, div_mul_div_comm, ← sq]
    refine div_le_div_of_nonneg_right ?_ (sq_nonneg _)
    have cs := Finset.sum_mul_sq_le_sq_mul_sq Finset.univ (fun l => Real.sqrt (w l) * (u l - centre w u)) (fun l => Real.sqrt (w l) * (v l - centre w v))
    have e : ∀ a b : Fin n → ℝ, ∑ l, (Real.sqrt (w l) * a l) * (Real.sqrt (w l) * b l) = ∑ l, w l * (a l * b l) := fun a b =>
      Finset.sum_congr rfl fun l _ => by rw [mul_mul_mul_comm, Real.mul_self_sqrt (h0 l)]
    have e' : ∀ a : Fin n → ℝ, ∑ l, (Real.sqrt (w l) * a l) ^ 2 = ∑ l, w l * (a l * a l) := fun a => by rw [← e]; exact Finset.sum_congr rfl fun l _ => sq _
    rw [e (fun l => u l - centre w u) (fun l => v l - centre w v), e' (fun l => u l - centre w u), e' (fun l => v l - centre w v)] at cs
    exact cs

/-- **C141, refuted for weights that do not add up to one.** The covariance of pairs fails to accept weights in another unit: with weight 1 on both of two
observations 0 and 1, a variable gets the variance -1 and the correlation -1 with itself, although the covariance matrix gives 1/2. -/
theorem C141_pairs_unit_fails :
    covwt ![0, 1] ![0, 1] ![1, 1] = some (-1) ∧ corwt ![0, 1] ![0, 1] ![1, 1] = some (-1) ∧
    covwtmat (!![0; 1] : Matrix (Fin 2) (Fin 1) ℝ) (List.finRange 2) ![1, 1] = .ok !![1 / 2] := by
  have hc : covwt ![0, 1] ![0, 1] ![1, 1] = some (-1) := by
    unfold covwt
    rw [if_neg (by rintro ⟨l, hl⟩; fin_cases l <;> norm_num at hl)]
    simp only [odiv, Fin.sum_univ_two, cons_val_zero, cons_val_one]
    norm_num
  refine ⟨hc, ?_, ?_⟩
  · simp only [corwt, hc, Option.bind_some, osqrt, odiv]
    norm_num
  · refine (C141_matrix _ _ _).2 ⟨?_, ?_, fun a b => ?_⟩
    · simp [Fin.sum_univ_two]
    · simp only [Fin.sum_univ_two, cons_val_zero, cons_val_one]; norm_num
    · fin_cases a; fin_cases b
      simp only [reliabilityCov, centre, Fin.sum_univ_two, cons_val_zero, cons_val_one]
      norm_num [Matrix.of_apply]

/-! ### Concrete cases -/

/-- C141: three observations of two variables with different weights; the covariance matrix exists, also with the weights in another unit. -/
example : ∃ cov, covwtmat (!![0, 1; 1, 0; 3, 5] : Matrix (Fin 3) (Fin 2) ℝ) (List.finRange 3) ![1 / 2, 1 / 4, 1 / 4] = .ok cov ∧
    covwtmat (!![0, 1; 1, 0; 3, 5] : Matrix (Fin 3) (Fin 2) ℝ) (List.finRange 3) (fun l => 4 * ![1 / 2, 1 / 4, 1 / 4] l) = .ok cov ∧
    (∀ a b, cov a b = cov b a) := by
  have h := (C141_matrix (!![0, 1; 1, 0; 3, 5] : Matrix (Fin 3) (Fin 2) ℝ) ![1 / 2, 1 / 4, 1 / 4] _).2 ⟨?_, ?_, fun a b => (Matrix.of_apply (f := fun a b =>
    reliabilityCov ![1 / 2, 1 / 4, 1 / 4] (fun l => (!![0, 1; 1, 0; 3, 5] : Matrix (Fin 3) (Fin 2) ℝ) l a)
      (fun l => (!![0, 1; 1, 0; 3, 5] : Matrix (Fin 3) (Fin 2) ℝ) l b)) ..)⟩
  · exact ⟨_, h, by rw [C141_weights_unit _ _ 4 (by norm_num)]; exact h, (C141_shape _ _ _ h).1⟩
  · simp only [Fin.sum_univ_three, cons_val_zero, cons_val_one, cons_val_two, tail_cons, head_cons]; norm_num
  · simp only [Fin.sum_univ_three, cons_val_zero, cons_val_one, cons_val_two, tail_cons, head_cons]; norm_num

/-- C141, equal weights: five observations. -/
example (x : Matrix (Fin 5) (Fin 2) ℝ) : covwtmat x (List.finRange 5) (fun _ => 3) = .ok (Matrix.of fun a b => sampleCov (fun l => x l a) fun l => x l b) :=
  C141_equal_weights x 3 (by norm_num) (by norm_num)

/-- C141, pairs: three observations with different weights. -/
example : covwt ![0, 1, 3] ![1, 0, 5] ![1 / 2, 1 / 4, 1 / 4] = some (reliabilityCov ![1 / 2, 1 / 4, 1 / 4] ![0, 1, 3] ![1, 0, 5]) ∧
    ∃ r, corwt ![0, 1, 3] ![1, 0, 5] ![1 / 2, 1 / 4, 1 / 4] = some r ∧ |r| ≤ 1 := by
  have h := C141_pairs ![0, 1, 3] ![1, 0, 5] ![1 / 2, 1 / 4, 1 / 4] (fun l => by fin_cases l <;> norm_num) (by simp [Fin.sum_univ_three]; norm_num)
    (by simp [Fin.sum_univ_three]; norm_num)
  obtain ⟨r, hr, -, hb⟩ := h.2 (by simp [reliabilityCov, centre, Fin.sum_univ_three]; norm_num) (by simp [reliabilityCov, centre, Fin.sum_univ_three]; norm_num)
  exact ⟨h.1, r, hr, hb⟩

end Verif.Props

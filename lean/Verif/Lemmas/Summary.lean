import Verif.Spec.Summary
import Mathlib.Algebra.Order.BigOperators.Ring.Finset
import Mathlib.Order.Fin.Basic
import Mathlib.Tactic.Linarith
import Mathlib.Tactic.Ring
import Mathlib.Tactic.FieldSimp
import Mathlib.Tactic.Positivity

namespace Verif.Spec
open Finset

variable {n : ℕ} {p x y : Fin n → ℝ}

theorem IsShare.exists_pos (h : IsShare p) : ∃ l, 0 < p l := by
  by_contra hc
  push Not at hc
  have : ∑ l, p l ≤ 0 := Finset.sum_nonpos fun l _ => hc l
  rw [h.2] at this; linarith

/-- A weighted mean is at least every lower bound of the values that have weight. -/
theorem le_wmean (h : IsShare p) {a : ℝ} (ha : ∀ l, 0 < p l → a ≤ x l) : a ≤ wmean p x := by
  have : a = ∑ l, p l * a := by rw [← Finset.sum_mul, h.2, one_mul]
  rw [this, wmean]
  refine Finset.sum_le_sum fun l _ => ?_
  rcases eq_or_lt_of_le (h.1 l) with h0 | h0
  · rw [← h0]; simp
  · exact mul_le_mul_of_nonneg_left (ha l h0) h0.le

theorem wmean_le (h : IsShare p) {a : ℝ} (ha : ∀ l, 0 < p l → x l ≤ a) : wmean p x ≤ a := by
  have : a = ∑ l, p l * a := by rw [← Finset.sum_mul, h.2, one_mul]
  rw [this, wmean]
  refine Finset.sum_le_sum fun l _ => ?_
  rcases eq_or_lt_of_le (h.1 l) with h0 | h0
  · rw [← h0]; simp
  · exact mul_le_mul_of_nonneg_left (ha l h0) h0.le

theorem wvar_nonneg (h : IsShare p) : 0 ≤ wvar p x :=
  Finset.sum_nonneg fun l _ => mul_nonneg (h.1 l) (sq_nonneg _)

/-- The variance is zero iff all values that have weight are the same. -/
theorem wvar_eq_zero (h : IsShare p) : wvar p x = 0 ↔ ∀ l m, 0 < p l → 0 < p m → x l = x m := by
  rw [wvar, Finset.sum_eq_zero_iff_of_nonneg fun l _ => mul_nonneg (h.1 l) (sq_nonneg _)]
  constructor
  · intro hz l m hl hm
    have key : ∀ l, 0 < p l → x l = wmean p x := by
      intro l hl
      rcases mul_eq_zero.1 (hz l (mem_univ l)) with h0 | h0
      · exact absurd h0 hl.ne'
      · have := pow_eq_zero_iff (two_ne_zero) |>.1 h0
        linarith
    rw [key l hl, key m hm]
  · intro hz l _
    rcases eq_or_lt_of_le (h.1 l) with h0 | h0
    · rw [← h0]; simp
    · have h1 : x l ≤ wmean p x := le_wmean h fun m hm => (hz l m h0 hm).le
      have h2 : wmean p x ≤ x l := wmean_le h fun m hm => (hz l m h0 hm).ge
      rw [le_antisymm h1 h2]; simp

theorem wcov_sq_le (h : IsShare p) : wcov p x y ^ 2 ≤ wvar p x * wvar p y := by
  have := Finset.sum_mul_sq_le_sq_mul_sq univ (fun l => Real.sqrt (p l) * (x l - wmean p x)) (fun l => Real.sqrt (p l) * (y l - wmean p y))
  have e1 : ∀ l, Real.sqrt (p l) * (x l - wmean p x) * (Real.sqrt (p l) * (y l - wmean p y)) =
      p l * ((x l - wmean p x) * (y l - wmean p y)) := by
    intro l
    rw [mul_mul_mul_comm, Real.mul_self_sqrt (h.1 l)]
  have e2 : ∀ (z : Fin n → ℝ) l, (Real.sqrt (p l) * (z l - wmean p z)) ^ 2 = p l * (z l - wmean p z) ^ 2 := by
    intro z l
    rw [mul_pow, Real.sq_sqrt (h.1 l)]
  simp only [e1, e2] at this
  exact this

theorem wcov_self : wcov p x x = wvar p x := by
  unfold wcov wvar
  exact Finset.sum_congr rfl fun l _ => by ring

theorem IsShare.le_one (h : IsShare p) (l : Fin n) : p l ≤ 1 := by
  rw [← h.2]; exact Finset.single_le_sum (fun m _ => h.1 m) (mem_univ l)

theorem sum_sq_le_one (h : IsShare p) : ∑ l, p l * p l ≤ 1 := by
  rw [← h.2]
  refine Finset.sum_le_sum fun l _ => ?_
  nlinarith [h.1 l, h.le_one l]

/-- If a variable varies among the observations that have weight, the squared shares add up to less than one. -/
theorem sum_sq_lt_one (h : IsShare p) (hv : 0 < wvar p x) : ∑ l, p l * p l < 1 := by
  refine lt_of_le_of_ne (sum_sq_le_one h) fun he => ?_
  have hz : ∑ l, (p l - p l * p l) = 0 := by rw [Finset.sum_sub_distrib, h.2, he, sub_self]
  rw [Finset.sum_eq_zero_iff_of_nonneg (fun l _ => by nlinarith [h.1 l, h.le_one l])] at hz
  have h1 : ∀ l, 0 < p l → p l = 1 := by
    intro l hl
    have := hz l (mem_univ l)
    have h2 : p l * (1 - p l) = 0 := by linarith
    rcases mul_eq_zero.1 h2 with h0 | h0
    · exact absurd h0 hl.ne'
    · linarith
  have : wvar p x = 0 := (wvar_eq_zero h).2 fun l m hl hm => by
    by_contra hne
    have hlm : l ≠ m := by rintro rfl; exact hne rfl
    have : p l + p m ≤ ∑ l, p l := by
      rw [← Finset.sum_pair hlm]
      exact Finset.sum_le_sum_of_subset_of_nonneg (subset_univ _) fun _ _ _ => h.1 _
    rw [h.2, h1 l hl, h1 m hm] at this
    linarith
  linarith

/-- A correlation coefficient is between -1 and 1. -/
theorem corr_bounds (h : IsShare p) : |wcov p x y / Real.sqrt (wvar p x * wvar p y)| ≤ 1 := by
  rw [abs_div, abs_of_nonneg (Real.sqrt_nonneg _)]
  refine div_le_one_of_le₀ ?_ (Real.sqrt_nonneg _)
  exact Real.abs_le_sqrt (wcov_sq_le h)

theorem perm_of_monotone {σ : Equiv.Perm (Fin n)} (h : Monotone σ) : σ = 1 := by
  have hs : StrictMono σ := h.strictMono_of_injective σ.injective
  let e : Fin n ≃o Fin n := hs.orderIsoOfSurjective σ σ.surjective
  have : e = OrderIso.refl _ := Subsingleton.elim _ _
  ext i
  have h2 := congrArg (fun e : Fin n ≃o Fin n => (e i).val) this
  simpa [e] using h2

end Verif.Spec

import Verif.Spec.Ridge
import Mathlib.Topology.Order.Compact
import Mathlib.Topology.MetricSpace.ProperSpace.Real
import Mathlib.Topology.Algebra.Monoid
import Mathlib.Tactic.Positivity
import Mathlib.Tactic.FieldSimp

/-! Extreme singular values exist. -/

namespace Verif.Lemmas
open Verif.Spec

variable {n k : ℕ}

/-- The squared length of the image of `v`. -/
def stretch (a : Matrix (Fin n) (Fin k) ℝ) (v : Fin k → ℝ) : ℝ := ∑ l, (∑ j, a l j * v j) ^ 2

theorem stretch_smul (a : Matrix (Fin n) (Fin k) ℝ) (c : ℝ) (v : Fin k → ℝ) : stretch a (c • v) = c ^ 2 * stretch a v := by
  unfold stretch
  rw [Finset.mul_sum]
  refine Finset.sum_congr rfl fun l _ => ?_
  rw [← mul_pow, Finset.mul_sum]
  congr 1
  exact Finset.sum_congr rfl fun j _ => by simp only [Pi.smul_apply, smul_eq_mul]; ring

theorem unit_compact : IsCompact {v : Fin k → ℝ | ∑ j, v j ^ 2 = 1} := by
  refine Metric.isCompact_of_isClosed_isBounded (isClosed_eq (by fun_prop) continuous_const) ?_
  refine (Metric.isBounded_iff_subset_closedBall 0).2 ⟨1, fun v hv => ?_⟩
  rw [Metric.mem_closedBall, dist_pi_le_iff zero_le_one]
  intro j
  have : v j ^ 2 ≤ 1 := by
    rw [← show ∑ j, v j ^ 2 = 1 from hv]
    exact Finset.single_le_sum (f := fun j => v j ^ 2) (fun _ _ => sq_nonneg _) (Finset.mem_univ j)
  rw [Pi.zero_apply, Real.dist_eq, sub_zero]
  exact (sq_le_one_iff_abs_le_one _).1 this

theorem unit_scale {v : Fin k → ℝ} (hv : v ≠ 0) :
    ∃ c u, c ≠ 0 ∧ ∑ j, u j ^ 2 = 1 ∧ v = c • u ∧ c ^ 2 = ∑ j, v j ^ 2 := by
  have hpos : 0 < ∑ j, v j ^ 2 := by
    obtain ⟨j, hj⟩ := Function.ne_iff.1 hv
    exact Finset.sum_pos' (fun _ _ => sq_nonneg _) ⟨j, Finset.mem_univ _, by
      have : v j ≠ 0 := hj
      positivity⟩
  have hs := Real.sqrt_pos.2 hpos
  have hsq := Real.sq_sqrt hpos.le
  refine ⟨√(∑ j, v j ^ 2), (√(∑ j, v j ^ 2))⁻¹ • v, hs.ne', ?_, ?_, hsq⟩
  · simp only [Pi.smul_apply, smul_eq_mul, mul_pow]
    rw [← Finset.mul_sum, inv_pow, hsq, inv_mul_cancel₀ hpos.ne']
  · rw [smul_smul, mul_inv_cancel₀ hs.ne', one_smul]

theorem exists_extreme (a : Matrix (Fin n) (Fin k) ℝ) (hk : 0 < k) :
    (∃ s, IsLargestSV a s) ∧ ∃ s, IsSmallestSV a s := by
  have hne : {v : Fin k → ℝ | ∑ j, v j ^ 2 = 1}.Nonempty := by
    refine ⟨Pi.single ⟨0, hk⟩ 1, ?_⟩
    simp [Pi.single_apply]
  have hcont : ContinuousOn (stretch a) {v : Fin k → ℝ | ∑ j, v j ^ 2 = 1} := by
    unfold stretch
    exact Continuous.continuousOn (by fun_prop)
  have hnn : ∀ v, 0 ≤ stretch a v := fun v => Finset.sum_nonneg fun _ _ => sq_nonneg _
  have hu : ∀ u : Fin k → ℝ, ∑ j, u j ^ 2 = 1 → u ≠ 0 := by
    rintro u hu rfl; simp at hu
  constructor
  · obtain ⟨u, hu1, hmax⟩ := unit_compact.exists_isMaxOn hne hcont
    refine ⟨√(stretch a u), Real.sqrt_nonneg _, fun v => ?_, u, hu u hu1, ?_⟩
    · rw [Real.sq_sqrt (hnn u)]
      by_cases hv : v = 0
      · subst hv; simp
      · obtain ⟨c, w, hc, hw, rfl, hc2⟩ := unit_scale hv
        change stretch a (c • w) ≤ _
        rw [stretch_smul, ← hc2, mul_comm (stretch a u)]
        exact mul_le_mul_of_nonneg_left (hmax hw) (sq_nonneg c)
    · rw [Real.sq_sqrt (hnn u), show ∑ j, u j ^ 2 = 1 from hu1, mul_one]; rfl
  · obtain ⟨u, hu1, hmin⟩ := unit_compact.exists_isMinOn hne hcont
    refine ⟨√(stretch a u), Real.sqrt_nonneg _, fun v => ?_, u, hu u hu1, ?_⟩
    · rw [Real.sq_sqrt (hnn u)]
      by_cases hv : v = 0
      · subst hv; simp
      · obtain ⟨c, w, hc, hw, rfl, hc2⟩ := unit_scale hv
        change _ ≤ stretch a (c • w)
        rw [stretch_smul, ← hc2, mul_comm (stretch a u)]
        exact mul_le_mul_of_nonneg_left (hmin hw) (sq_nonneg c)
    · rw [Real.sq_sqrt (hnn u), show ∑ j, u j ^ 2 = 1 from hu1, mul_one]; rfl

end Verif.Lemmas

import Verif.Model.GWRLocalCollinearity
import Verif.Spec.Ridge
import Verif.Props.GWDR
import Mathlib.LinearAlgebra.Matrix.DotProduct
import Mathlib.Algebra.BigOperators.Field

/-! # C38, C39, C70 - C73: local collinearity (ridge) regression -/

namespace Verif.Props
open Verif Verif.Model Verif.Spec Matrix

variable {n k m T : ℕ}

/-! ## C38 -/

theorem scaled_largest_ge_one {x : Matrix (Fin n) (Fin k) ℝ} {w : Fin n → ℝ} {a : Matrix (Fin n) (Fin k) ℝ} (hk : 0 < k)
    (ha : lcrScaled x w = .ok a) {s : ℝ} (hs : IsLargestSV a s) : 1 ≤ s := by
  unfold lcrScaled at ha
  split at ha
  · cases ha
  · rename_i hne
    push Not at hne
    have ha := (Res.ok.inj ha).symm
    let j0 : Fin k := ⟨0, hk⟩
    have h1 := hs.2.1 (fun j => if j = j0 then 1 else 0)
    have hpos : 0 < ∑ l, lcrWeighted x w l j0 * lcrWeighted x w l j0 :=
      lt_of_le_of_ne (Finset.sum_nonneg fun l _ => mul_self_nonneg _) (hne j0).symm
    have e1 : ∑ l, (∑ j, a l j * (if j = j0 then (1 : ℝ) else 0)) ^ 2 = 1 := by
      have : ∀ l, (∑ j, a l j * (if j = j0 then (1 : ℝ) else 0)) ^ 2 =
          lcrWeighted x w l j0 * lcrWeighted x w l j0 / ∑ l, lcrWeighted x w l j0 * lcrWeighted x w l j0 := by
        intro l
        simp only [mul_ite, mul_one, mul_zero, Finset.sum_ite_eq', Finset.mem_univ, if_true, ha, Matrix.of_apply]
        rw [div_pow, Real.sq_sqrt hpos.le, sq]
      rw [Finset.sum_congr rfl fun l _ => this l, ← Finset.sum_div, div_self hpos.ne']
    have e2 : ∑ j : Fin k, (if j = j0 then (1 : ℝ) else 0) ^ 2 = 1 := by
      simp
    rw [e1, e2, mul_one] at h1
    nlinarith [hs.1]

/-- **C38.** Let `s0` and `sm` be the extreme singular values of the weighted design matrix with columns of unit length, and let the
threshold exceed 1. If adjustment is on and the condition number is above the threshold (including a smallest singular value of 0), the
ridge parameter is positive, the adjusted condition number `(s0 + λ)/(sm + λ)` is exactly the threshold, and every smaller non-negative
parameter leaves it above the threshold. Otherwise it is the global parameter. -/
theorem C38_lambda {x : Matrix (Fin n) (Fin k) ℝ} {w : Fin n → ℝ} {a : Matrix (Fin n) (Fin k) ℝ} (hk : 0 < k)
    (ha : lcrScaled x w = .ok a) {s0 sm thresh : ℝ} (h0 : IsLargestSV a s0) (hm : IsSmallestSV a sm) (ht : 1 < thresh)
    (lambda : ℝ) (adjust : Bool) :
    (adjust = true → thresh * sm < s0 → ∃ lam, lcrLambda lambda adjust thresh s0 sm = .ok lam ∧ 0 < lam ∧
      (s0 + lam) / (sm + lam) = thresh ∧ ∀ lam', 0 ≤ lam' → lam' < lam → thresh * (sm + lam') < s0 + lam') ∧
    (adjust = false ∨ s0 ≤ thresh * sm → lcrLambda lambda adjust thresh s0 sm = .ok lambda) := by
  have hs0 := scaled_largest_ge_one hk ha h0
  have hsm := hm.1
  have hex : cnExceeds s0 sm thresh ↔ thresh * sm < s0 := by
    unfold cnExceeds
    split
    · rename_i h; rw [h]; constructor <;> intro _ <;> linarith
    · rename_i h
      rw [lt_div_iff₀ (lt_of_le_of_ne hsm (Ne.symm h))]
  constructor
  · intro hadj hlt
    have ht' : thresh - 1 ≠ 0 := by linarith
    have hlam : 0 < (s0 - thresh * sm) / (thresh - 1) := div_pos (by linarith) (by linarith)
    refine ⟨(s0 - thresh * sm) / (thresh - 1), ?_, hlam, ?_, ?_⟩
    · unfold lcrLambda fdiv; rw [if_pos ⟨hadj, hex.2 hlt⟩, if_neg ht']
    · rw [div_eq_iff (by linarith)]; field_simp; ring
    · intro lam' _ hl
      rw [lt_div_iff₀ (by linarith)] at hl
      nlinarith
  · intro h
    unfold lcrLambda
    rw [if_neg]
    rintro ⟨h1, h2⟩
    rcases h with h | h
    · rw [h] at h1; cases h1
    · exact absurd (hex.1 h2) (not_lt.2 h)

/-- A threshold of 1 or less is accepted by the setter: at 1 the parameter is not finite, below 1 it is negative whenever it is adjusted and
the smallest singular value is not the larger one. -/
theorem C38_small_threshold {s0 sm thresh : ℝ} (hsm : 0 < sm) (hle : sm < s0) (lambda : ℝ) :
    (thresh = 1 → lcrLambda lambda true thresh s0 sm = .nonfinite) ∧
    (thresh < 1 → ∃ lam, lcrLambda lambda true thresh s0 sm = .ok lam ∧ lam < 0) := by
  have hex : thresh ≤ 1 → cnExceeds s0 sm thresh := by
    intro h
    unfold cnExceeds
    rw [if_neg hsm.ne', lt_div_iff₀ hsm]
    nlinarith
  constructor
  · intro h
    unfold lcrLambda fdiv
    rw [if_pos ⟨rfl, hex h.le⟩, if_pos (by linarith)]
  · intro h
    refine ⟨(s0 - thresh * sm) / (thresh - 1), ?_, div_neg_of_pos_of_neg (by nlinarith) (by linarith)⟩
    unfold lcrLambda fdiv
    rw [if_pos ⟨rfl, hex h.le⟩, if_neg (by linarith)]

/-! ## C70 -/

/-- The normal equations of the ridge regression. -/
noncomputable def ridgeGram (x : Matrix (Fin n) (Fin k) ℝ) (w : Fin n → ℝ) (s : Fin k → ℝ) (lam : ℝ) : Matrix (Fin k) (Fin k) ℝ :=
  xtwx x w + lam • diagonal fun j => s j ^ 2

theorem ridgeGram_mulVec (x : Matrix (Fin n) (Fin k) ℝ) (w : Fin n → ℝ) (s : Fin k → ℝ) (lam : ℝ) (b : Fin k → ℝ) (j : Fin k) :
    (ridgeGram x w s lam *ᵥ b) j = (xtwx x w *ᵥ b) j + lam * s j ^ 2 * b j := by
  unfold ridgeGram
  rw [add_mulVec, smul_mulVec, Pi.add_apply, Pi.smul_apply, mulVec_diagonal, smul_eq_mul]; ring

theorem ridge_form (x : Matrix (Fin n) (Fin k) ℝ) (w : Fin n → ℝ) (s : Fin k → ℝ) (lam : ℝ) (b : Fin k → ℝ) :
    b ⬝ᵥ (ridgeGram x w s lam *ᵥ b) = ∑ l, w l * (∑ j, x l j * b j) ^ 2 + lam * ∑ j, (s j * b j) ^ 2 := by
  have e : b ⬝ᵥ (ridgeGram x w s lam *ᵥ b) = b ⬝ᵥ (xtwx x w *ᵥ b) + ∑ j, b j * (lam * s j ^ 2 * b j) := by
    simp only [dotProduct, ridgeGram_mulVec, mul_add, Finset.sum_add_distrib]
  rw [e, gram_form, Finset.mul_sum]
  congr 1
  exact Finset.sum_congr rfl fun j _ => by ring

/-- A form that vanishes on `b` means the ridge equations do not see `b`. -/
theorem ridge_kernel {x : Matrix (Fin n) (Fin k) ℝ} {w : Fin n → ℝ} (hw : ∀ l, 0 ≤ w l) {s : Fin k → ℝ} {lam : ℝ} (hl : 0 ≤ lam)
    {b : Fin k → ℝ} (h : b ⬝ᵥ (ridgeGram x w s lam *ᵥ b) = 0) : ridgeGram x w s lam *ᵥ b = 0 := by
  rw [ridge_form] at h
  have h1 : 0 ≤ ∑ l, w l * (∑ j, x l j * b j) ^ 2 := Finset.sum_nonneg fun l _ => mul_nonneg (hw l) (sq_nonneg _)
  have h2 : 0 ≤ lam * ∑ j, (s j * b j) ^ 2 := mul_nonneg hl (Finset.sum_nonneg fun j _ => sq_nonneg _)
  have h3 : ∑ l, w l * (∑ j, x l j * b j) ^ 2 = 0 := by linarith
  have h4 : lam * ∑ j, (s j * b j) ^ 2 = 0 := by linarith
  have h5 : ∀ l, w l * (∑ j, x l j * b j) = 0 := by
    intro l
    have := (Finset.sum_eq_zero_iff_of_nonneg fun l _ => mul_nonneg (hw l) (sq_nonneg _)).1 h3 l (Finset.mem_univ _)
    rcases mul_eq_zero.1 this with h | h
    · rw [h, zero_mul]
    · rw [pow_eq_zero_iff (by norm_num)] at h; rw [h, mul_zero]
  have h6 : ∀ j, lam * s j ^ 2 * b j = 0 := by
    intro j
    rcases mul_eq_zero.1 h4 with h | h
    · rw [h]; ring
    · have := (Finset.sum_eq_zero_iff_of_nonneg fun j _ => sq_nonneg _).1 h j (Finset.mem_univ _)
      rw [pow_eq_zero_iff (by norm_num)] at this
      calc lam * s j ^ 2 * b j = lam * s j * (s j * b j) := by ring
        _ = 0 := by rw [this, mul_zero]
  ext j
  rw [ridgeGram_mulVec, h6 j, add_zero, xtwx_mulVec]
  simp only [mulVec, dotProduct, xtw, Matrix.of_apply, Pi.zero_apply]
  refine Finset.sum_eq_zero fun l _ => ?_
  rw [mul_assoc, h5 l, mul_zero]

theorem sqrt_gram (x : Matrix (Fin n) (Fin k) ℝ) {w : Fin n → ℝ} (hw : ∀ l, 0 ≤ w l) (s : Fin k → ℝ) (i j : Fin k) :
    ((Matrix.of fun l j => x l j * Real.sqrt (w l) / s j : Matrix (Fin n) (Fin k) ℝ)ᵀ *
      (Matrix.of fun l j => x l j * Real.sqrt (w l) / s j : Matrix (Fin n) (Fin k) ℝ)) i j = xtwx x w i j / (s i * s j) := by
  simp only [Matrix.mul_apply, Matrix.transpose_apply, Matrix.of_apply, xtwx_apply, Finset.sum_div]
  refine Finset.sum_congr rfl fun l _ => ?_
  have := Real.mul_self_sqrt (hw l)
  rw [div_mul_div_comm]
  congr 1
  calc x l i * Real.sqrt (w l) * (x l j * Real.sqrt (w l)) = x l i * (Real.sqrt (w l) * Real.sqrt (w l)) * x l j := by ring
    _ = _ := by rw [this]

/-- The scaled system and the ridge equations: multiplying a solution by the scales. -/
theorem scaled_system {x : Matrix (Fin n) (Fin k) ℝ} {w : Fin n → ℝ} (hw : ∀ l, 0 ≤ w l) {s : Fin k → ℝ} (hs : ∀ j, s j ≠ 0) (lam : ℝ)
    (b : Fin k → ℝ) (j : Fin k) :
    (((Matrix.of fun l j => x l j * Real.sqrt (w l) / s j : Matrix (Fin n) (Fin k) ℝ)ᵀ *
      (Matrix.of fun l j => x l j * Real.sqrt (w l) / s j : Matrix (Fin n) (Fin k) ℝ) + lam • 1) *ᵥ fun j => s j * b j) j =
      (ridgeGram x w s lam *ᵥ b) j / s j := by
  rw [add_mulVec, Pi.add_apply, smul_mulVec, Pi.smul_apply, one_mulVec, ridgeGram_mulVec, smul_eq_mul]
  simp only [mulVec, dotProduct]
  simp only [sqrt_gram x hw]
  rw [add_div, Finset.sum_div]
  congr 1
  · refine Finset.sum_congr rfl fun i _ => ?_
    field_simp [hs i, hs j]
  · field_simp [hs j]

theorem ridgelm_cases {x : Matrix (Fin n) (Fin k) ℝ} {y w : Fin n → ℝ} {lam : ℝ} {b : Fin k → ℝ} (h : ridgelm x y w lam = .ok b) :
    2 ≤ k ∧ (∀ l, 0 ≤ w l) ∧ (∀ j, ridgeScale x j ≠ 0) ∧ IsUnit (ridgeGram x w (ridgeScale x) lam).det ∧
      ridgeGram x w (ridgeScale x) lam *ᵥ b = xtw x w *ᵥ y := by
  unfold ridgelm at h
  split at h
  · cases h
  split at h
  · cases h
  split at h
  · cases h
  rename_i hk hw hs
  push Not at hk hw hs
  simp only at h
  split at h
  · cases h
  rename_i hy
  unfold invGeneral at h
  split at h
  swap
  · cases h
  rename_i hu
  simp only [Res.bind, Res.ok.injEq] at h
  refine ⟨hk, hw, hs, ?_, ?_⟩
  · rw [← isUnit_iff_isUnit_det, ← mulVec_injective_iff_isUnit]
    have hinj := mulVec_injective_iff_isUnit.2 ((isUnit_iff_isUnit_det _).2 hu)
    intro b1 b2 h12
    have : (fun j => ridgeScale x j * b1 j) = fun j => ridgeScale x j * b2 j := by
      apply hinj
      ext j
      rw [scaled_system hw hs, scaled_system hw hs, h12]
    ext j
    exact mul_left_cancel₀ (hs j) (congrFun this j)
  · set A : Matrix (Fin n) (Fin k) ℝ := Matrix.of fun l j => x l j * Real.sqrt (w l) / ridgeScale x j with hA
    set sd := stddev fun l => y l * Real.sqrt (w l) with hsd
    have e : (fun j => ridgeScale x j * b j) = sd • ((Aᵀ * A + lam • 1)⁻¹ *ᵥ (Aᵀ *ᵥ fun l => y l * Real.sqrt (w l) / sd)) := by
      ext j
      rw [← h, Pi.smul_apply, smul_eq_mul]
      rw [mul_div_cancel₀ _ (hs j), mul_comm]
    ext j
    have h1 := scaled_system (x := x) hw hs lam b j
    rw [← hA, e, mulVec_smul, mulVec_mulVec, mul_nonsing_inv _ hu, one_mulVec, Pi.smul_apply, smul_eq_mul] at h1
    rw [eq_div_iff (hs j)] at h1
    rw [← h1]
    simp only [mulVec, dotProduct, Matrix.transpose_apply, hA, Matrix.of_apply, xtw, Finset.mul_sum, Finset.sum_mul]
    refine Finset.sum_congr rfl fun l _ => ?_
    have h2 := Real.mul_self_sqrt (hw l)
    field_simp [hs j]
    calc x l j * Real.sqrt (w l) ^ 2 * y l = x l j * (Real.sqrt (w l) * Real.sqrt (w l)) * y l := by ring
      _ = _ := by rw [h2]; ring

theorem stddev_spec (v : Fin n → ℝ) (hn : 1 < n) : IsStdDev v (stddev v) := by
  have h1 : (0 : ℝ) < (n : ℝ) - 1 := by
    have : (1 : ℝ) < n := by exact_mod_cast hn
    linarith
  unfold stddev
  rw [if_neg (by omega)]
  refine ⟨Real.sqrt_nonneg _, ?_⟩
  rw [Real.sq_sqrt (div_nonneg (Finset.sum_nonneg fun l _ => sq_nonneg _) h1.le)]
  rw [mul_div_cancel₀ _ h1.ne']
  rfl

theorem ridge_decomp (x : Matrix (Fin n) (Fin k) ℝ) (y w : Fin n → ℝ) (s : Fin k → ℝ) (lam : ℝ) (b b' : Fin k → ℝ)
    (h : ridgeGram x w s lam *ᵥ b = xtw x w *ᵥ y) :
    ridgeObjective x y w s lam b' = ridgeObjective x y w s lam b + (b' - b) ⬝ᵥ (ridgeGram x w s lam *ᵥ (b' - b)) := by
  have hj : ∀ j, ∑ l, w l * (y l - ∑ i, x l i * b i) * x l j = lam * s j ^ 2 * b j := by
    intro j
    have := congrFun h j
    rw [ridgeGram_mulVec, xtwx_mulVec] at this
    simp only [mulVec, dotProduct, xtw, Matrix.of_apply] at this
    have e : ∑ l, w l * (y l - ∑ i, x l i * b i) * x l j = ∑ l, x l j * w l * y l - ∑ l, x l j * w l * ∑ i, x l i * b i := by
      rw [← Finset.sum_sub_distrib]; exact Finset.sum_congr rfl fun l _ => by ring
    rw [e]; linarith
  have hcross : ∑ l, w l * (y l - ∑ i, x l i * b i) * (∑ j, x l j * (b' - b) j) = lam * ∑ j, s j ^ 2 * b j * (b' - b) j := by
    simp only [Finset.mul_sum]
    rw [Finset.sum_comm]
    refine Finset.sum_congr rfl fun j _ => ?_
    have := hj j
    calc ∑ l, w l * (y l - ∑ i, x l i * b i) * (x l j * (b' - b) j) = (∑ l, w l * (y l - ∑ i, x l i * b i) * x l j) * (b' - b) j := by
          rw [Finset.sum_mul]; exact Finset.sum_congr rfl fun l _ => by ring
      _ = _ := by rw [this]; ring
  have hb : ∀ l, ∑ j, x l j * b' j = ∑ j, x l j * b j + ∑ j, x l j * (b' - b) j := by
    intro l; rw [← Finset.sum_add_distrib]; exact Finset.sum_congr rfl fun j _ => by simp only [Pi.sub_apply]; ring
  have e1 : wss x y w b' = wss x y w b - 2 * ∑ l, w l * (y l - ∑ i, x l i * b i) * (∑ j, x l j * (b' - b) j) +
      ∑ l, w l * (∑ j, x l j * (b' - b) j) ^ 2 := by
    unfold wss
    rw [Finset.mul_sum, ← Finset.sum_sub_distrib, ← Finset.sum_add_distrib]
    exact Finset.sum_congr rfl fun l _ => by rw [hb l]; ring
  have e2 : ∑ j, (s j * b' j) ^ 2 = ∑ j, (s j * b j) ^ 2 + 2 * ∑ j, s j ^ 2 * b j * (b' - b) j + ∑ j, (s j * (b' - b) j) ^ 2 := by
    rw [Finset.mul_sum, ← Finset.sum_add_distrib, ← Finset.sum_add_distrib]
    exact Finset.sum_congr rfl fun j _ => by simp only [Pi.sub_apply]; ring
  rw [ridge_form]
  unfold ridgeObjective
  rw [e1, e2, hcross]; ring

/-- **C70.** For every data, non-negative ridge parameter and weights: if the local estimate exists, it is the unique minimiser of the weighted
residual sum of squares plus `λ` times the squared coefficients, each in units of the standard deviation of its variable (1 for the first
column, the intercept). -/
theorem C70_ridge (x : Matrix (Fin n) (Fin k) ℝ) (y w : Fin n → ℝ) {lam : ℝ} (hl : 0 ≤ lam) {b : Fin k → ℝ}
    (h : ridgelm x y w lam = .ok b) :
    ∃ s : Fin k → ℝ, (∀ j, j.val = 0 → s j = 1) ∧ (∀ j, j.val ≠ 0 → 0 < s j ∧ IsStdDev (fun l => x l j) (s j)) ∧
      ∀ b', b' ≠ b → ridgeObjective x y w s lam b < ridgeObjective x y w s lam b' := by
  obtain ⟨hk, hw, hs, hu, hne⟩ := ridgelm_cases h
  refine ⟨ridgeScale x, fun j hj => by simp [ridgeScale, hj], fun j hj => ?_, fun b' hb' => ?_⟩
  · have h1 := hs j
    simp only [ridgeScale, hj, if_false] at h1 ⊢
    have hn : 1 < n := by
      by_contra hn
      exact h1 (by unfold stddev; rw [if_pos (by omega)])
    have h2 := stddev_spec (fun l => x l j) hn
    exact ⟨lt_of_le_of_ne h2.1 (Ne.symm h1), h2⟩
  · rw [ridge_decomp x y w _ lam b b' hne]
    have hnn : 0 ≤ (b' - b) ⬝ᵥ (ridgeGram x w (ridgeScale x) lam *ᵥ (b' - b)) := by
      rw [ridge_form]
      exact add_nonneg (Finset.sum_nonneg fun l _ => mul_nonneg (hw l) (sq_nonneg _))
        (mul_nonneg hl (Finset.sum_nonneg fun j _ => sq_nonneg _))
    rcases eq_or_lt_of_le hnn with h0 | h0
    · exfalso
      have hz := ridge_kernel hw hl h0.symm
      have hinj := mulVec_injective_iff_isUnit.2 ((isUnit_iff_isUnit_det _).2 hu)
      exact hb' (sub_eq_zero.1 (hinj (by rw [hz, mulVec_zero])))
    · linarith

/-- **C70 (λ = 0).** Without ridge term the local estimate is the weighted least squares solution, as in basic regression. -/
theorem C70_zero_is_wls (x : Matrix (Fin n) (Fin k) ℝ) (y w : Fin n → ℝ) {b : Fin k → ℝ} (h : ridgelm x y w 0 = .ok b) :
    IsWLS x y w b := by
  obtain ⟨s, -, -, hmin⟩ := C70_ridge x y w le_rfl h
  intro b' hb'
  simpa [ridgeObjective] using hmin b' hb'

/-- **C70 (existence).** With a positive ridge parameter the estimate exists for all data with varying columns and weighted response, however
collinear the columns are. -/
theorem C70_exists (x : Matrix (Fin n) (Fin k) ℝ) (y w : Fin n → ℝ) {lam : ℝ} (hl : 0 < lam) (hk : 2 ≤ k) (hw : ∀ l, 0 ≤ w l)
    (hs : ∀ j, ridgeScale x j ≠ 0) (hy : stddev (fun l => y l * Real.sqrt (w l)) ≠ 0) : ∃ b, ridgelm x y w lam = .ok b := by
  unfold ridgelm
  rw [if_neg (by omega), if_neg (by push Not; exact hw), if_neg (by push Not; exact hs)]
  simp only
  rw [if_neg hy]
  set A : Matrix (Fin n) (Fin k) ℝ := Matrix.of fun l j => x l j * Real.sqrt (w l) / ridgeScale x j with hA
  have hu : IsUnit (Aᵀ * A + lam • (1 : Matrix (Fin k) (Fin k) ℝ)).det := by
    rw [← isUnit_iff_isUnit_det, ← mulVec_injective_iff_isUnit]
    refine (injective_iff_map_eq_zero (Matrix.mulVecLin (Aᵀ * A + lam • (1 : Matrix (Fin k) (Fin k) ℝ)))).2 ?_
    intro u hu
    rw [mulVecLin_apply] at hu
    have e : u ⬝ᵥ ((Aᵀ * A + lam • 1) *ᵥ u) = (A *ᵥ u) ⬝ᵥ (A *ᵥ u) + lam * (u ⬝ᵥ u) := by
      rw [add_mulVec, smul_mulVec, one_mulVec, dotProduct_add, dotProduct_smul, ← mulVec_mulVec, dotProduct_mulVec, vecMul_transpose,
        smul_eq_mul]
    rw [hu, dotProduct_zero] at e
    have h1 : 0 ≤ (A *ᵥ u) ⬝ᵥ (A *ᵥ u) := Finset.sum_nonneg fun l _ => mul_self_nonneg _
    have h2 : 0 ≤ u ⬝ᵥ u := Finset.sum_nonneg fun l _ => mul_self_nonneg _
    have h3 : u ⬝ᵥ u = 0 := by nlinarith
    exact dotProduct_self_eq_zero.1 h3
  unfold invGeneral
  rw [if_pos hu]
  exact ⟨_, rfl⟩

/-! ## C71 -/

theorem lcrHatRow_ok {x : Matrix (Fin n) (Fin k) ℝ} {w h : Fin n → ℝ} {i : Fin n} (hr : lcrHatRow x w i = .ok h) :
    IsUnit (xtwx x w).det ∧ ∀ l, h l = w i * (x i ⬝ᵥ ((xtwx x w)⁻¹ *ᵥ x l)) * w l := by
  unfold lcrHatRow invGeneral at hr
  split at hr
  swap
  · cases hr
  rename_i hu
  simp only [Res.bind, Res.ok.injEq] at hr
  refine ⟨hu, fun l => ?_⟩
  rw [← hr]
  have e : ∀ l, lcrWeighted x w l = w l • x l := by intro l; ext j; simp [lcrWeighted, mul_comm]
  simp only [e, smul_dotProduct, mulVec_smul, dotProduct_smul, smul_eq_mul]; ring

/-- **C71 (traces), refuted.** The traces from which the effective number of parameters is computed do not depend on the ridge parameter: two
fits of the same data with different ridge settings report the same. -/
theorem C71_traces_ignore_ridge (sv : Matrix (Fin n) (Fin k) ℝ → ℝ × ℝ) (c1 c2 : LcrCfg) (x : Matrix (Fin n) (Fin k) ℝ) (y : Fin n → ℝ)
    (W : Fin n → Fin n → ℝ) (tr : Fin 2 → ℝ) {r1 r2 : Matrix (Fin n) (Fin k) ℝ × (Fin 2 → ℝ)}
    (h1 : lcrFitSerial sv c1 x y W NoStop tr = .ok (r1, false)) (h2 : lcrFitSerial sv c2 x y W NoStop tr = .ok (r2, false)) :
    r1.2 = r2.2 := by
  have key : ∀ (c : LcrCfg) (r : Matrix (Fin n) (Fin k) ℝ × (Fin 2 → ℝ)), lcrFitSerial sv c x y W NoStop tr = .ok (r, false) →
      ∀ hr : Fin n → Fin n → ℝ, (∀ i, ∀ h, lcrHatRow x (W i) i = .ok h → h = hr i) →
      r.2 = tr + ((List.finRange n).map fun i => lcrTraces i (hr i)).sum := by
    intro c r h hr hhr
    unfold lcrFitSerial at h
    have hok := serialFor_complete _ _ _ _ h
    choose f hf using fun i => hok i (List.mem_finRange i)
    have hfold := serialFor_eq_fold _ _ _ _ h f fun i _ => hf i
    have hf2 : ∀ i, (f i).2 = hr i := by
      intro i
      have := hf i
      unfold lcrLocal at this
      rw [Res.bind_eq_ok'] at this
      obtain ⟨b, _, this⟩ := this
      rw [Res.bind_eq_ok'] at this
      obtain ⟨hh, hh1, hh2⟩ := this
      rw [← Res.ok.inj hh2]
      exact hhr i hh hh1
    have : ∀ (l : List (Fin n)) (s : Matrix (Fin n) (Fin k) ℝ × (Fin 2 → ℝ)),
        (l.foldl (fun s i => (setRow i (f i).1 s.1, s.2 + lcrTraces i (f i).2)) s).2 =
          s.2 + (l.map fun i => lcrTraces i (hr i)).sum := by
      intro l
      induction l with
      | nil => intro s; simp
      | cons i l ih => intro s; rw [List.foldl_cons, ih]; simp [hf2, add_assoc]
    rw [hfold, this]
  have hex : ∀ i, ∃ h0, ∀ h, lcrHatRow x (W i) i = .ok h → h = h0 := by
    intro i
    cases hc : lcrHatRow x (W i) i with
    | ok h => exact ⟨h, fun h' e => (Res.ok.inj e).symm⟩
    | _ => exact ⟨0, fun h' e => by cases e⟩
  choose hr hhr using hex
  rw [key c1 r1 h1 hr hhr, key c2 r2 h2 hr hhr]

/-- Shrinking: with a ridge term the leverage is smaller. -/
theorem ridge_leverage_lt {x : Matrix (Fin n) (Fin k) ℝ} {w : Fin n → ℝ} (hw : ∀ l, 0 ≤ w l) {s : Fin k → ℝ} (hs : ∀ j, s j ≠ 0)
    {lam : ℝ} (hl : 0 < lam) {xi u v : Fin k → ℝ} (hxi : xi ≠ 0) (hu : ridgeGram x w s lam *ᵥ u = xi) (hv : xtwx x w *ᵥ v = xi) :
    xi ⬝ᵥ u < xi ⬝ᵥ v := by
  have hne : u ≠ 0 := by rintro rfl; rw [mulVec_zero] at hu; exact hxi hu.symm
  have hE : 0 < lam * ∑ j, (s j * u j) ^ 2 := by
    refine mul_pos hl ?_
    obtain ⟨j, hj⟩ := Function.ne_iff.1 hne
    exact Finset.sum_pos' (fun j _ => sq_nonneg _) ⟨j, Finset.mem_univ _, by
      have : s j * u j ≠ 0 := mul_ne_zero (hs j) hj
      positivity⟩
  have hsym : ∀ a b : Fin k → ℝ, a ⬝ᵥ (xtwx x w *ᵥ b) = b ⬝ᵥ (xtwx x w *ᵥ a) := by
    intro a b
    have ht : (xtwx x w)ᵀ = xtwx x w := by
      have := xtwx_isHermitian x w
      rwa [Matrix.IsHermitian, conjTranspose_eq_transpose_of_trivial] at this
    rw [dotProduct_mulVec, ← mulVec_transpose, ht, dotProduct_comm]
  have h1 : 0 ≤ (v - u) ⬝ᵥ (xtwx x w *ᵥ (v - u)) := by
    rw [gram_form]; exact Finset.sum_nonneg fun l _ => mul_nonneg (hw l) (sq_nonneg _)
  have h2 : u ⬝ᵥ xi = u ⬝ᵥ (xtwx x w *ᵥ u) + lam * ∑ j, (s j * u j) ^ 2 := by
    rw [← hu, ridge_form, gram_form]
    rfl
  have h3 : (v - u) ⬝ᵥ (xtwx x w *ᵥ (v - u)) = v ⬝ᵥ xi - 2 * (u ⬝ᵥ xi) + u ⬝ᵥ (xtwx x w *ᵥ u) := by
    rw [mulVec_sub, dotProduct_sub, sub_dotProduct, sub_dotProduct, hv, hsym v u, hv]; ring
  rw [dotProduct_comm xi u, dotProduct_comm xi v]
  linarith

/-- **C71 (leverage), refuted.** With a positive ridge parameter the diagonal entry of the hat matrix that the program uses is larger than the
effect of observation `i` on its own fitted value: raising response `i` by one raises fitted value `i` by strictly less. -/
theorem C71_leverage_too_large (x : Matrix (Fin n) (Fin k) ℝ) (y w : Fin n → ℝ) {lam : ℝ} (hl : 0 < lam) (i : Fin n) (hwi : w i = 1)
    (hxi : x i ≠ 0) {b b' : Fin k → ℝ} {h : Fin n → ℝ} (hb : ridgelm x y w lam = .ok b)
    (hb' : ridgelm x (Function.update y i (y i + 1)) w lam = .ok b') (hh : lcrHatRow x w i = .ok h) :
    ∑ j, x i j * b' j - ∑ j, x i j * b j < h i := by
  obtain ⟨_, hw, hs, hu, he⟩ := ridgelm_cases hb
  obtain ⟨_, _, _, _, he'⟩ := ridgelm_cases hb'
  obtain ⟨hu0, hrow⟩ := lcrHatRow_ok hh
  have hdiff : ridgeGram x w (ridgeScale x) lam *ᵥ (b' - b) = x i := by
    rw [mulVec_sub, he, he', ← mulVec_sub]
    have : Function.update y i (y i + 1) - y = Pi.single i 1 := by
      ext l
      by_cases hli : l = i
      · subst hli; simp
      · simp [hli]
    rw [this]
    ext j
    simp [xtw, hwi]
  have hv : xtwx x w *ᵥ ((xtwx x w)⁻¹ *ᵥ x i) = x i := by
    rw [mulVec_mulVec, mul_nonsing_inv _ hu0, one_mulVec]
  have := ridge_leverage_lt hw hs hl hxi hdiff hv
  rw [hrow i, hwi, one_mul, mul_one]
  refine lt_of_eq_of_lt ?_ this
  rw [dotProduct_sub]; rfl

/-- **C71 (collinear data), refuted.** If at some location the weighted observations do not determine the coefficients, the fit fails whatever
the ridge parameter is, although the ridge estimate exists (`C70_exists`): the hat row is computed without the ridge term. -/
theorem C71_collinear_fit_fails (sv : Matrix (Fin n) (Fin k) ℝ → ℝ × ℝ) (c : LcrCfg) (x : Matrix (Fin n) (Fin k) ℝ) (y : Fin n → ℝ)
    (W : Fin n → Fin n → ℝ) (hW : ∀ i l, 0 ≤ W i l) (tr : Fin 2 → ℝ) (i : Fin n) (hd : ¬ Determined x (W i)) :
    ∀ r, lcrFitSerial sv c x y W NoStop tr ≠ .ok (r, false) := by
  intro r h
  obtain ⟨f, hf⟩ := serialFor_complete _ _ _ _ h i (List.mem_finRange i)
  unfold lcrLocal at hf
  rw [Res.bind_eq_ok'] at hf
  obtain ⟨b, _, hf⟩ := hf
  rw [Res.bind_eq_ok'] at hf
  obtain ⟨hh, hh1, _⟩ := hf
  have hu := (lcrHatRow_ok hh1).1
  have hg := invGeneral_gram x (W i) (hW i)
  unfold invGeneral invSympd at hg
  rw [if_pos hu] at hg
  split at hg
  · rename_i hp
    exact hd ((gram_posDef_iff_determined x _ (hW i)).1 hp)
  · cases hg

/-! ## C39 -/

/-- What one serial fit adds. -/
theorem lcrFitSerial_add (sv : Matrix (Fin n) (Fin k) ℝ → ℝ × ℝ) (cfg : LcrCfg) (x : Matrix (Fin n) (Fin k) ℝ) (y : Fin n → ℝ)
    (W : Fin n → Fin n → ℝ) {r : Matrix (Fin n) (Fin k) ℝ × (Fin 2 → ℝ)} (h : lcrFitSerial sv cfg x y W NoStop 0 = .ok (r, false))
    (tr : Fin 2 → ℝ) : lcrFitSerial sv cfg x y W NoStop tr = .ok ((r.1, tr + r.2), false) := by
  have hok := serialFor_complete _ _ _ _ h
  choose f hf using fun i => hok i (List.mem_finRange i)
  have hfold := serialFor_eq_fold _ _ _ _ h f fun i _ => hf i
  unfold lcrFitSerial
  rw [serialFor_ok f _ _ _ (fun _ _ => rfl) fun i _ => hf i, hfold]
  have : ∀ (l : List (Fin n)) (b : Matrix (Fin n) (Fin k) ℝ) (t0 t1 : Fin 2 → ℝ),
      l.foldl (fun (s : Matrix (Fin n) (Fin k) ℝ × (Fin 2 → ℝ)) i => (setRow i (f i).1 s.1, s.2 + lcrTraces i (f i).2)) (b, t0 + t1) =
        ((l.foldl (fun (s : Matrix (Fin n) (Fin k) ℝ × (Fin 2 → ℝ)) i => (setRow i (f i).1 s.1, s.2 + lcrTraces i (f i).2)) (b, t1)).1,
        t0 + (l.foldl (fun (s : Matrix (Fin n) (Fin k) ℝ × (Fin 2 → ℝ)) i => (setRow i (f i).1 s.1, s.2 + lcrTraces i (f i).2)) (b, t1)).2) := by
    intro l
    induction l with
    | nil => intro b t0 t1; rfl
    | cons i l ih => intro b t0 t1; simp only [List.foldl_cons]; rw [add_assoc, ih]
  have h0 := this (List.finRange n) 0 tr 0
  rw [add_zero] at h0
  rw [h0]

/-- **C39 for the serial ridge regression: refuted.** Fitting the same object again returns the same coefficients, but the effective number of
parameters reported by the `m`-th `fit()` is `m` times that of the first. -/
theorem C39_lcr_enp_grows (sv : Matrix (Fin n) (Fin k) ℝ → ℝ × ℝ) (cfg : LcrCfg) (x : Matrix (Fin n) (Fin k) ℝ) (y : Fin n → ℝ)
    (W : Fin n → Fin n → ℝ) {r : Matrix (Fin n) (Fin k) ℝ × (Fin 2 → ℝ)} (h : lcrFitSerial sv cfg x y W NoStop 0 = .ok (r, false)) (m : ℕ) :
    ∃ d0 dm, (∃ t, lcrFits (lcrFitSerial sv cfg x y W NoStop) x y 0 = .ok ⟨r.1, some d0, t⟩) ∧
      (∃ t, lcrFits (lcrFitSerial sv cfg x y W NoStop) x y m = .ok ⟨r.1, some dm, t⟩) ∧
      dm.ENP = (m + 1) * d0.ENP ∧ dm.RSS = d0.RSS := by
  have key : ∀ m : ℕ, lcrFits (lcrFitSerial sv cfg x y W NoStop) x y m =
      .ok ⟨r.1, some (lcrDiagnostic x y r.1 (((m : ℝ) + 1) • r.2)), ((m : ℝ) + 1) • r.2⟩ := by
    intro m
    induction m with
    | zero =>
      unfold lcrFits lcrFit
      rw [h]
      simp [Res.bind]
    | succ m ih =>
      unfold lcrFits
      rw [ih]
      simp only [Res.bind]
      unfold lcrFit
      rw [lcrFitSerial_add sv cfg x y W h]
      have e : ((m : ℝ) + 1) • r.2 + r.2 = (((m + 1 : ℕ) : ℝ) + 1) • r.2 := by
        push_cast; rw [add_smul ((m : ℝ) + 1) 1 r.2, one_smul]
      simp only [Res.bind, Bool.false_eq_true, if_false, e]
  refine ⟨_, _, ⟨_, key 0⟩, ⟨_, key m⟩, ?_, rfl⟩
  simp only [lcrDiagnostic, Pi.smul_apply, smul_eq_mul, Nat.cast_zero]
  ring

/-- **C39 for the parallel ridge regression.** With OpenMP a fit reports the same whatever was fitted before, for every schedule. -/
theorem C39_lcr_parallel_repeatable (sv : Matrix (Fin n) (Fin k) ℝ → ℝ × ℝ) (cfg : LcrCfg) (x : Matrix (Fin n) (Fin k) ℝ) (y : Fin n → ℝ)
    (W : Fin n → Fin n → ℝ) {r : Matrix (Fin n) (Fin k) ℝ × (Fin 2 → ℝ)} (h : lcrFitSerial sv cfg x y W NoStop 0 = .ok (r, false))
    {evs : List (OmpEv (Fin n) (Fin T))} (hs : Schedule (List.finRange n) evs) (tr : Fin 2 → ℝ) :
    lcrFitOmp sv cfg x y W NoStop evs tr = .ok (r, false) := by
  have hok := serialFor_complete _ _ _ _ h
  choose f hf using fun i => hok i (List.mem_finRange i)
  have hfold := serialFor_eq_fold _ _ _ _ h f fun i _ => hf i
  unfold lcrFitOmp
  obtain ⟨h1, h2, h3⟩ := omp_ok (upd := fun (t : Fin T) i (r : (Fin k → ℝ) × (Fin n → ℝ)) s =>
      (setRow i r.1 s.1, Function.update s.2 t (s.2 t + lcrTraces i r.2))) (stop := NoStop) (fun _ => rfl) f
    ((0, 0) : Matrix (Fin n) (Fin k) ℝ × (Fin T → Fin 2 → ℝ)) hs fun i _ => hf i
  simp only [h1, h2, h3, if_true, Res.ok.injEq, Prod.mk.injEq, and_true]
  have split1 : ∀ (l : List (Fin T × Fin n)) (s : Matrix (Fin n) (Fin k) ℝ × (Fin T → Fin 2 → ℝ)),
      l.foldl (fun s ti => (setRow ti.2 (f ti.2).1 s.1, Function.update s.2 ti.1 (s.2 ti.1 + lcrTraces ti.2 (f ti.2).2))) s =
        (l.foldl (fun s ti => setRow ti.2 (f ti.2).1 s) s.1,
         l.foldl (fun s ti => Function.update s ti.1 (s ti.1 + lcrTraces ti.2 (f ti.2).2)) s.2) := by
    intro l
    induction l with
    | nil => intro s; rfl
    | cons i l ih => intro s; rw [List.foldl_cons, ih]; rfl
  have split2 : ∀ (l : List (Fin n)) (s : Matrix (Fin n) (Fin k) ℝ × (Fin 2 → ℝ)),
      l.foldl (fun s i => (setRow i (f i).1 s.1, s.2 + lcrTraces i (f i).2)) s =
        (l.foldl (fun s i => setRow i (f i).1 s) s.1, s.2 + (l.map fun i => lcrTraces i (f i).2).sum) := by
    intro l
    induction l with
    | nil => intro s; simp
    | cons i l ih => intro s; rw [List.foldl_cons, ih]; simp [add_assoc]
  rw [split1, hfold, split2]
  refine Prod.ext ?_ ?_
  · simp only
    ext i j
    have hmem : i ∈ List.finRange n := List.mem_finRange i
    have e1 : ((List.finRange n).foldl (fun s i => setRow i (f i).1 s) (0 : Matrix (Fin n) (Fin k) ℝ)) i = (f i).1 :=
      foldl_update (α := Fin k → ℝ) (fun i : Fin n => i) (fun i => (f i).1) _ _ (by simpa using List.nodup_finRange n) i hmem
    have hmem' : i ∈ (finishes evs).map Prod.snd := hs.finishes.mem_iff.2 hmem
    obtain ⟨⟨t, i'⟩, ht, rfl⟩ := List.mem_map.1 hmem'
    have e2 : ((finishes evs).foldl (fun s ti => setRow ti.2 (f ti.2).1 s) (0 : Matrix (Fin n) (Fin k) ℝ)) i' = (f i').1 :=
      foldl_update (α := Fin k → ℝ) (fun ti : Fin T × Fin n => ti.2) (fun ti => (f ti.2).1) _ _
        (hs.finishes.nodup_iff.2 (List.nodup_finRange n)) (t, i') ht
    rw [e1, e2]
  · simp only
    rw [sum_foldl_thread (fun i => lcrTraces i (f i).2)]
    simp only [Pi.zero_apply, Finset.sum_const_zero, zero_add]
    have := (hs.finishes.map fun i => lcrTraces i (f i).2).sum_eq
    rw [List.map_map] at this
    exact this

/-! ## C72, C73 -/

/-- **C72, refuted.** Prediction with OpenMP never returns for any locations: the result matrix has the wrong number of columns, the assignment
of a row throws and the exception leaves the parallel region. Serial prediction of the same locations may well succeed. -/
theorem C72_parallel_predict_dies (sv : Matrix (Fin n) (Fin k) ℝ → ℝ × ℝ) (cfg : LcrCfg) (x : Matrix (Fin n) (Fin k) ℝ) (y : Fin n → ℝ)
    (W : Fin m → Fin n → ℝ) (hm : 0 < m) {evs : List (OmpEv (Fin m) (Fin T))} (hs : Schedule (List.finRange m) evs) :
    lcrPredictOmp sv cfg x y W NoStop evs = .ub := by
  unfold lcrPredictOmp
  simp only
  rw [omp_fail (fun _ => rfl) _ (List.nodup_finRange m) hs ⟨0, hm⟩ (List.mem_finRange _), if_neg (by simp)]
  intro r hr
  rw [Res.bind_eq_ok'] at hr
  obtain ⟨b, hb, hr⟩ := hr
  have hk : 2 ≤ k := by
    unfold lcrBeta at hb
    split at hb
    · cases hb
    · omega
  have hn : k ≤ n := by
    unfold lcrBeta at hb
    rw [if_neg (by omega), Res.bind_eq_ok'] at hb
    obtain ⟨a, _, hb⟩ := hb
    split at hb
    · cases hb
    · omega
  rw [dif_neg (by nlinarith)] at hr
  cases hr

theorem rowLoop {g : Fin m → Res (Fin k → ℝ)} {b : Matrix (Fin m) (Fin k) ℝ} {t : Bool}
    (h : serialFor g setRow NoStop (List.finRange m) 0 0 = .ok (b, t)) : t = false ∧ ∀ i, g i = .ok (b i) := by
  have ht : t = false := by
    have : ∀ (is : List (Fin m)) (p : ℕ) (a : Matrix (Fin m) (Fin k) ℝ) q, serialFor g setRow NoStop is p a = .ok q → q.2 = false := by
      intro is
      induction is with
      | nil => intro p a q hq; simp only [serialFor, Res.ok.injEq] at hq; rw [← hq]
      | cons i is ih =>
        intro p a q hq
        simp only [serialFor, Bool.false_eq_true, if_false] at hq
        rw [Res.bind_eq_ok'] at hq
        obtain ⟨b, _, hq⟩ := hq
        exact ih _ _ _ hq
    exact this _ _ _ _ h
  subst ht
  refine ⟨rfl, fun i => ?_⟩
  have hok := serialFor_complete _ _ _ _ h
  choose f hf using fun i => hok i (List.mem_finRange i)
  have hfold := serialFor_eq_fold _ _ _ _ h f fun i _ => hf i
  have e1 : ((List.finRange m).foldl (fun s i => setRow i (f i) s) (0 : Matrix (Fin m) (Fin k) ℝ)) i = f i :=
    foldl_update (α := Fin k → ℝ) (fun i : Fin m => i) (fun i => f i) _ _ (by simpa using List.nodup_finRange m) i (List.mem_finRange i)
  rw [hfold, e1]
  exact hf i

/-- **C73 (prediction).** Serial prediction gives at every location the ridge estimate for the weights there. -/
theorem C73_predict_rows (sv : Matrix (Fin n) (Fin k) ℝ → ℝ × ℝ) (cfg : LcrCfg) (x : Matrix (Fin n) (Fin k) ℝ) (y : Fin n → ℝ)
    (W : Fin m → Fin n → ℝ) {b : Matrix (Fin m) (Fin k) ℝ} (h : lcrPredictSerial sv cfg x y W NoStop = .ok (b, false)) (i : Fin m) :
    lcrBeta sv cfg x y (W i) = .ok (b i) := (rowLoop h).2 i

/-- **C73 (prediction at the data points).** If a fit succeeds, predicting with the same weights gives the same coefficients. -/
theorem C73_predict_eq_fit (sv : Matrix (Fin n) (Fin k) ℝ → ℝ × ℝ) (cfg : LcrCfg) (x : Matrix (Fin n) (Fin k) ℝ) (y : Fin n → ℝ)
    (W : Fin n → Fin n → ℝ) (tr : Fin 2 → ℝ) {r : Matrix (Fin n) (Fin k) ℝ × (Fin 2 → ℝ)}
    (h : lcrFitSerial sv cfg x y W NoStop tr = .ok (r, false)) : lcrPredictSerial sv cfg x y W NoStop = .ok (r.1, false) := by
  have hok := serialFor_complete _ _ _ _ h
  choose f hf using fun i => hok i (List.mem_finRange i)
  have hfold := serialFor_eq_fold _ _ _ _ h f fun i _ => hf i
  have hb : ∀ i, lcrBeta sv cfg x y (W i) = .ok (f i).1 := by
    intro i
    have := hf i
    unfold lcrLocal at this
    rw [Res.bind_eq_ok'] at this
    obtain ⟨b, hb, this⟩ := this
    rw [Res.bind_eq_ok'] at this
    obtain ⟨hh, _, hh2⟩ := this
    rw [← Res.ok.inj hh2]
    exact hb
  unfold lcrPredictSerial
  rw [serialFor_ok (fun i => (f i).1) _ _ _ (fun _ _ => rfl) fun i _ => hb i, hfold]
  have split2 : ∀ (l : List (Fin n)) (s : Matrix (Fin n) (Fin k) ℝ × (Fin 2 → ℝ)),
      (l.foldl (fun s i => (setRow i (f i).1 s.1, s.2 + lcrTraces i (f i).2)) s).1 = l.foldl (fun s i => setRow i (f i).1 s) s.1 := by
    intro l
    induction l with
    | nil => intro s; rfl
    | cons i l ih => intro s; rw [List.foldl_cons, ih]; rfl
  rw [split2]

/-- **C73 (cross-validation).** The coefficients with which observation `i` is predicted in the CV score do not depend on its response. -/
theorem C73_own_response_unused (sv : Matrix (Fin n) (Fin k) ℝ → ℝ × ℝ) (cfg : LcrCfg) (x : Matrix (Fin n) (Fin k) ℝ) (y y' : Fin n → ℝ)
    (W : Fin n → Fin n → ℝ) (i : Fin n) (h : ∀ l, l ≠ i → y l = y' l) :
    lcrBeta sv cfg x y (cvWeight W i) = lcrBeta sv cfg x y' (cvWeight W i) := by
  have e2 : ∀ l, y l * Real.sqrt (cvWeight W i l) = y' l * Real.sqrt (cvWeight W i l) := by
    intro l
    by_cases hl : l = i
    · subst hl; simp [cvWeight]
    · rw [h l hl]
  have : ∀ lam, ridgelm x y (cvWeight W i) lam = ridgelm x y' (cvWeight W i) lam := by
    intro lam
    unfold ridgelm
    simp only [e2]
  unfold lcrBeta
  simp only [this]

/-- **C73 (score).** An uncancelled CV score is the sum of squared errors of predicting every observation with those coefficients, if it is
representable, and the largest double otherwise. -/
theorem C73_score (sv : Matrix (Fin n) (Fin k) ℝ → ℝ × ℝ) (cfg : LcrCfg) (x : Matrix (Fin n) (Fin k) ℝ) (y : Fin n → ℝ)
    (W : Fin n → Fin n → ℝ) {c : ℝ} (h : lcrCriterionCV sv cfg x y W NoStop = .ok c) :
    ∃ b : Fin n → Fin k → ℝ, (∀ i, lcrBeta sv cfg x y (cvWeight W i) = .ok (b i)) ∧
      c = min (∑ i, (y i - ∑ j, x i j * b i j) ^ 2) dblMax := by
  unfold lcrCriterionCV at h
  rw [Res.bind_eq_ok'] at h
  obtain ⟨⟨r, s⟩, hr, h⟩ := h
  obtain ⟨rfl, hrow⟩ := rowLoop hr
  refine ⟨r, hrow, ?_⟩
  simp only [Bool.false_eq_true, if_false, Res.ok.injEq] at h
  have e : rss x y r = ∑ i, (y i - ∑ j, x i j * r i j) ^ 2 := by
    unfold rss fitted
    refine Finset.sum_congr rfl fun i _ => ?_
    have : ∑ j, r i j * x i j = ∑ j, x i j * r i j := Finset.sum_congr rfl fun j _ => mul_comm _ _
    rw [this]; ring
  have hnn : 0 ≤ rss x y r := by rw [e]; exact Finset.sum_nonneg fun i _ => sq_nonneg _
  rw [← h, ← e]
  unfold finiteOrMax
  rw [abs_of_nonneg hnn]
  split
  · rename_i hle; rw [min_eq_left hle]
  · rename_i hle; rw [min_eq_right (le_of_not_ge hle)]

/-! ## Non-vacuity -/

theorem stddev_ne_zero {v : Fin n → ℝ} {a b : Fin n} (h : v a ≠ v b) : stddev v ≠ 0 := by
  have hn : 1 < n := by
    by_contra hn
    exact h (congrArg v (Fin.ext (by have := a.isLt; have := b.isLt; omega)))
  intro h0
  have h1 := (stddev_spec v hn).2
  rw [h0] at h1
  have h2 : ∑ l, (v l - (∑ i, v i) / n) ^ 2 = 0 := by rw [← h1]; ring
  have h3 := (Finset.sum_eq_zero_iff_of_nonneg fun l _ => sq_nonneg _).1 h2
  have ha := h3 a (Finset.mem_univ _)
  have hb := h3 b (Finset.mem_univ _)
  rw [pow_eq_zero_iff (by norm_num)] at ha hb
  exact h (by linarith)

theorem exX_scale (j : Fin 2) : ridgeScale exX j ≠ 0 := by
  fin_cases j
  · simp [ridgeScale]
  · have : stddev (fun l => exX l 1) ≠ 0 := stddev_ne_zero (a := 0) (b := 1) (by
      change (0 : ℝ) ≠ 1; norm_num)
    simpa [ridgeScale] using this

theorem exX_column {w : Fin 3 → ℝ} (hw : ∀ l, 0 < w l) (j : Fin 2) : ∑ l, lcrWeighted exX w l j * lcrWeighted exX w l j ≠ 0 := by
  have h2 : exX 2 j ≠ 0 := by
    fin_cases j
    · change (1 : ℝ) ≠ 0; norm_num
    · change (2 : ℝ) ≠ 0; norm_num
  have : 0 < ∑ l, lcrWeighted exX w l j * lcrWeighted exX w l j :=
    Finset.sum_pos' (fun l _ => mul_self_nonneg _) ⟨2, Finset.mem_univ _, by
      have : lcrWeighted exX w 2 j ≠ 0 := mul_ne_zero h2 (hw 2).ne'
      exact mul_self_pos.2 this⟩
  exact this.ne'

/-- A fit of three observations with ridge parameter 1 succeeds, so C39, C71 and C73 apply. -/
theorem ex_lcr_pos (sv : Matrix (Fin 3) (Fin 2) ℝ → ℝ × ℝ) (lam : ℝ) (hl : 0 < lam) (exW : Fin 3 → Fin 3 → ℝ) (exW_pos : ∀ i l, 0 < exW i l) :
    ∃ r, lcrFitSerial sv ⟨lam, false, 30⟩ exX (fun l => (l.val : ℝ) ^ 2) exW NoStop 0 = .ok (r, false) := by
  have hrow : ∀ i, ∃ r, lcrLocal sv ⟨lam, false, 30⟩ exX (fun l => (l.val : ℝ) ^ 2) exW i = .ok r := by
    intro i
    have hp := (gram_posDef_iff_determined exX _ fun l => (exW_pos i l).le).2 (exX_determined _ (exW_pos i))
    obtain ⟨b, hb⟩ := C70_exists exX (fun l => (l.val : ℝ) ^ 2) (exW i) hl le_rfl (fun l => (exW_pos i l).le) exX_scale
      (stddev_ne_zero (a := 0) (b := 1) (by
        have := Real.sqrt_pos.2 (exW_pos i 1)
        simp only [Fin.val_zero, Fin.val_one, Nat.cast_zero, Nat.cast_one]
        intro h
        nlinarith))
    have h1 : lcrBeta sv ⟨lam, false, 30⟩ exX (fun l => (l.val : ℝ) ^ 2) (exW i) = .ok b := by
      unfold lcrBeta lcrScaled
      rw [if_neg (by norm_num), if_neg (by push Not; exact exX_column (exW_pos i))]
      simp only [Res.bind, lcrLambda, Bool.false_eq_true, false_and, if_false, hb]
      rw [if_neg (by norm_num)]
    have hu : IsUnit (xtwx exX (exW i)).det := (isUnit_iff_isUnit_det _).1 hp.isUnit
    unfold lcrLocal
    rw [h1]
    simp only [Res.bind, lcrHatRow, invGeneral, hu, if_true]
    exact ⟨_, rfl⟩
  choose f hf using hrow
  exact ⟨_, serialFor_ok f _ _ _ (fun _ _ => rfl) fun i _ => hf i⟩

theorem ex_lcr (sv : Matrix (Fin 3) (Fin 2) ℝ → ℝ × ℝ) (lam : ℝ) (hl : 0 < lam) :
    ∃ r, lcrFitSerial sv ⟨lam, false, 30⟩ exX (fun l => (l.val : ℝ) ^ 2) exW NoStop 0 = .ok (r, false) :=
  ex_lcr_pos sv lam hl exW exW_pos

/-- The second `fit()` of this object reports twice the effective number of parameters of the first. -/
example (sv : Matrix (Fin 3) (Fin 2) ℝ → ℝ × ℝ) : ∃ b d0 d1 t0 t1,
    lcrFits (lcrFitSerial sv ⟨1, false, 30⟩ exX (fun l => (l.val : ℝ) ^ 2) exW NoStop) exX (fun l => (l.val : ℝ) ^ 2) 0 = .ok ⟨b, some d0, t0⟩ ∧
    lcrFits (lcrFitSerial sv ⟨1, false, 30⟩ exX (fun l => (l.val : ℝ) ^ 2) exW NoStop) exX (fun l => (l.val : ℝ) ^ 2) 1 = .ok ⟨b, some d1, t1⟩ ∧
    d1.ENP = 2 * d0.ENP := by
  obtain ⟨r, hr⟩ := ex_lcr sv 1 one_pos
  obtain ⟨d0, d1, ⟨t0, h0⟩, ⟨t1, h1⟩, he, _⟩ := C39_lcr_enp_grows sv _ _ _ _ hr 1
  exact ⟨r.1, d0, d1, t0, t1, h0, h1, by rw [he]; norm_num⟩

/-- Two fits with ridge parameters 1 and 1000 report the same traces. -/
example (sv : Matrix (Fin 3) (Fin 2) ℝ → ℝ × ℝ) : ∃ r1 r2,
    lcrFitSerial sv ⟨1, false, 30⟩ exX (fun l => (l.val : ℝ) ^ 2) exW NoStop 0 = .ok (r1, false) ∧
    lcrFitSerial sv ⟨1000, false, 30⟩ exX (fun l => (l.val : ℝ) ^ 2) exW NoStop 0 = .ok (r2, false) ∧ r1.2 = r2.2 := by
  obtain ⟨r1, h1⟩ := ex_lcr sv 1 one_pos
  obtain ⟨r2, h2⟩ := ex_lcr sv 1000 (by norm_num)
  exact ⟨r1, r2, h1, h2, C71_traces_ignore_ridge sv _ _ _ _ _ _ h1 h2⟩

/-- Singular values 10 and 1/10 with threshold 30: the condition number 100 is adjusted to 30. -/
example : ∃ lam, lcrLambda 0 true 30 10 (1 / 10) = .ok lam ∧ 0 < lam ∧ (10 + lam) / (1 / 10 + lam) = 30 := by
  refine ⟨7 / 29, ?_, by norm_num, by norm_num⟩
  unfold lcrLambda cnExceeds fdiv
  norm_num

end Verif.Props

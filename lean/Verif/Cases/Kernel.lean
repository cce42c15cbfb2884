import Verif.Props.Kernel
import Verif.Props.KernelCuda
import Verif.Lemmas.BandwidthSelector

/-! # Concrete cases for the theorems of `Props/Kernel` and `Props/KernelCuda`

Three observations at distances 0, 1, 2 (`steps`); each example applies the theorem it names to data that meet its hypotheses. -/

namespace Verif.Cases
open Verif Verif.Model Verif.Spec Verif.Props Classical

/-- The distances 0, 1, 2. -/
def steps : Fin 3 → ℝ := fun i => (i.val : ℝ)

theorem steps_nonneg : ∀ i, 0 ≤ steps i := fun i => Nat.cast_nonneg _

theorem steps_le (c : ℕ) : {i : Fin 3 | steps i ≤ c} = {i | i.val ≤ c} := by
  ext i; simp [steps]

theorem steps_lt (c : ℕ) : {i : Fin 3 | steps i < c} = {i | i.val < c} := by
  ext i; simp [steps]

/-- The second smallest of them is 1. -/
theorem steps_second : IsKthSmallest steps 2 1 := by
  refine ⟨⟨1, by simp [steps]⟩, ?_, ?_⟩
  · have h := steps_lt 1
    simp only [Nat.cast_one] at h
    rw [h, show {i : Fin 3 | i.val < 1} = {0} by ext i; fin_cases i <;> simp]; simp
  · have h := steps_le 1
    simp only [Nat.cast_one] at h
    rw [h, show {i : Fin 3 | i.val ≤ 1} = {0, 1} by ext i; fin_cases i <;> simp, Set.ncard_pair (by decide)]

/-- The third smallest is 2. -/
theorem steps_third : IsKthSmallest steps 3 2 := by
  refine ⟨⟨2, by simp [steps]⟩, ?_, ?_⟩
  · have h := steps_lt 2
    simp only [Nat.cast_ofNat] at h
    rw [h, show {i : Fin 3 | i.val < 2} = {0, 1} by ext i; fin_cases i <;> simp, Set.ncard_pair (by decide)]; decide
  · have h := steps_le 2
    simp only [Nat.cast_ofNat] at h
    rw [h, show {i : Fin 3 | i.val ≤ 2} = Set.univ by ext i; fin_cases i <;> simp, Set.ncard_univ]; simp

/-- The largest is 2. -/
theorem steps_largest : IsLargest steps 2 := by
  refine ⟨⟨2, by simp [steps]⟩, fun i => ?_⟩
  have := i.isLt
  have : i.val ≤ 2 := by omega
  simp only [steps]
  exact_mod_cast this

/-- Bisquare weights of the two nearest neighbours. -/
theorem steps_weighted : ∃ w, (⟨2, true, .Bisquare⟩ : BandwidthWeight).weight steps = .ok w := by
  have h := C04_adaptive_integer .Bisquare steps 2 1 (by norm_num) (by norm_num) (by norm_num) steps_second
  obtain ⟨w, hw⟩ := C01_fixed_total ⟨1, false, .Bisquare⟩ steps rfl (by norm_num)
  exact ⟨w, by rw [show ((2 : ℝ)) = ((2 : ℕ) : ℝ) by norm_num, h, hw]⟩

/-- `C01_weights_proper`, fixed and adaptive. -/
example : ∃ w, (⟨2, false, .Bisquare⟩ : BandwidthWeight).weight steps = .ok w ∧ ∀ i, 0 ≤ w i ∧ w i ≤ 1 := by
  obtain ⟨w, hw⟩ := C01_fixed_total ⟨2, false, .Bisquare⟩ steps rfl (by norm_num)
  exact ⟨w, hw, (C01_weights_proper _ steps w (fun _ => by norm_num) steps_nonneg hw).1⟩

example : ∃ w, (⟨2, true, .Bisquare⟩ : BandwidthWeight).weight steps = .ok w ∧ ∀ i j, steps i ≤ steps j → w j ≤ w i := by
  obtain ⟨w, hw⟩ := steps_weighted
  exact ⟨w, hw, (C01_weights_proper _ steps w (fun h => by cases h) steps_nonneg hw).2.1⟩

/-- `C02_support_fixed`: of bandwidth 2, the observation at distance 2 has weight 0 and the others have not. -/
example : ∃ w, (⟨2, false, .Tricube⟩ : BandwidthWeight).weight steps = .ok w ∧ w 2 = 0 ∧ w 1 ≠ 0 := by
  obtain ⟨w, hw⟩ := C01_fixed_total ⟨2, false, .Tricube⟩ steps rfl (by norm_num)
  have h := C02_support_fixed _ steps w rfl (by norm_num) steps_nonneg hw
  exact ⟨w, hw, (h 2).2 ⟨by decide, by decide, by norm_num [steps]⟩, fun h0 => absurd ((h 1).1 h0).2.2 (by norm_num [steps])⟩

/-- `C02_support_adaptive` and `C04_adaptive_neighbours`: with two neighbours only the observation itself is nearer than the second nearest. -/
example : ∃ w, (⟨2, true, .Bisquare⟩ : BandwidthWeight).weight steps = .ok w ∧ w 1 = 0 ∧ w 0 ≠ 0 ∧ {i | 0 < w i}.ncard < 2 := by
  obtain ⟨w, hw⟩ := steps_weighted
  have h := C02_support_adaptive _ steps w 2 1 rfl (by norm_num) (by norm_num) (by norm_num) steps_second one_pos steps_nonneg hw
  exact ⟨w, hw, (h 1).2 ⟨by decide, by decide, by norm_num [steps]⟩, fun h0 => absurd ((h 0).1 h0).2.2 (by norm_num [steps]),
    C04_adaptive_neighbours _ steps w 2 rfl (by norm_num) (by norm_num) (by norm_num) (by decide) (by decide) steps_nonneg hw⟩

/-- `C03_weight_mono_bandwidth`: bandwidths 1 and 2; two and three neighbours. -/
example (k : KernelType) : ∃ w1 w2, (⟨1, false, k⟩ : BandwidthWeight).weight steps = .ok w1 ∧ (⟨2, false, k⟩ : BandwidthWeight).weight steps = .ok w2 ∧
    ∀ i, w1 i ≤ w2 i := by
  obtain ⟨w1, h1⟩ := C01_fixed_total ⟨1, false, k⟩ steps rfl (by norm_num)
  obtain ⟨w2, h2⟩ := C01_fixed_total ⟨2, false, k⟩ steps rfl (by norm_num)
  exact ⟨w1, w2, h1, h2, C03_weight_mono_bandwidth k false 1 2 steps w1 w2 (fun _ => one_pos) (by norm_num) steps_nonneg h1 h2⟩

example : ∃ w1 w2, (⟨2, true, .Bisquare⟩ : BandwidthWeight).weight steps = .ok w1 ∧ (⟨3, true, .Bisquare⟩ : BandwidthWeight).weight steps = .ok w2 ∧
    ∀ i, w1 i ≤ w2 i := by
  obtain ⟨w1, h1⟩ := steps_weighted
  obtain ⟨w2, h2⟩ := C01_fixed_total ⟨3 / (3 : ℕ) * 2, false, .Bisquare⟩ steps rfl (by norm_num)
  have h2 := (C04_adaptive_large .Bisquare steps 3 2 (by norm_num) (by norm_num) steps_largest).trans h2
  exact ⟨w1, w2, h1, h2, C03_weight_mono_bandwidth .Bisquare true 2 3 steps w1 w2 (fun h => by cases h) (by norm_num) steps_nonneg h1 h2⟩

/-- `C04_adaptive_integer`: two neighbours mean bandwidth 1. -/
example (k : KernelType) : (⟨(2 : ℕ), true, k⟩ : BandwidthWeight).weight steps = (⟨1, false, k⟩ : BandwidthWeight).weight steps :=
  C04_adaptive_integer k steps 2 1 (by norm_num) (by norm_num) (by norm_num) steps_second

/-- `C04_adaptive_fractional`: two and a quarter neighbours mean bandwidth 5/4. -/
example (k : KernelType) : (⟨(2 : ℕ) + 1 / 4, true, k⟩ : BandwidthWeight).weight steps =
    (⟨(1 - 1 / 4) * 1 + 1 / 4 * 2, false, k⟩ : BandwidthWeight).weight steps :=
  C04_adaptive_fractional k steps 2 (1 / 4) 1 2 (by norm_num) (by norm_num) (by norm_num) (by norm_num) (by norm_num) steps_second steps_third

/-- `C04_adaptive_large`: six neighbours of three observations mean twice the largest distance. -/
example (k : KernelType) : (⟨6, true, k⟩ : BandwidthWeight).weight steps = (⟨6 / (3 : ℕ) * 2, false, k⟩ : BandwidthWeight).weight steps :=
  C04_adaptive_large k steps 6 2 (by norm_num) (by norm_num) steps_largest

/-- `C04_adaptive_rejected`, `C04_adaptive_rejected_how`: half a neighbour. -/
example (k : KernelType) : (⟨1 / 2, true, k⟩ : BandwidthWeight).weight steps = .throw .bounds ∧
    ∀ w, (⟨1 / 2, true, k⟩ : BandwidthWeight).weight steps ≠ .ok w :=
  ⟨(C04_adaptive_rejected_how k steps (1 / 2) (by norm_num)).2 (by norm_num) (by norm_num),
    C04_adaptive_rejected k steps (1 / 2) (Or.inr (by norm_num))⟩

/-- `C06_fixed_agree_partial`: bandwidth 3/2, all kernels. -/
example (k : KernelType) : gwWeightCuda ⟨3 / 2, false, k⟩ steps = (⟨3 / 2, false, k⟩ : BandwidthWeight).weight steps := by
  refine C06_fixed_agree_partial _ steps rfl (by norm_num) (by have := hundred_lt_dblMax; intro h; simp only at h; linarith) fun _ i => ?_
  fin_cases i <;> norm_num [steps]

/-- `C06_adaptive_agree_partial`: two neighbours, a kernel other than the boxcar. -/
example : gwWeightCuda ⟨(2 : ℕ), true, .Tricube⟩ steps = (⟨(2 : ℕ), true, .Tricube⟩ : BandwidthWeight).weight steps :=
  C06_adaptive_agree_partial .Tricube steps 2 1 (by norm_num) (by norm_num) (by norm_num) steps_second one_pos fun h => by cases h

/-- `C33_launch_covers`, `C33_launch_once`: five elements in blocks of four threads, the blocks run backwards. -/
example (f mem : ℕ → ℝ) : cudaLaunch 5 4 (cudaGrid 5 4).reverse f mem 4 = f 4 ∧ cudaLaunch 5 4 (cudaGrid 5 4).reverse f mem 7 = mem 7 ∧
    ((cudaGrid 5 4).filter (fun bt => bt.1 * 4 + bt.2 = 4)).length = 1 :=
  ⟨by rw [C33_launch_covers 5 4 (by norm_num) f mem _ (List.reverse_perm _)]; rfl,
    by rw [C33_launch_covers 5 4 (by norm_num) f mem _ (List.reverse_perm _)]; rfl, C33_launch_once 5 4 (by norm_num) 4 (by norm_num)⟩

end Verif.Cases

import Verif.Spec.SpaceTime
import Verif.Props.GWRSelect

/-! What the bandwidth criteria compute, from the data (C24, C26). -/

namespace Verif.Props
open Verif Verif.Model Verif.Spec Matrix Classical

variable {n k m : ℕ}

theorem rss_eq (x : Matrix (Fin n) (Fin k) ℝ) (y : Fin n → ℝ) (B : Matrix (Fin n) (Fin k) ℝ) : rss x y B = residualSS x y B := by
  simp only [rss, fitted, residualSS, sq, mul_comm]

theorem residualSS_nonneg (x : Matrix (Fin n) (Fin k) ℝ) (y : Fin n → ℝ) (B : Matrix (Fin n) (Fin k) ℝ) : 0 ≤ residualSS x y B :=
  Finset.sum_nonneg fun _ _ => sq_nonneg _

theorem cvWeight_eq (W : Fin n → Fin n → ℝ) (i : Fin n) : cvWeight W i = fun l => if l = i then 0 else W i l := by
  funext l
  simp [cvWeight, Function.update_apply]

/-- The cross-validation criterion for given weights. -/
theorem loo_spec (x : Matrix (Fin n) (Fin k) ℝ) (y : Fin n → ℝ) {W : Fin n → Fin n → ℝ} (hW : ∀ i l, 0 ≤ W i l) :
    IsLeaveOneOut x y W dblMax (criterionCV x y false (fitCoreCVSerial x y W 0 n NoStop)) := by
  have hW' : ∀ i l, 0 ≤ cvWeight W i l := fun i l => by
    simp only [cvWeight, Function.update_apply]; split
    · exact le_rfl
    · exact hW i l
  by_cases hdet : ∀ i, Determined x (cvWeight W i)
  · left
    have hpd : ∀ i, (xtwx x (cvWeight W i)).PosDef := fun i => (gram_posDef_iff_determined x _ (hW' i)).2 (hdet i)
    obtain ⟨b, hb⟩ : ∃ b, fitCoreCVSerial x y W 0 n NoStop = .ok (b, false) :=
      ⟨_, serialFor_ok (fun i => (xtwx x (cvWeight W i))⁻¹ *ᵥ (xtw x (cvWeight W i) *ᵥ y)) _ 0 _
        (fun _ _ => rfl) (fun i _ => localBeta_eq_ok.2 ⟨hpd i, rfl⟩)⟩
    refine ⟨b, (C24_score_is_leave_one_out x y W NoStop b hb).1, ?_⟩
    rw [hb]
    simp only [criterionCV, and_self, if_true, finiteOrMax, rss_eq, abs_of_nonneg (residualSS_nonneg x y b)]
    by_cases h : residualSS x y b ≤ dblMax
    · rw [if_pos h, min_eq_left h]
    · rw [if_neg h, min_eq_right (le_of_lt (not_le.1 h))]
  · right
    push Not at hdet
    obtain ⟨i, hi⟩ := hdet
    refine ⟨⟨i, by rwa [cvWeight_eq] at hi⟩, ?_⟩
    have hc : ∀ i, (∃ r, localBeta x y (cvWeight W i) = .ok r) ∨ localBeta x y (cvWeight W i) = .throw .singular :=
      fun i => localBeta_cases x y _
    have hf : fitCoreCVSerial x y W 0 n NoStop = .throw .singular := by
      refine serialFor_fail hc _ 0 _ (fun _ _ => rfl) ⟨i, mem_workRange.2 ⟨Nat.zero_le _, i.isLt⟩, ?_⟩
      rcases hc i with ⟨r, hr⟩ | hr
      · exact absurd ((gram_posDef_iff_determined x _ (hW' i)).1 (localBeta_eq_ok.1 hr).1) hi
      · exact hr
    rw [hf]; rfl

/-- The AIC criterion for given weights. -/
theorem aicc_spec (x : Matrix (Fin n) (Fin k) ℝ) (y : Fin n → ℝ) {W : Fin n → Fin n → ℝ} (hW : ∀ i l, 0 ≤ W i l) :
    IsCorrectedAIC x y W dblMax (criterionAIC x y false (fitCoreSHatSerial x y W 0 n NoStop)) := by
  by_cases hdet : ∀ i, Determined x (W i)
  · left
    obtain ⟨b, s, e, hb, hs⟩ := aicc_core (y := y) hW hdet
    refine ⟨b, hb, ?_⟩
    rw [e]
    simp only [criterionAIC]
    rw [← hs]
    have h0 : (n : ℝ) = 0 → residualSS x y b = 0 := fun h => by
      have : n = 0 := by exact_mod_cast h
      subst this
      simp [residualSS]
    have hnn := residualSS_nonneg x y b
    by_cases hp : 0 < residualSS x y b
    · have hn : (0 : ℝ) < n := lt_of_le_of_ne (Nat.cast_nonneg n) fun h => hp.ne' (h0 h.symm)
      by_cases ht : s 0 ≠ n - 2
      · have hv : aicc x y b (s 0) = .ok (aiccFormula n (residualSS x y b) (s 0)) := by
          have hd : (n : ℝ) - 2 - s 0 ≠ 0 := fun h => ht (by linarith)
          unfold aicc
          simp only [rss_eq, fdiv, flog, hn.ne', if_false, Res.bind, not_le.2 (div_pos hp hn), hd, aiccFormula]
        simp only [hv, and_self, if_true, finiteOrMax, hp, ht, true_and, ne_eq, not_false_eq_true]
      · rw [if_neg (fun h => ht h.2.1)]
        push Not at ht
        have hv : aicc x y b (s 0) = .nonfinite := by
          have hd : (n : ℝ) - 2 - s 0 = 0 := by linarith
          unfold aicc
          simp only [rss_eq, fdiv, flog, hn.ne', if_false, Res.bind, not_le.2 (div_pos hp hn), hd, if_true]
        rw [hv]
    · rw [if_neg (fun h => hp h.1)]
      have hz : residualSS x y b = 0 := le_antisymm (not_lt.1 hp) hnn
      have hv : aicc x y b (s 0) = .nonfinite := by
        unfold aicc
        rw [rss_eq, hz]
        unfold fdiv flog
        by_cases hn : (n : ℝ) = 0
        · simp [hn, Res.bind]
        · simp [hn, Res.bind]
      rw [hv]
  · right
    push Not at hdet
    refine ⟨hdet, ?_⟩
    obtain ⟨i, hi⟩ := hdet
    have hf : fitCoreSHatSerial x y W 0 n NoStop = .throw .singular := by
      refine serialFor_fail (fun i => localFit_cases x y _ (x i)) _ 0 _ (fun _ _ => rfl)
        ⟨i, mem_workRange.2 ⟨Nat.zero_le _, i.isLt⟩, ?_⟩
      rcases localFit_cases x y (W i) (x i) with ⟨r, hr⟩ | hr
      · exact absurd ((gram_posDef_iff_determined x _ (hW i)).1 (localFit_eq_ok.1 hr).1) hi
      · exact hr
    rw [hf]; rfl

/-- **C24 (criterion of basic regression).** For planar coordinates and a fixed positive bandwidth, the value that the bandwidth search compares under
the CV criterion is the leave-one-out score of the kernel weights of the distances between the coordinates. -/
theorem C24_criterion_from_coordinates (kernel : KernelType) (bw : ℝ) (hb : 0 < bw) (coords : DynMat) (hr : coords.nRows = n)
    (x : Matrix (Fin n) (Fin k) ℝ) (y : Fin n → ℝ) :
    IsLeaveOneOut x y (fun i l => kernelFormula kernel bw (plane (coords.val i) (coords.val l))) dblMax
      (gwrCriterion .CV ⟨false, some (coords, coords)⟩ x y ⟨bw, false, kernel⟩) := by
  have hW : weightRows ⟨false, some (coords, coords)⟩ ⟨bw, false, kernel⟩ n n =
      .ok fun i l => kernelFormula kernel bw (plane (coords.val i) (coords.val l)) :=
    (weights_fixed hb).2 fun i => ⟨by rw [hr]; exact i.isLt, hr, rfl⟩
  unfold gwrCriterion
  rw [hW]
  exact loo_spec x y fun _ _ => kernelFormula_nonneg kernel hb _

/-- **C26 (criterion of basic regression).** Under the AIC criterion it is the corrected AIC of the local fits. -/
theorem C26_criterion_from_coordinates (kernel : KernelType) (bw : ℝ) (hb : 0 < bw) (coords : DynMat) (hr : coords.nRows = n)
    (x : Matrix (Fin n) (Fin k) ℝ) (y : Fin n → ℝ) :
    IsCorrectedAIC x y (fun i l => kernelFormula kernel bw (plane (coords.val i) (coords.val l))) dblMax
      (gwrCriterion .AIC ⟨false, some (coords, coords)⟩ x y ⟨bw, false, kernel⟩) := by
  have hW : weightRows ⟨false, some (coords, coords)⟩ ⟨bw, false, kernel⟩ n n =
      .ok fun i l => kernelFormula kernel bw (plane (coords.val i) (coords.val l)) :=
    (weights_fixed hb).2 fun i => ⟨by rw [hr]; exact i.isLt, hr, rfl⟩
  unfold gwrCriterion
  rw [hW]
  exact aicc_spec x y fun _ _ => kernelFormula_nonneg kernel hb _

/-- Three points on a line meet the hypotheses. -/
example : IsLeaveOneOut exX ![1, 3, 2] (fun i l => kernelFormula .Gaussian 1 (plane ((lineCoords 2).val i) ((lineCoords 2).val l))) dblMax
    (gwrCriterion .CV ⟨false, some (lineCoords 2, lineCoords 2)⟩ exX ![1, 3, 2] ⟨1, false, .Gaussian⟩) :=
  C24_criterion_from_coordinates .Gaussian 1 one_pos (lineCoords 2) rfl exX ![1, 3, 2]

end Verif.Props

import Verif.Props.MapDrawingDistance
import Verif.Props.SearchRange
import Verif.Props.GTWR

/-! # C147: the distance selected on an enlarged map is not exactly the enlarged one -/

namespace Verif.Props
open Verif Verif.Model Verif.Spec Matrix Classical

variable {n k : ℕ}

/-- Cross-validation with an intercept only: each value is compared with the weighted mean of the others. -/
theorem cv_ones {d : CRSDistance} {b : BandwidthWeight} {W : Fin n → Fin n → ℝ} (hW : weightRows d b n n = .ok W) (h0 : ∀ i l, 0 ≤ W i l)
    (hp : ∀ i, ∃ l, l ≠ i ∧ 0 < W i l) (y : Fin n → ℝ) :
    gwrCriterion .CV d (ones n) y b = finiteOrMax (∑ i, (y i - (∑ l, cvWeight W i l * y l) / ∑ l, cvWeight W i l) ^ 2) := by
  have h1 : ∀ i l, 0 ≤ cvWeight W i l := fun i l => by
    unfold cvWeight
    by_cases h : l = i
    · subst h; simp
    · rw [Function.update_of_ne h]; exact h0 i l
  have h2 : ∀ i, ∃ l, 0 < cvWeight W i l := fun i => by
    obtain ⟨l, hl, hpos⟩ := hp i
    exact ⟨l, by unfold cvWeight; rw [Function.update_of_ne hl]; exact hpos⟩
  have e : fitCoreCVSerial (ones n) y W 0 n (fun _ => false) = _ :=
    serialFor_ok (fun i _ => (∑ l, cvWeight W i l * y l) / ∑ l, cvWeight W i l) _ 0 _ (fun _ _ => rfl) (fun i _ => ones_beta (h1 i) (h2 i) y)
  unfold gwrCriterion
  simp only [hW]
  rw [e]
  have hb := betaLoop_ok (nodup_workRange n 0 n) e
  simp only [criterionCV, and_self, if_true]
  congr 1
  unfold rss
  refine Finset.sum_congr rfl fun i _ => ?_
  have hi := Res.ok.inj ((hb.1 i (mem_workRange.2 ⟨Nat.zero_le _, i.isLt⟩)).symm.trans (ones_beta (h1 i) (h2 i) y))
  unfold fitted
  rw [hi]
  simp [ones]
  ring

/-- Four places on a line of length 0.0001. -/
noncomputable def shortPos (i : ℕ) : ℝ := if i = 0 then 0 else if i = 1 then 3e-5 else if i = 2 then 7e-5 else 10e-5

noncomputable def shortCoords : DynMat := ⟨4, 2, fun i j => if j = 0 then shortPos i else 0⟩

theorem short_plane (i j : ℕ) : plane (shortCoords.val i) (shortCoords.val j) = |shortPos j - shortPos i| := by
  unfold plane shortCoords
  simp [Real.sqrt_sq_eq_abs]

theorem short_max : (CRSDistance.mk false (some (shortCoords, shortCoords))).maxDistance = .ok 1e-4 := by
  have hrow : ∀ i : Fin 4, crsDistRow false shortCoords shortCoords i = .ok (List.ofFn fun j : Fin 4 => |shortPos j - shortPos i|) := fun i => by
    rw [crsDistRow_planar]
    congr 1
    simp only [euclid_eq_plane, short_plane]
    simp [shortCoords, List.range_succ]
  obtain ⟨u, hu⟩ := maxLoop_total (row := crsDistRow false shortCoords shortCoords) (is := List.range 4) 0 fun i hi =>
    ⟨_, hrow ⟨i, List.mem_range.1 hi⟩, by simp⟩
  have hg := maxLoop_greatest (n := 4) (dist := fun i j => |shortPos j - shortPos i|) hrow (fun i => by simp) (by norm_num) hu
  have hg' : IsGreatest (Set.range fun p : Fin 4 × Fin 4 => |shortPos p.2 - shortPos p.1|) 1e-4 := by
    constructor
    · exact ⟨(0, 3), by norm_num [shortPos]⟩
    · rintro _ ⟨⟨i, j⟩, rfl⟩
      fin_cases i <;> fin_cases j <;> norm_num [shortPos, abs_le]
  rw [hg.unique hg'] at hu
  exact hu

def shortY : Fin 4 → ℝ := ![1, -1, 2, -2]

theorem short_weights {bw : ℝ} (hb : 0 < bw) : weightRows ⟨false, some (shortCoords, shortCoords)⟩ ⟨bw, false, .Boxcar⟩ 4 4 =
    .ok fun i j : Fin 4 => if |shortPos j - shortPos i| < bw then 1 else 0 := by
  refine (weights_fixed hb).2 fun i => ⟨i.isLt, rfl, ?_⟩
  simp only [short_plane, kernelFormula]

theorem short_cv {bw v : ℝ} (hb : 3e-5 < bw) (hv : |v| ≤ 100)
    (h : ∑ i : Fin 4, (shortY i - (∑ l, cvWeight (fun i j : Fin 4 => if |shortPos j - shortPos i| < bw then (1 : ℝ) else 0) i l * shortY l) /
      ∑ l, cvWeight (fun i j : Fin 4 => if |shortPos j - shortPos i| < bw then (1 : ℝ) else 0) i l) ^ 2 = v) :
    gwrCriterion .CV ⟨false, some (shortCoords, shortCoords)⟩ (ones 4) shortY ⟨bw, false, .Boxcar⟩ = v := by
  rw [cv_ones (short_weights (by linarith)) (fun i l => by split <;> norm_num) (fun i => ?_) shortY, h, finiteOrMax, if_pos]
  · linarith [hundred_lt_dblMax]
  · fin_cases i
    · exact ⟨1, by decide, by rw [if_pos] <;> norm_num [shortPos]; linarith⟩
    · exact ⟨0, by decide, by rw [if_pos] <;> norm_num [shortPos]; linarith⟩
    · exact ⟨3, by decide, by rw [if_pos] <;> norm_num [shortPos]; linarith⟩
    · exact ⟨2, by decide, by rw [if_pos] <;> norm_num [shortPos, abs_lt]; linarith⟩

/-- Which places have weight, for the three bandwidths of the search. -/
theorem short_rows {bw : ℝ} (A B C : ℝ) (h : 3e-5 < bw) (hA : bw ≤ 1e-4) (hB : (B = 1 ∧ 4e-5 < bw) ∨ (B = 0 ∧ bw ≤ 4e-5))
    (hC : (C = 1 ∧ 7e-5 < bw) ∨ (C = 0 ∧ bw ≤ 7e-5)) :
    (fun i j : Fin 4 => if |shortPos j - shortPos i| < bw then (1 : ℝ) else 0) = ![![1, 1, C, 0], ![1, 1, B, C], ![C, B, 1, 1], ![0, C, 1, 1]] := by
  have e3 : (if (3e-5 : ℝ) < bw then (1 : ℝ) else 0) = 1 := if_pos h
  have e0 : (if (0 : ℝ) < bw then (1 : ℝ) else 0) = 1 := if_pos (by linarith)
  have e10 : (if (1e-4 : ℝ) < bw then (1 : ℝ) else 0) = 0 := if_neg (by linarith)
  have e4 : (if (4e-5 : ℝ) < bw then (1 : ℝ) else 0) = B := by
    rcases hB with ⟨rfl, hb⟩ | ⟨rfl, hb⟩
    · exact if_pos hb
    · exact if_neg (by linarith)
  have e7 : (if (7e-5 : ℝ) < bw then (1 : ℝ) else 0) = C := by
    rcases hC with ⟨rfl, hb⟩ | ⟨rfl, hb⟩
    · exact if_pos hb
    · exact if_neg (by linarith)
  have a : ∀ {i j : Fin 4} {d v : ℝ}, |shortPos j - shortPos i| = d → (if d < bw then (1 : ℝ) else 0) = v →
      (if |shortPos j - shortPos i| < bw then (1 : ℝ) else 0) = v := fun h1 h2 => by rw [h1]; exact h2
  funext i j
  fin_cases i <;> fin_cases j
  · exact a (d := 0) (by norm_num [shortPos]) e0
  · exact a (d := 3e-5) (by norm_num [shortPos]) e3
  · exact a (d := 7e-5) (by norm_num [shortPos]) e7
  · exact a (d := 1e-4) (by norm_num [shortPos]) e10
  · exact a (d := 3e-5) (by norm_num [shortPos]) e3
  · exact a (d := 0) (by norm_num [shortPos]) e0
  · exact a (d := 4e-5) (by norm_num [shortPos]) e4
  · exact a (d := 7e-5) (by norm_num [shortPos]) e7
  · exact a (d := 7e-5) (by norm_num [shortPos]) e7
  · exact a (d := 4e-5) (by norm_num [shortPos]) e4
  · exact a (d := 0) (by norm_num [shortPos]) e0
  · exact a (d := 3e-5) (by norm_num [shortPos]) e3
  · exact a (d := 1e-4) (by norm_num [shortPos]) e10
  · exact a (d := 7e-5) (by norm_num [shortPos]) e7
  · exact a (d := 3e-5) (by norm_num [shortPos]) e3
  · exact a (d := 0) (by norm_num [shortPos]) e0

theorem short_cv_small {bw : ℝ} (h : 3e-5 < bw) (h' : bw ≤ 4e-5) :
    gwrCriterion .CV ⟨false, some (shortCoords, shortCoords)⟩ (ones 4) shortY ⟨bw, false, .Boxcar⟩ = 40 := by
  refine short_cv h (by norm_num) ?_
  rw [short_rows 0 0 0 h (by linarith) (.inr ⟨rfl, h'⟩) (.inr ⟨rfl, by linarith⟩)]
  simp [Fin.sum_univ_four, cvWeight, Function.update, shortY]
  norm_num

theorem short_cv_middle {bw : ℝ} (h : 4e-5 < bw) (h' : bw ≤ 7e-5) :
    gwrCriterion .CV ⟨false, some (shortCoords, shortCoords)⟩ (ones 4) shortY ⟨bw, false, .Boxcar⟩ = 77 / 2 := by
  refine short_cv (by linarith) (by norm_num) ?_
  rw [short_rows 0 1 0 (by linarith) (by linarith) (.inl ⟨rfl, h⟩) (.inr ⟨rfl, h'⟩)]
  simp [Fin.sum_univ_four, cvWeight, Function.update, shortY]
  norm_num

theorem short_cv_large {bw : ℝ} (h : 7e-5 < bw) (h' : bw ≤ 1e-4) :
    gwrCriterion .CV ⟨false, some (shortCoords, shortCoords)⟩ (ones 4) shortY ⟨bw, false, .Boxcar⟩ = 277 / 18 := by
  refine short_cv (by linarith) (by norm_num) ?_
  rw [short_rows 0 1 1 (by linarith) h' (.inl ⟨rfl, by linarith⟩) (.inl ⟨rfl, h⟩)]
  simp [Fin.sum_univ_four, cvWeight, Function.update, shortY]
  norm_num

theorem loop_short {b : BandwidthWeight} {o : Oracle} (s : GS) (h : |s.d| ≤ 1e-4) : goldenLoop b o s = s := by
  rw [goldenLoop, if_neg]
  rintro ⟨-, -, h', -⟩
  linarith

theorem loop_long {b : BandwidthWeight} {o : Oracle} (s : GS) (h : goldenCond s) : goldenLoop b o s = goldenLoop b o (goldenStep b o s) := by
  rw [goldenLoop, if_pos h]

/-- **C147 fails for selected distances, if taken exactly.** Four observations on a short line, the map drawn twice as large: the distance selected on
the larger map is not twice the one selected on the smaller map, because the search stops at an interval of a fixed length. -/
theorem C147_exact_scale_fails : ∃ r r' : SearchResult, ∃ z z' : ℝ,
    gwrSelectBandwidth .CV ⟨false, some (shortCoords, shortCoords)⟩ ⟨0, false, .Boxcar⟩ none none (ones 4) shortY = .ok r ∧
    gwrSelectBandwidth .CV ⟨false, some (movedPoints 2 0 0 0 shortCoords, movedPoints 2 0 0 0 shortCoords)⟩ ⟨0, false, .Boxcar⟩ none none (ones 4) shortY =
      .ok r' ∧ r.out = .ok ⟨z, false, .Boxcar⟩ ∧ r'.out = .ok ⟨z', false, .Boxcar⟩ ∧ z' ≠ 2 * z := by
  obtain ⟨r1, r2⟩ := goldenR_bounds
  have hsq := goldenR_sq
  have hd := hundred_lt_dblMax
  have hF : ∀ z, gwrCriterion .CV ⟨false, some (movedPoints 2 0 0 0 shortCoords, movedPoints 2 0 0 0 shortCoords)⟩ (ones 4) shortY ⟨2 * z, false, .Boxcar⟩ =
      gwrCriterion .CV ⟨false, some (shortCoords, shortCoords)⟩ (ones 4) shortY ⟨z, false, .Boxcar⟩ := fun z => by
    simp only [gwrCriterion]
    rw [weightRows_enlarged two_pos 0 0 0 shortCoords shortCoords (b := ⟨0, false, .Boxcar⟩) rfl z]
  have c1 := short_cv_middle (bw := goldenR * 1e-4) (by linarith) (by linarith)
  have c2 := short_cv_small (bw := 1e-4 - goldenR * 1e-4) (by linarith) (by linarith)
  have c3 := short_cv_large (bw := 2 * (1e-4 - goldenR * 1e-4)) (by linarith) (by linarith)
  have k1 := (hF _).trans c1
  have k2 := (hF _).trans c2
  have k3 := (hF _).trans c3
  unfold gwrSelectBandwidth
  simp only [Bool.false_eq_true, if_false, Option.getD_none]
  rw [maxDistance_enlarged two_pos, short_max]
  simp only [Res.bind]
  refine ⟨_, _, goldenR * 1e-4, 2 * (2 * (1e-4 - goldenR * 1e-4)), rfl, rfl, ?_, ?_, by intro h; linarith⟩
  · unfold optimize goldenInit
    simp only [Bool.false_eq_true, if_false, sub_zero, zero_add, c1, c2, and_self, not_true_eq_false]
    rw [if_neg (by rintro ⟨h, -⟩; linarith), loop_short _ (by rw [abs_of_pos (by linarith)]; linarith)]
    simp only [GS.xopt, and_self, if_true]
    rw [if_pos (by norm_num)]
  · have e1 : goldenR * (2 * 1e-4) = 2 * (goldenR * 1e-4) := by ring
    have e2 : 2 * 1e-4 - 2 * (goldenR * 1e-4) = 2 * (1e-4 - goldenR * 1e-4) := by ring
    have e3 : 2 * (1e-4 - goldenR * 1e-4) + goldenR * (2 * (goldenR * 1e-4)) = 2 * (2 * (1e-4 - goldenR * 1e-4)) := by linear_combination 2e-4 * hsq
    have hpos : 0 < goldenR * (2 * (goldenR * 1e-4)) ∧ goldenR * (2 * (goldenR * 1e-4)) ≤ 1e-4 := by constructor <;> nlinarith
    unfold optimize goldenInit
    simp only [Bool.false_eq_true, if_false, sub_zero, zero_add, e1, e2, k1, k2, and_self, not_true_eq_false]
    rw [if_neg (by rintro ⟨h, -⟩; linarith), loop_long _ ⟨rfl, rfl, by rw [abs_of_pos (by linarith)]; linarith, by norm_num, by norm_num⟩]
    unfold goldenStep
    simp only [Bool.false_eq_true, if_false]
    simp only [if_pos (by norm_num : (77 / 2 : ℝ) < 40), e3, k3]
    rw [loop_short _ (by rw [abs_of_pos hpos.1]; exact hpos.2)]
    simp only [GS.xopt, and_self, if_true]
    rw [if_pos (by norm_num)]

end Verif.Props

import Verif.Props.Distance
import Verif.Props.Formulas
import Verif.Props.Geo

/-! # Concrete cases for the theorems of `Props/Distance`, `Props/Formulas` and `Props/Geo` -/

namespace Verif.Cases
open Verif Verif.Model Verif.Spec Verif.Props Classical

/-- The points (0, 0), (3, 0), (6, 0), … as many as `n`. -/
def row3 (n : ℕ) : DynMat := ⟨n, 2, fun i k => if k = 0 then 3 * i else 0⟩

/-- `C07_planar_metric`. -/
example := C07_planar_metric ⟨false, none⟩ rfl (row3 4) rfl

/-- `C07_rigid_invariant`: a quarter turn and a shift. -/
example : (⟨false, some (⟨4, 2, fun i => rigid (Real.pi / 2) 1 2 ((row3 4).val i)⟩, ⟨2, 2, fun i => rigid (Real.pi / 2) 1 2 ((row3 2).val i)⟩)⟩ : CRSDistance).distance 1 =
    (⟨false, some (row3 4, row3 2)⟩ : CRSDistance).distance 1 :=
  C07_rigid_invariant (row3 4) (row3 2) ⟨4, 2, fun i => rigid (Real.pi / 2) 1 2 ((row3 4).val i)⟩ ⟨2, 2, fun i => rigid (Real.pi / 2) 1 2 ((row3 2).val i)⟩
    (Real.pi / 2) 1 2 ⟨rfl, fun _ => rfl⟩ ⟨rfl, fun _ => rfl⟩ 1

/-- `C08_max_min_errors`: four focus points and no data. -/
example := C08_max_min_errors (row3 4) (row3 0) false (by norm_num [row3]) rfl

/-- A spatio-temporal distance over two points and times 0 and 1. -/
noncomputable def pairST : CRSSTDistance := ⟨some ⟨false, some (row3 2, row3 2)⟩, some ⟨some ([0, 1], [0, 1])⟩, 1 / 2, Real.pi / 2, .orthogonal, some 2⟩

/-- `C10_st_clone_throws`: a copy of it can be made, but answers nothing. -/
example : ∃ d', pairST.clone = .ok d' ∧ ∀ focus l, d'.distance focus ≠ .ok l := by
  have h : pairST.clone = .ok ⟨some ⟨false, some (row3 2, row3 2)⟩, some ⟨none⟩, 1 / 2, Real.pi / 2, .orthogonal, none⟩ := by
    rw [CRSSTDistance.clone, if_pos (by constructor <;> norm_num [pairST])]
    rfl
  exact ⟨_, h, fun focus l => C10_st_clone_throws pairST _ h focus l⟩

/-- `C11_dispatch_partial`: chessboard and city-block distances from (3, 0). -/
example := (C11_dispatch_partial ⟨⟨false, some (row3 4, row3 4)⟩, 1, 0⟩ (row3 4) (row3 4) 1 rfl rfl (by norm_num [row3]) rfl).1 rfl
example := (C11_dispatch_partial ⟨⟨false, some (row3 4, row3 4)⟩, -1, 0⟩ (row3 4) (row3 4) 1 rfl rfl (by norm_num [row3]) rfl).2 rfl

/-- `C11_general_p_throws`: exponent 3. -/
example (l : List ℝ) : (⟨⟨false, some (row3 4, row3 4)⟩, 3, 0⟩ : MinkwoskiDistance).distance 1 ≠ .ok l :=
  C11_general_p_throws _ rfl (by norm_num) (by norm_num) 1 l

/-- `C11_rotated`: turned by an eighth. -/
example := C11_rotated (row3 4) (row3 4) (Real.pi / 4) 1 (by norm_num [row3])

/-- `C12_lambda_range_partial`: any use of an object made with λ = 1/2. -/
example (ops : List STOp) := C12_lambda_range_partial ⟨false, none⟩ ⟨none⟩ (1 / 2) (by norm_num) ops

/-- Distances from the first of two points, in space and in time. -/
theorem row3_distance : (⟨false, some (row3 2, row3 2)⟩ : CRSDistance).distance 0 = .ok [0, 3] := by
  have h : √(3 * 3 : ℝ) = 3 := Real.sqrt_mul_self (by norm_num)
  simp [CRSDistance.distance, crsDistRow, mapRes, crsCalc, euclid, row3, List.range_succ, Res.bind, h]

/-- `C12_lambda_one`, `C12_lambda_zero`, both calculators: the second observation lies in the past of the first. -/
example (cal : STCalc) : stDistance cal ⟨false, some (row3 2, row3 2)⟩ ⟨some ([1, 0], [1, 0])⟩ 0 1 0 = .ok [0, 3] ∧
    stDistance cal ⟨false, some (row3 2, row3 2)⟩ ⟨some ([1, 0], [1, 0])⟩ 0 0 0 = .ok [0, 1] :=
  ⟨C12_lambda_one cal _ _ 0 0 _ [0, 1] row3_distance (by simp [OneDimDistance.distance]) rfl,
    by rw [C12_lambda_zero cal _ _ 0 0 _ [0, 1] row3_distance (by simp [OneDimDistance.noAbsdistance]) rfl]; norm_num⟩

/-- `C12_combine_nonneg_mono`. -/
example := C12_combine_nonneg_mono (1 / 2) 0 1 2 3 3 (by norm_num) (by norm_num) (by norm_num) (by norm_num) (by norm_num) (by norm_num) (by norm_num)

/-- `C12_distance_nonneg`. -/
example : ∃ l, pairST.distance 1 = .ok l ∧ ∀ x ∈ l, 0 ≤ x := by
  have h : ∃ l, pairST.distance 1 = .ok l := by
    simp [pairST, CRSSTDistance.distance, stDistance, CRSDistance.distance, crsDistRow, mapRes, crsCalc, row3, List.range_succ, Res.bind,
      OneDimDistance.distance, OneDimDistance.noAbsdistance]
  obtain ⟨l, hl⟩ := h
  exact ⟨l, hl, C12_distance_nonneg pairST _ rfl rfl (by norm_num [pairST]) 1 l hl⟩

/-- `C12_makeParameter_accepts`: accepted and rejected set-ups. -/
example : (pairST.makeParameter [.mat (row3 3), .mat (row3 3), .vec [1, 2, 3], .vec [1, 2, 3]]).2 = .ok () ∧
    (pairST.makeParameter [.mat (row3 3), .mat (row3 3), .vec [1, 2, 3], .vec [1, 2]]).2 ≠ .ok () := by
  refine ⟨(C12_makeParameter_accepts pairST _ _ rfl rfl _).2 ⟨_, _, _, _, rfl, rfl, rfl, rfl, rfl, rfl⟩, ?_⟩
  rw [Ne, C12_makeParameter_accepts pairST _ _ rfl rfl]
  rintro ⟨_, _, _, _, h, -, -, -, -, h'⟩
  cases h
  simp [row3] at h'

/-- `C12_formula`: three points at times 0, 1, 2, λ = 1/2, angle 1/2. -/
example := C12_formula none ⟨none⟩ (1 / 2) (1 / 2) (by norm_num) (by norm_num) (Or.inr (by norm_num)) (by linarith [Real.two_le_pi]) (by linarith [Real.two_le_pi])
  (by have := Real.two_le_pi; norm_num; linarith) (row3 3) (row3 3) 3 (fun i => i.val) (fun i => i.val) rfl rfl rfl rfl 1

/-- `C08_spaceTime_sharp`: one point observed at one time. -/
example := C08_spaceTime_sharp none ⟨none⟩ (1 / 2) (by norm_num) (by norm_num) (Or.inr (by norm_num)) (row3 1) (row3 1) 1 one_pos (fun _ => 0) (fun _ => 0)
  rfl rfl rfl rfl (fun i j => by
    have := hundred_lt_dblMax
    simp [spaceTime, row3]; linarith)

/-- Two places on the equator, 90° apart. -/
def equator2 : DynMat := ⟨2, 2, fun i k => if k = 0 then 90 * i else 0⟩

/-- All distances between them are answered. -/
theorem equator2_answers : (∃ l, (⟨true, some (equator2, equator2)⟩ : CRSDistance).distance 0 = .ok l) ∧
    ∃ l, (⟨true, some (equator2, equator2)⟩ : CRSDistance).distance 1 = .ok l := by
  have hh : haversine 90 0 0 0 = 1 / 2 ∧ haversine 0 0 90 0 = 1 / 2 := by
    have h1 : (90 - 0 : ℝ) * (Real.pi / 180) / 2 = Real.pi / 4 := by ring
    have h2 : (0 - 90 : ℝ) * (Real.pi / 180) / 2 = -(Real.pi / 4) := by ring
    unfold haversine
    rw [h1, h2, Real.sin_neg, Real.sin_pi_div_four]
    constructor <;> norm_num [div_pow]
  have e1 : ∃ d, crsCalc true (fun k => if k = 0 then 90 * ((0 : ℕ) : ℝ) else 0) (fun k => if k = 0 then 90 * ((1 : ℕ) : ℝ) else 0) = .ok d := by
    rw [C55_geo_finite_iff _ _ (by norm_num)]
    norm_num [hh]
  have e2 : ∃ d, crsCalc true (fun k => if k = 0 then 90 * ((1 : ℕ) : ℝ) else 0) (fun k => if k = 0 then 90 * ((0 : ℕ) : ℝ) else 0) = .ok d := by
    rw [C55_geo_finite_iff _ _ (by norm_num)]
    norm_num [hh]
  obtain ⟨d1, h1⟩ := e1
  obtain ⟨d2, h2⟩ := e2
  have h0 : ∀ c : ℕ → ℝ, crsCalc true c c = .ok 0 := fun c => by
    have : (0 : ℝ) < 1e-8 := by norm_num
    simp [crsCalc, spGcdist, doubleEps, this]
  constructor
  · exact ⟨[0, d1], by
      simp only [Nat.cast_zero, Nat.cast_one, mul_zero, mul_one, ite_self] at h1
      simp [CRSDistance.distance, crsDistRow, equator2, List.range_succ, mapRes, h0, h1, Res.bind]⟩
  · exact ⟨[d2, 0], by
      simp only [Nat.cast_zero, Nat.cast_one, mul_zero, mul_one, ite_self] at h2
      simp [CRSDistance.distance, crsDistRow, equator2, List.range_succ, mapRes, h0, h2, Res.bind]⟩

/-- `C55_geo_symmetric`, `C55_geo_accuracy`, `C55_geo_finite_iff` (above): these two places. -/
example : ∃ l0 l1, (⟨true, some (equator2, equator2)⟩ : CRSDistance).distance 0 = .ok l0 ∧ (⟨true, some (equator2, equator2)⟩ : CRSDistance).distance 1 = .ok l1 ∧
    ∃ (h : 1 < l0.length) (h' : 0 < l1.length), l0[1] = l1[0] ∧ (0 : ℝ) < l0[1] := by
  obtain ⟨⟨l0, h0⟩, l1, h1⟩ := equator2_answers
  obtain ⟨a, b, -, e, -, -⟩ := C55_geo_symmetric equator2 0 1 l0 l1 (by norm_num [equator2]) (by norm_num [equator2]) h0 h1
  refine ⟨l0, l1, h0, h1, a, b, e, ?_⟩
  rcases C55_geo_accuracy equator2 equator2 0 1 l0 h0 a with ⟨-, -, h⟩ | ⟨-, -, h⟩
  · norm_num [equator2] at h
  · exact h

end Verif.Cases

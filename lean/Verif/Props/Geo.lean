import Verif.Lemmas.Geo
import Verif.Lemmas.Distance

/-! # C55: geographic distances -/

namespace Verif.Props
open Verif Verif.Model Verif.Spec

theorem crs_getElem {g : Bool} {fp dp : DynMat} {i : ℕ} {l : List ℝ}
    (h : (⟨g, some (fp, dp)⟩ : CRSDistance).distance i = .ok l) :
    l.length = dp.nRows ∧ ∀ j (hj : j < l.length), crsCalc g (fp.val i) (dp.val j) = .ok l[j] := by
  simp only [CRSDistance.distance] at h
  split at h
  · unfold crsDistRow at h
    have hl := mapRes_length h
    refine ⟨by simpa using hl, fun j hj => ?_⟩
    have := (List.forall₂_iff_get.1 (mapRes_eq_ok.1 h)).2 j (by simpa [hl] using hj) hj
    simpa using this
  · cases h

/-- **C55 (symmetry and sign).** In a geographic distance object whose focus and data points are the same, the reported
distances are non-negative, symmetric, and zero from a point to itself. -/
theorem C55_geo_symmetric (c : DynMat) (i j : ℕ) (li lj : List ℝ) (hi : i < c.nRows) (hj : j < c.nRows)
    (h1 : (⟨true, some (c, c)⟩ : CRSDistance).distance i = .ok li)
    (h2 : (⟨true, some (c, c)⟩ : CRSDistance).distance j = .ok lj) :
    ∃ (hi' : j < li.length) (hj' : i < lj.length) (hi'' : i < li.length),
      li[j] = lj[i] ∧ 0 ≤ li[j] ∧ li[i] = 0 := by
  obtain ⟨a1, a2⟩ := crs_getElem h1
  obtain ⟨b1, b2⟩ := crs_getElem h2
  refine ⟨by omega, by omega, by omega, ?_, ?_, ?_⟩
  · have e1 := a2 j (by omega)
    have e2 := b2 i (by omega)
    simp only [crsCalc, if_true] at e1 e2
    rw [spGcdist_symm] at e2
    rw [e1] at e2
    exact Res.ok.inj e2
  · have e1 := a2 j (by omega)
    simp only [crsCalc, if_true] at e1
    by_cases hs : gcShortcut (c.val j 0) (c.val i 0) (c.val j 1) (c.val i 1)
    · rw [spGcdist_shortcut hs] at e1; rw [← Res.ok.inj e1]
    · rcases spGcdist_general hs with ⟨-, h⟩ | ⟨-, -, d, h, l1, -, l3⟩
      · rw [h] at e1; cases e1
      · rw [h] at e1
        rw [← Res.ok.inj e1]
        have : (0 : ℝ) ≤ 1 - 5 / 2 * flattening := by norm_num [flattening]
        exact (mul_nonneg this l3.le).trans l1
  · have e1 := a2 i (by omega)
    simp only [crsCalc, if_true] at e1
    have hs : gcShortcut (c.val i 0) (c.val i 0) (c.val i 1) (c.val i 1) := by
      constructor
      · norm_num [doubleEps]
      · left; norm_num [doubleEps]
    rw [spGcdist_shortcut hs] at e1
    exact (Res.ok.inj e1).symm

/-- Every distance reported, planar or geographic, is at least 0. -/
theorem crs_nonneg {g : Bool} {l c : DynMat} (i : ℕ) (r : List ℝ) (h : (⟨g, some (l, c)⟩ : CRSDistance).distance i = .ok r) : ∀ v ∈ r, 0 ≤ v := by
  intro v hv
  obtain ⟨j, hj, rfl⟩ := List.mem_iff_getElem.1 hv
  have e1 := (crs_getElem h).2 j hj
  cases g with
  | false =>
    simp only [crsCalc, Bool.false_eq_true, if_false] at e1
    rw [← Res.ok.inj e1]
    exact Real.sqrt_nonneg _
  | true =>
    simp only [crsCalc, if_true] at e1
    by_cases hs : gcShortcut (c.val j 0) (l.val i 0) (c.val j 1) (l.val i 1)
    · rw [spGcdist_shortcut hs] at e1; rw [← Res.ok.inj e1]
    · rcases spGcdist_general hs with ⟨-, h⟩ | ⟨-, -, d, h, l1, -, l3⟩
      · rw [h] at e1; cases e1
      · rw [h] at e1
        rw [← Res.ok.inj e1]
        have : (0 : ℝ) ≤ 1 - 5 / 2 * flattening := by norm_num [flattening]
        exact (mul_nonneg this l3.le).trans l1

/-- **C55 (accuracy).** Every distance reported by a geographic object is either 0 (the two points passed the coincidence
shortcut: equal latitude up to 1e-8 and longitudes equal, or with absolute values adding to 360, up to 1e-8) or lies within the
factors `1 - 5f/2` and `1 + f` of the haversine great-circle distance, `f` the WGS-84 flattening. -/
theorem C55_geo_accuracy (fp dp : DynMat) (i j : ℕ) (l : List ℝ)
    (h : (⟨true, some (fp, dp)⟩ : CRSDistance).distance i = .ok l) (hj : j < l.length) :
    (l[j] = 0 ∧ |dp.val j 1 - fp.val i 1| < 1e-8 ∧
      (|dp.val j 0 - fp.val i 0| < 1e-8 ∨ |(|dp.val j 0| + |fp.val i 0|) - 360| < 1e-8)) ∨
    ((1 - 5 / 2 * flattening) * greatCircle (dp.val j 0) (dp.val j 1) (fp.val i 0) (fp.val i 1) ≤ l[j] ∧
      l[j] ≤ (1 + flattening) * greatCircle (dp.val j 0) (dp.val j 1) (fp.val i 0) (fp.val i 1) ∧ 0 < l[j]) := by
  have e := (crs_getElem h).2 j hj
  simp only [crsCalc, if_true] at e
  by_cases hs : gcShortcut (dp.val j 0) (fp.val i 0) (dp.val j 1) (fp.val i 1)
  · left
    rw [spGcdist_shortcut hs] at e
    unfold gcShortcut doubleEps at hs
    have h360 : (360.0 : ℝ) = 360 := by norm_num
    rw [h360] at hs
    exact ⟨(Res.ok.inj e).symm, hs.1, hs.2⟩
  · right
    rcases spGcdist_general hs with ⟨-, h'⟩ | ⟨-, -, d, h', l1, l2, l3⟩
    · rw [h'] at e; cases e
    · rw [h'] at e
      rw [← Res.ok.inj e]
      refine ⟨l1, l2, ?_⟩
      have : (0 : ℝ) < 1 - 5 / 2 * flattening := by norm_num [flattening]
      exact (mul_pos this l3).trans_le l1

/-- **C55 (when it is defined).** Outside the shortcut the geographic distance is finite exactly when the points are neither
at the same place nor antipodal on the sphere (haversine strictly between 0 and 1). -/
theorem C55_geo_finite_iff (out inn : ℕ → ℝ)
    (hs : ¬ (|inn 1 - out 1| < 1e-8 ∧ (|inn 0 - out 0| < 1e-8 ∨ |(|inn 0| + |out 0|) - 360| < 1e-8))) :
    (∃ d, crsCalc true out inn = .ok d) ↔
      haversine (inn 0) (inn 1) (out 0) (out 1) ≠ 0 ∧ haversine (inn 0) (inn 1) (out 0) (out 1) ≠ 1 := by
  have hs' : ¬ gcShortcut (inn 0) (out 0) (inn 1) (out 1) := by
    unfold gcShortcut doubleEps
    have h360 : (360.0 : ℝ) = 360 := by norm_num
    rw [h360]; exact hs
  simp only [crsCalc, if_true]
  rcases spGcdist_general hs' with ⟨hz, h'⟩ | ⟨p1, p2, d, h', -⟩
  · rw [h']
    simp only [reduceCtorEq, exists_false, false_iff]
    rintro ⟨a, b⟩
    rcases hz with hz | hz
    · exact a hz
    · exact b hz
  · exact ⟨fun _ => ⟨p1.ne', p2.ne⟩, fun _ => ⟨d, h'⟩⟩

/-- **C55 fails at the poles**: two records of the north pole with longitudes 0 and 90 give no finite distance. -/
theorem C55_pole_nonfinite :
    crsCalc true (fun k => if k = 0 then 0 else 90) (fun k => if k = 0 then 90 else 90) = .nonfinite := by
  have hs : ¬ gcShortcut (90 : ℝ) 0 90 90 := by
    unfold gcShortcut doubleEps
    push Not
    intro _
    constructor <;> norm_num
  have hc : Real.cos (90 * (Real.pi / 180)) = 0 := by
    rw [show (90 : ℝ) * (Real.pi / 180) = Real.pi / 2 by ring]; exact Real.cos_pi_div_two
  have hh : haversine 90 90 0 90 = 0 := by
    simp [haversine, hc]
  rcases spGcdist_general hs with ⟨-, h⟩ | ⟨p, -⟩
  · simpa [crsCalc] using h
  · rw [hh] at p; exact absurd p (lt_irrefl _)

/-- **C55 fails in the 0..360 longitude convention**: points on the equator at longitudes 170 and 190, twenty degrees apart,
are reported at distance 0, while the great-circle distance is positive. -/
theorem C55_shortcut_wrong :
    crsCalc true (fun k => if k = 0 then 190 else 0) (fun k => if k = 0 then 170 else 0) = .ok 0 ∧
      0 < greatCircle 170 0 190 0 := by
  constructor
  · have hs : gcShortcut (170 : ℝ) 190 0 0 := by
      unfold gcShortcut doubleEps
      refine ⟨by norm_num, Or.inr ?_⟩
      norm_num [abs_of_pos]
    simpa [crsCalc] using spGcdist_shortcut hs
  · unfold greatCircle
    have : 0 < haversine 170 0 190 0 := by
      unfold haversine
      have h1 : (170 - 190 : ℝ) * (Real.pi / 180) / 2 = -(Real.pi / 18) := by ring
      have h2 : 0 < Real.sin (Real.pi / 18) :=
        Real.sin_pos_of_pos_of_lt_pi (by positivity) (by linarith [Real.pi_pos])
      rw [h1, Real.sin_neg]
      simp only [sub_self, zero_mul, zero_div, Real.sin_zero, Real.cos_zero, neg_sq]
      have := pow_pos h2 2
      linarith
    have := Real.arcsin_pos.2 (Real.sqrt_pos.2 this)
    positivity

/-- A concrete case for the accuracy theorem: (0°,0°) to (90°,0°) is answered. -/
example : ∃ l, (⟨true, some (⟨1, 2, fun _ _ => 0⟩, ⟨1, 2, fun _ k => if k = 0 then 90 else 0⟩)⟩ : CRSDistance).distance 0
    = .ok l := by
  have hs : ¬ gcShortcut (90 : ℝ) 0 0 0 := by
    unfold gcShortcut doubleEps
    push Not
    intro _
    constructor <;> norm_num
  have hh : haversine 90 0 0 0 = 1 / 2 := by
    have h1 : (90 - 0 : ℝ) * (Real.pi / 180) / 2 = Real.pi / 4 := by ring
    unfold haversine
    rw [h1, Real.sin_pi_div_four]
    norm_num [div_pow]
  rcases spGcdist_general hs with ⟨p, -⟩ | ⟨-, -, d, h, -⟩
  · rw [hh] at p; norm_num at p
  · exact ⟨[d], by simp [CRSDistance.distance, crsDistRow, mapRes, crsCalc, h, Res.bind]⟩

end Verif.Props

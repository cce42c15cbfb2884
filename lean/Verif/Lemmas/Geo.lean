import Verif.Model.Distance
import Verif.Spec.Geo
import Mathlib.Tactic.Linarith
import Mathlib.Tactic.Ring
import Mathlib.Tactic.NormNum
import Mathlib.Tactic.Positivity
import Mathlib.Tactic.FieldSimp
import Mathlib.Tactic.LinearCombination
import Mathlib.Analysis.SpecialFunctions.Trigonometric.Bounds

namespace Verif.Model
open Verif Verif.Spec

theorem spGcdist_symm (a b c d : ℝ) : spGcdist a b c d = spGcdist b a d c := by
  have e1 : ∀ x y : ℝ, (x - y) / 2.0 = -((y - x) / 2.0) := by
    intro x y; rw [← neg_div, neg_sub]
  unfold spGcdist
  simp only [abs_sub_comm c d, abs_sub_comm a b, add_comm |a| |b|,
    add_comm (c * (Real.pi / 180)) (d * (Real.pi / 180)),
    e1 (c * (Real.pi / 180)) (d * (Real.pi / 180)), e1 (a * (Real.pi / 180)) (b * (Real.pi / 180)),
    Real.sin_neg, Real.cos_neg, neg_sq]

/-- The coincidence shortcut of `SpGcdist`. -/
def gcShortcut (lon1 lon2 lat1 lat2 : ℝ) : Prop :=
  |lat1 - lat2| < doubleEps ∧ (|lon1 - lon2| < doubleEps ∨ |(|lon1| + |lon2|) - 360.0| < doubleEps)

theorem gcS_eq (F G L : ℝ) :
    Real.sin G ^ 2 * Real.cos L ^ 2 + Real.cos F ^ 2 * Real.sin L ^ 2 =
      Real.sin G ^ 2 + Real.cos (F + G) * Real.cos (F - G) * Real.sin L ^ 2 := by
  rw [Real.cos_add, Real.cos_sub]
  have h1 := Real.sin_sq_add_cos_sq F
  have h2 := Real.sin_sq_add_cos_sq G
  have h3 := Real.sin_sq_add_cos_sq L
  have hF : Real.sin F ^ 2 = 1 - Real.cos F ^ 2 := by linarith
  have hG : Real.cos G ^ 2 = 1 - Real.sin G ^ 2 := by linarith
  have hL : Real.cos L ^ 2 = 1 - Real.sin L ^ 2 := by linarith
  rw [hL]
  have : (Real.cos F * Real.cos G - Real.sin F * Real.sin G) * (Real.cos F * Real.cos G + Real.sin F * Real.sin G)
      = Real.cos F ^ 2 * Real.cos G ^ 2 - Real.sin F ^ 2 * Real.sin G ^ 2 := by ring
  rw [this, hF, hG]; ring

theorem gc_core (S C x y u v f : ℝ) (hS : 0 < S) (hC : 0 < C) (hSC : S + C = 1) (hx0 : 0 ≤ x) (hxC : x ≤ C)
    (hy0 : 0 ≤ y) (hyS : y ≤ S) (hf : 0 ≤ f)
    (hu : u = Real.arctan √(S / C)) (hv : v = √(S * C) / u) :
    u = Real.arcsin √S ∧ 0 < u ∧
    1 - 5 / 2 * f ≤ 1 + f * ((3 * v - 1) / (2 * C)) * x - f * ((3 * v + 1) / (2 * S)) * y ∧
    1 + f * ((3 * v - 1) / (2 * C)) * x - f * ((3 * v + 1) / (2 * S)) * y ≤ 1 + f := by
  have hua : u = Real.arcsin √S := by
    rw [hu, Real.arctan_eq_arcsin, Real.sq_sqrt (by positivity)]
    congr 1
    have h1 : 1 + S / C = 1 / C := by field_simp; linarith
    rw [h1, Real.sqrt_div hS.le, Real.sqrt_div zero_le_one, Real.sqrt_one]
    have : √C ≠ 0 := (Real.sqrt_pos.2 hC).ne'
    field_simp
  have hupos : 0 < u := by
    rw [hua]; exact Real.arcsin_pos.2 (Real.sqrt_pos.2 hS)
  have hsin : Real.sin u = √S := by
    rw [hua]; exact Real.sin_arcsin (by linarith [Real.sqrt_nonneg S]) (Real.sqrt_le_one.2 (by linarith))
  have hcos : Real.cos u = √C := by
    rw [hua, Real.cos_arcsin, Real.sq_sqrt hS.le]; congr 1; linarith
  have hv1 : v ≤ 1 := by
    rw [hv, div_le_one hupos, Real.sqrt_mul hS.le, ← hsin, ← hcos]
    have h1 := (Real.sin_lt hupos).le
    have h2 := Real.cos_le_one u
    have h3 : 0 ≤ Real.sin u := by rw [hsin]; positivity
    nlinarith
  have hv0 : 0 ≤ v := by rw [hv]; positivity
  have hx1 : x / C ≤ 1 := (div_le_one hC).2 hxC
  have hy1 : y / S ≤ 1 := (div_le_one hS).2 hyS
  have hx2 : 0 ≤ x / C := by positivity
  have hy2 : 0 ≤ y / S := by positivity
  have e1 : f * ((3 * v - 1) / (2 * C)) * x = f * ((3 * v - 1) / 2 * (x / C)) := by field_simp
  have e2 : f * ((3 * v + 1) / (2 * S)) * y = f * ((3 * v + 1) / 2 * (y / S)) := by field_simp
  have a1 : -(1 / 2) ≤ (3 * v - 1) / 2 * (x / C) := by nlinarith
  have a2 : (3 * v - 1) / 2 * (x / C) ≤ 1 := by nlinarith
  have b1 : 0 ≤ (3 * v + 1) / 2 * (y / S) := by positivity
  have b2 : (3 * v + 1) / 2 * (y / S) ≤ 2 := by nlinarith
  refine ⟨hua, hupos, ?_, ?_⟩
  · rw [e1, e2]; nlinarith
  · rw [e1, e2]; nlinarith

theorem spGcdist_shortcut {a b c d : ℝ} (h : gcShortcut a b c d) : spGcdist a b c d = .ok 0 := by
  unfold gcShortcut at h
  simp only [spGcdist, h, and_self, if_true]

theorem spGcdist_general {lon1 lon2 lat1 lat2 : ℝ} (h : ¬ gcShortcut lon1 lon2 lat1 lat2) :
    ((haversine lon1 lat1 lon2 lat2 = 0 ∨ haversine lon1 lat1 lon2 lat2 = 1) ∧
      spGcdist lon1 lon2 lat1 lat2 = .nonfinite) ∨
    (0 < haversine lon1 lat1 lon2 lat2 ∧ haversine lon1 lat1 lon2 lat2 < 1 ∧
      ∃ d, spGcdist lon1 lon2 lat1 lat2 = .ok d ∧
      (1 - 5 / 2 * flattening) * greatCircle lon1 lat1 lon2 lat2 ≤ d ∧
      d ≤ (1 + flattening) * greatCircle lon1 lat1 lon2 lat2 ∧ 0 < greatCircle lon1 lat1 lon2 lat2) := by
  unfold gcShortcut at h
  simp only [spGcdist, if_neg h]
  have hf : (1.0 / 298.257223563 : ℝ) = flattening := by unfold flattening; norm_num
  have hf0 : 0 ≤ flattening := by unfold flattening; norm_num
  rw [hf]
  have hH : haversine lon1 lat1 lon2 lat2 =
      Real.sin ((lat1 * (Real.pi / 180) - lat2 * (Real.pi / 180)) / 2.0) ^ 2 *
        Real.cos ((lon1 * (Real.pi / 180) - lon2 * (Real.pi / 180)) / 2.0) ^ 2 +
      Real.cos ((lat1 * (Real.pi / 180) + lat2 * (Real.pi / 180)) / 2.0) ^ 2 *
        Real.sin ((lon1 * (Real.pi / 180) - lon2 * (Real.pi / 180)) / 2.0) ^ 2 := by
    have two : (2.0 : ℝ) = 2 := by norm_num
    rw [gcS_eq, haversine, two]
    have e1 : (lat1 * (Real.pi / 180) + lat2 * (Real.pi / 180)) / 2 +
        (lat1 * (Real.pi / 180) - lat2 * (Real.pi / 180)) / 2 = lat1 * (Real.pi / 180) := by ring
    have e2 : (lat1 * (Real.pi / 180) + lat2 * (Real.pi / 180)) / 2 -
        (lat1 * (Real.pi / 180) - lat2 * (Real.pi / 180)) / 2 = lat2 * (Real.pi / 180) := by ring
    rw [e1, e2, sub_mul, sub_mul]
  generalize (lat1 * (Real.pi / 180) - lat2 * (Real.pi / 180)) / 2.0 = G at *
  generalize (lon1 * (Real.pi / 180) - lon2 * (Real.pi / 180)) / 2.0 = L at *
  generalize (lat1 * (Real.pi / 180) + lat2 * (Real.pi / 180)) / 2.0 = F at *
  unfold greatCircle
  rw [hH]
  have ha0 : (0 : ℝ) < 6378.137 := by norm_num
  generalize (6378.137 : ℝ) = a at *
  generalize flattening = fl at *
  have h1 := Real.sin_sq_add_cos_sq F
  have h2 := Real.sin_sq_add_cos_sq G
  have h3 := Real.sin_sq_add_cos_sq L
  have p1 := sq_nonneg (Real.sin F)
  have p2 := sq_nonneg (Real.sin G)
  have p3 := sq_nonneg (Real.sin L)
  have p4 := sq_nonneg (Real.cos F)
  have p5 := sq_nonneg (Real.cos G)
  have p6 := sq_nonneg (Real.cos L)
  generalize Real.sin F ^ 2 = sF at *
  generalize Real.sin G ^ 2 = sG at *
  generalize Real.sin L ^ 2 = sL at *
  generalize Real.cos F ^ 2 = cF at *
  generalize Real.cos G ^ 2 = cG at *
  generalize Real.cos L ^ 2 = cL at *
  have hSC : (sG * cL + cF * sL) + (cG * cL + sF * sL) = 1 := by
    linear_combination cL * h2 + sL * h1 + h3
  have hx : sF * cG ≤ cG * cL + sF * sL := by
    have : cL = 1 - sL := by linarith
    have hsL : sL ≤ 1 := by linarith
    have a : sF ≤ 1 := by linarith
    have b : cG ≤ 1 := by linarith
    have q1 := mul_nonneg (mul_nonneg p5 (sub_nonneg.2 a)) p6
    have q2 := mul_nonneg (mul_nonneg p1 (sub_nonneg.2 b)) p3
    have q3 : cG * cL + sF * sL - sF * cG = cG * (1 - sF) * cL + sF * (1 - cG) * sL := by
      linear_combination sF * cG * h3
    linarith
  have hy : cF * sG ≤ sG * cL + cF * sL := by
    have : cL = 1 - sL := by linarith
    have hsL : sL ≤ 1 := by linarith
    have a : cF ≤ 1 := by linarith
    have b : sG ≤ 1 := by linarith
    have q1 := mul_nonneg (mul_nonneg p2 (sub_nonneg.2 a)) p6
    have q2 := mul_nonneg (mul_nonneg p4 (sub_nonneg.2 b)) p3
    have q3 : sG * cL + cF * sL - cF * sG = sG * (1 - cF) * cL + cF * (1 - sG) * sL := by
      linear_combination cF * sG * h3
    linarith
  have hS0 : 0 ≤ sG * cL + cF * sL := by positivity
  have hC0 : 0 ≤ cG * cL + sF * sL := by positivity
  have hx0 : 0 ≤ sF * cG := by positivity
  have hy0 : 0 ≤ cF * sG := by positivity
  have eX : ∀ t : ℝ, fl * t * sF * cG = fl * t * (sF * cG) := by intro t; ring
  have eY : ∀ t : ℝ, fl * t * cF * sG = fl * t * (cF * sG) := by intro t; ring
  generalize sG * cL + cF * sL = S at *
  generalize cG * cL + sF * sL = C at *
  by_cases hz : S = 0 ∨ C = 0
  · left
    refine ⟨?_, by rw [if_pos hz]⟩
    rcases hz with hz | hz
    · exact Or.inl hz
    · exact Or.inr (by linarith)
  · right
    push Not at hz
    have hS : 0 < S := lt_of_le_of_ne hS0 (Ne.symm hz.1)
    have hC : 0 < C := lt_of_le_of_ne hC0 (Ne.symm hz.2)
    refine ⟨hS, by linarith, _, by rw [if_neg (by push Not; exact hz)], ?_⟩
    obtain ⟨k1, k2, k3, k4⟩ := gc_core S C (sF * cG) (cF * sG) _ _ fl hS hC hSC hx0 hx hy0 hy
      hf0 rfl rfl
    rw [eX, eY]
    rw [← k1]
    generalize Real.arctan √(S / C) = u at *
    generalize 1 + fl * ((3 * (√(S * C) / u) - 1) / (2 * C)) * (sF * cG) -
      fl * ((3 * (√(S * C) / u) + 1) / (2 * S)) * (cF * sG) = K at *
    refine ⟨?_, ?_, by positivity⟩
    · have := mul_le_mul_of_nonneg_left k3 (show 0 ≤ 2 * u * a by positivity)
      linarith
    · have := mul_le_mul_of_nonneg_left k4 (show 0 ≤ 2 * u * a by positivity)
      linarith

end Verif.Model

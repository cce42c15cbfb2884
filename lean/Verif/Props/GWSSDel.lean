import Verif.Model.GWSSDel

/-! # C142: a vector without one of its elements -/

namespace Verif.Props
open Verif Verif.Model

theorem predU_pos {m : ℕ} (h : 0 < m) : predU m = m - 1 := if_neg (by omega)

/-- **C142 (partial).** From a vector of at least two elements `del` removes exactly the element at a valid index and keeps the others in order;
for any index that is not valid it throws. Missing: vectors of one element, see `C142_single_fails`. -/
theorem C142_del_partial (x : List ℝ) (i : ℕ) (hx : 2 ≤ x.length) :
    (i < x.length → gwssDel x i = .ok (x.take i ++ x.drop (i + 1))) ∧ (x.length ≤ i → gwssDel x i = .throw .bounds) := by
  have p1 : predU x.length = x.length - 1 := predU_pos (by omega)
  have p2 : predU (x.length - 1) = x.length - 2 := by rw [predU_pos (by omega)]; omega
  unfold gwssDel rowsOf
  rw [p1, p2]
  constructor
  · intro hi
    by_cases h0 : i = 0
    · subst h0
      rw [if_pos rfl, if_pos ⟨by omega, by omega⟩, List.take_of_length_le (by rw [List.length_drop]; omega)]
      simp
    · rw [if_neg h0]
      by_cases h1 : i = x.length - 1
      · rw [if_pos h1, if_pos ⟨by omega, by omega⟩, List.drop_zero, List.drop_eq_nil_of_le (i := i + 1) (by omega), List.append_nil]
        congr 2; omega
      · rw [if_neg h1, predU_pos (by omega), if_pos ⟨by omega, by omega⟩, if_pos ⟨by omega, by omega⟩]
        simp only [Res.bind, List.drop_zero]
        rw [List.take_of_length_le (l := x.drop (i + 1)) (by rw [List.length_drop]; omega)]
        congr 3; omega
  · intro hi
    rw [if_neg (by omega), if_neg (by omega), predU_pos (by omega)]
    by_cases h : i = x.length
    · rw [if_pos ⟨by omega, by omega⟩, if_neg (by omega)]; rfl
    · rw [if_neg (by omega)]; rfl

/-- **C142, refuted for vectors of one element.** Removing the only element fails: `del` throws instead of returning the empty vector. -/
theorem C142_single_fails (v : ℝ) (i : ℕ) : gwssDel [v] i = .throw .bounds := by
  have p1 : predU [v].length = 0 := rfl
  unfold gwssDel rowsOf
  rw [p1]
  by_cases h0 : i = 0
  · subst h0; rfl
  · rw [if_neg h0, if_neg h0]
    by_cases h1 : i = 1
    · subst h1; rfl
    · rw [predU_pos (by omega), if_neg (by simp; omega)]; rfl

/-- C142: three elements, the middle one removed; index 3 is refused. -/
example : gwssDel [5, 7, 9] 1 = .ok [5, 9] ∧ gwssDel [5, 7, 9] 3 = .throw .bounds :=
  ⟨(C142_del_partial [5, 7, 9] 1 (by simp)).1 (by simp), (C142_del_partial [5, 7, 9] 3 (by simp)).2 (by simp)⟩

end Verif.Props

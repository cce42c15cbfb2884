import Verif.Model.Distance
import Verif.Lemmas.Kernel
import Mathlib.Analysis.Complex.Norm
import Mathlib.Tactic.Linarith
import Mathlib.Tactic.Ring
import Mathlib.Tactic.NormNum
import Mathlib.Tactic.Positivity

namespace Verif.Model
open Verif

theorem mapRes_ok {α β : Type*} (g : α → β) (l : List α) : mapRes (fun x => Res.ok (g x)) l = .ok (l.map g) := by
  induction l with
  | nil => rfl
  | cons a as ih => simp [mapRes, ih, Res.bind]

theorem mapRes_eq_ok {α β : Type*} {f : α → Res β} {l : List α} {ys : List β} :
    mapRes f l = .ok ys ↔ List.Forall₂ (fun x y => f x = .ok y) l ys := by
  induction l generalizing ys with
  | nil => simp only [mapRes, Res.ok.injEq, List.forall₂_nil_left_iff]; exact eq_comm
  | cons a as ih =>
    simp only [mapRes]
    rw [List.forall₂_cons_left_iff]
    cases hf : f a with
    | ok b =>
      simp only [Res.bind]
      cases hm : mapRes f as with
      | ok bs =>
        simp only [Res.ok.injEq]
        constructor
        · rintro rfl
          exact ⟨b, bs, rfl, ih.1 hm, rfl⟩
        · rintro ⟨b', bs', h1, h2, rfl⟩
          have := ih.2 h2
          rw [hm] at this
          rw [h1, Res.ok.inj this]
      | throw e =>
        simp only [reduceCtorEq, false_iff, not_exists]
        rintro b' bs' ⟨-, h2, -⟩
        have := ih.2 h2; rw [hm] at this; cases this
      | ub =>
        simp only [reduceCtorEq, false_iff, not_exists]
        rintro b' bs' ⟨-, h2, -⟩
        have := ih.2 h2; rw [hm] at this; cases this
      | nonfinite =>
        simp only [reduceCtorEq, false_iff, not_exists]
        rintro b' bs' ⟨-, h2, -⟩
        have := ih.2 h2; rw [hm] at this; cases this
    | throw e => simp [Res.bind]
    | ub => simp [Res.bind]
    | nonfinite => simp [Res.bind]

theorem mapRes_length {α β : Type*} {f : α → Res β} {l : List α} {ys : List β} (h : mapRes f l = .ok ys) :
    ys.length = l.length := (mapRes_eq_ok.1 h).length_eq.symm

theorem euclid_eq_norm (p q : ℕ → ℝ) : euclid p q = ‖(⟨q 0, q 1⟩ : ℂ) - ⟨p 0, p 1⟩‖ := by
  rw [Complex.norm_def, Complex.normSq_apply]
  simp [euclid]

theorem euclid_nonneg (p q : ℕ → ℝ) : 0 ≤ euclid p q := Real.sqrt_nonneg _

theorem euclid_comm (p q : ℕ → ℝ) : euclid p q = euclid q p := by
  rw [euclid_eq_norm, euclid_eq_norm, norm_sub_rev]

theorem euclid_triangle (p q r : ℕ → ℝ) : euclid p r ≤ euclid p q + euclid q r := by
  rw [euclid_eq_norm, euclid_eq_norm, euclid_eq_norm]
  have := norm_add_le ((⟨q 0, q 1⟩ : ℂ) - ⟨p 0, p 1⟩) (⟨r 0, r 1⟩ - ⟨q 0, q 1⟩)
  calc _ = ‖((⟨q 0, q 1⟩ : ℂ) - ⟨p 0, p 1⟩) + (⟨r 0, r 1⟩ - ⟨q 0, q 1⟩)‖ := by congr 1; ring
    _ ≤ _ := this

theorem euclid_eq_zero (p q : ℕ → ℝ) : euclid p q = 0 ↔ p 0 = q 0 ∧ p 1 = q 1 := by
  rw [euclid_eq_norm, norm_eq_zero, sub_eq_zero, Complex.mk.injEq]
  constructor <;> rintro ⟨h1, h2⟩ <;> exact ⟨h1.symm, h2.symm⟩

theorem euclid_rotate (theta : ℝ) (p q : ℕ → ℝ) : euclid (rotate theta p) (rotate theta q) = euclid p q := by
  unfold euclid rotate
  simp only [if_true, one_ne_zero, if_false]
  congr 1
  have := Real.sin_sq_add_cos_sq theta
  linear_combination ((q 0 - p 0) ^ 2 + (q 1 - p 1) ^ 2) * this

theorem crsDistRow_planar (fp dp : DynMat) (focus : ℕ) :
    crsDistRow false fp dp focus = .ok ((List.range dp.nRows).map fun j => euclid (fp.val focus) (dp.val j)) := by
  unfold crsDistRow
  rw [← mapRes_ok]
  rfl

theorem maxLoop_spec {row : ℕ → Res (List ℝ)} {is : List ℕ} {m0 m : ℝ} (h : maxLoop row is m0 = .ok m) :
    m0 ≤ m ∧ (∀ i ∈ is, ∃ l, row i = .ok l ∧ l ≠ [] ∧ ∀ x ∈ l, x ≤ m) ∧
    (m = m0 ∨ ∃ i ∈ is, ∃ l, row i = .ok l ∧ m ∈ l) := by
  induction is generalizing m0 with
  | nil => simp only [maxLoop, Res.ok.injEq] at h; subst h; simp
  | cons i is ih =>
    simp only [maxLoop] at h
    cases hr : row i with
    | ok l =>
      rw [hr] at h
      simp only [Res.bind] at h
      cases l with
      | nil => simp [listMax] at h
      | cons x xs =>
        simp only [listMax] at h
        have hL := foldl_max_isLargest x xs
        generalize xs.foldl max x = d at h hL
        obtain ⟨h1, h2, h3⟩ := ih h
        have hd : d ≤ m := by
          split at h1
          · exact h1
          · linarith
        have hm0 : m0 ≤ m := by
          split at h1
          · linarith
          · exact h1
        refine ⟨hm0, ?_, ?_⟩
        · intro j hj
          rcases List.mem_cons.1 hj with rfl | hj
          · exact ⟨_, hr, by simp, fun y hy => (hL.2 y hy).trans hd⟩
          · exact h2 j hj
        · rcases h3 with h3 | ⟨j, hj, h3⟩
          · split at h3
            · right; exact ⟨i, by simp, _, hr, by rw [h3]; exact hL.1⟩
            · left; exact h3
          · right; exact ⟨j, by simp [hj], h3⟩
    | throw e => rw [hr] at h; simp [Res.bind] at h
    | ub => rw [hr] at h; simp [Res.bind] at h
    | nonfinite => rw [hr] at h; simp [Res.bind] at h

theorem foldl_min_isLeast (x : ℝ) (xs : List ℝ) :
    (xs.foldl min x) ∈ x :: xs ∧ ∀ y ∈ x :: xs, xs.foldl min x ≤ y := by
  induction xs generalizing x with
  | nil => simp
  | cons a as ih =>
    obtain ⟨h1, h2⟩ := ih (min x a)
    simp only [List.foldl_cons]
    constructor
    · rcases List.mem_cons.1 h1 with h | h
      · rcases min_choice x a with hm | hm
        · rw [hm] at h ⊢; rw [h]; simp
        · rw [hm] at h ⊢; rw [h]; simp
      · simp [h]
    · intro y hy
      have hm := h2 (min x a) (by simp)
      rcases List.mem_cons.1 hy with rfl | hy
      · exact hm.trans (min_le_left _ _)
      · rcases List.mem_cons.1 hy with rfl | hy
        · exact hm.trans (min_le_right _ _)
        · exact h2 y (by simp [hy])

theorem minLoop_spec {row : ℕ → Res (List ℝ)} {is : List ℕ} {m0 m : ℝ} (h : minLoop row is m0 = .ok m) :
    m ≤ m0 ∧ (∀ i ∈ is, ∃ l, row i = .ok l ∧ l ≠ [] ∧ ∀ x ∈ l, m ≤ x) ∧
    (m = m0 ∨ ∃ i ∈ is, ∃ l, row i = .ok l ∧ m ∈ l) := by
  induction is generalizing m0 with
  | nil => simp only [minLoop, Res.ok.injEq] at h; subst h; simp
  | cons i is ih =>
    simp only [minLoop] at h
    cases hr : row i with
    | ok l =>
      rw [hr] at h
      simp only [Res.bind] at h
      cases l with
      | nil => simp [listMin] at h
      | cons x xs =>
        simp only [listMin] at h
        have hL := foldl_min_isLeast x xs
        generalize xs.foldl min x = d at h hL
        obtain ⟨h1, h2, h3⟩ := ih h
        have hd : m ≤ d := by
          split at h1
          · exact h1
          · linarith
        have hm0 : m ≤ m0 := by
          split at h1
          · linarith
          · exact h1
        refine ⟨hm0, ?_, ?_⟩
        · intro j hj
          rcases List.mem_cons.1 hj with rfl | hj
          · exact ⟨_, hr, by simp, fun y hy => hd.trans (hL.2 y hy)⟩
          · exact h2 j hj
        · rcases h3 with h3 | ⟨j, hj, h3⟩
          · split at h3
            · right; exact ⟨i, by simp, _, hr, by rw [h3]; exact hL.1⟩
            · left; exact h3
          · right; exact ⟨j, by simp [hj], h3⟩
    | throw e => rw [hr] at h; simp [Res.bind] at h
    | ub => rw [hr] at h; simp [Res.bind] at h
    | nonfinite => rw [hr] at h; simp [Res.bind] at h

theorem maxLoop_total {row : ℕ → Res (List ℝ)} {is : List ℕ} (m0 : ℝ)
    (h : ∀ i ∈ is, ∃ l, row i = .ok l ∧ l ≠ []) : ∃ m, maxLoop row is m0 = .ok m := by
  induction is generalizing m0 with
  | nil => exact ⟨m0, rfl⟩
  | cons i is ih =>
    obtain ⟨l, hl, hne⟩ := h i (by simp)
    simp only [maxLoop, hl, Res.bind]
    cases l with
    | nil => exact absurd rfl hne
    | cons x xs => exact ih _ (fun j hj => h j (by simp [hj]))

theorem minLoop_total {row : ℕ → Res (List ℝ)} {is : List ℕ} (m0 : ℝ)
    (h : ∀ i ∈ is, ∃ l, row i = .ok l ∧ l ≠ []) : ∃ m, minLoop row is m0 = .ok m := by
  induction is generalizing m0 with
  | nil => exact ⟨m0, rfl⟩
  | cons i is ih =>
    obtain ⟨l, hl, hne⟩ := h i (by simp)
    simp only [minLoop, hl, Res.bind]
    cases l with
    | nil => exact absurd rfl hne
    | cons x xs => exact ih _ (fun j hj => h j (by simp [hj]))

end Verif.Model

import Mathlib.Analysis.SpecialFunctions.Pow.NNReal
import Mathlib.Algebra.BigOperators.Fin

/-! Specification vocabulary: weighted statistics of finitely many values. `p l` is the share of observation `l`. -/

namespace Verif.Spec
open Finset

/-- Shares: non-negative and adding up to one. -/
def IsShare {n : ℕ} (p : Fin n → ℝ) : Prop := (∀ l, 0 ≤ p l) ∧ ∑ l, p l = 1

/-- Weighted mean. -/
def wmean {n : ℕ} (p x : Fin n → ℝ) : ℝ := ∑ l, p l * x l

/-- Weighted (population) variance. -/
def wvar {n : ℕ} (p x : Fin n → ℝ) : ℝ := ∑ l, p l * (x l - wmean p x) ^ 2

/-- Weighted (population) covariance. -/
def wcov {n : ℕ} (p x y : Fin n → ℝ) : ℝ := ∑ l, p l * ((x l - wmean p x) * (y l - wmean p y))

/-- Weighted third central moment. -/
def wthird {n : ℕ} (p x : Fin n → ℝ) : ℝ := ∑ l, p l * (x l - wmean p x) ^ 3

/-- Weighted correlation; nothing if one of the variables does not vary. -/
noncomputable def wcor {n : ℕ} (p x y : Fin n → ℝ) : Option ℝ :=
  open Classical in if 0 < wvar p x ∧ 0 < wvar p y then some (wcov p x y / Real.sqrt (wvar p x * wvar p y)) else none

/-- `r` ranks the values of `x`: the numbers 1 to n, each given once, smaller values first. -/
def IsRanking {n : ℕ} (x r : Fin n → ℝ) : Prop :=
  (∀ l, ∃ q : ℕ, 1 ≤ q ∧ q ≤ n ∧ r l = q) ∧ (∀ q : ℕ, 1 ≤ q → q ≤ n → ∃ l, r l = q) ∧ ∀ l m, x l < x m → r l < r m

/-- `v` is the lower weighted quantile of `x` at level `a`: it is one of the values, what lies below it has a share of at most `a`,
every larger value has more than `a` at or below it, and at most `a` lies at or below `v` itself unless several observations share that
value. For different values this says that `v` is the largest one with a share of at most `a` at or below it. -/
def IsLowerQuantile {n : ℕ} (p x : Fin n → ℝ) (a v : ℝ) : Prop :=
  (∃ l, x l = v) ∧ ∑ l with x l < v, p l ≤ a ∧ (∀ l, v < x l → a < ∑ m with x m ≤ x l, p m) ∧
  (∑ l with x l ≤ v, p l ≤ a ∨ ∃ l m, l ≠ m ∧ x l = v ∧ x m = v)

/-- `σ` lists the values of `x` in non-decreasing order. -/
def Sorts {n : ℕ} (x : Fin n → ℝ) (σ : Equiv.Perm (Fin n)) : Prop := Monotone (x ∘ σ)

end Verif.Spec

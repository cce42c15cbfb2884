/-!
# Outcomes of C++ code

`Res α` is what a call of the library can do: return a value, throw a C++ exception, run into undefined
behaviour, or produce IEEE non-finite numbers (NaN / infinity) which the real-valued model does not follow further.
Nothing in here models a particular piece of /repo; it is the vocabulary in which the models are written.
-/

namespace Verif

/-- The exception classes thrown by the library and by Armadillo that the models distinguish. -/
inductive Err
  | bounds        -- `std::logic_error` / `std::out_of_range` from Armadillo's checked element access
  | size          -- `std::logic_error` from Armadillo: incompatible matrix dimensions
  | empty         -- `std::logic_error` from Armadillo: object has no elements
  | singular      -- `std::runtime_error` from `inv_sympd` / `inv` / `solve`
  | variant       -- `std::bad_variant_access`
  | runtime       -- `std::runtime_error` thrown by the library itself
  | logic         -- `std::logic_error` thrown by the library itself
  | length        -- `std::length_error` thrown by the library itself
  deriving DecidableEq, Repr

/-- Outcome of a C++ call. -/
inductive Res (α : Type u)
  | ok (a : α)
  | throw (e : Err)
  | ub
  | nonfinite
  deriving Repr

namespace Res

/-- Sequencing: the first abnormal outcome ends the computation. -/
def bind {α : Type u} {β : Type v} : Res α → (α → Res β) → Res β
  | ok a, f => f a
  | throw e, _ => throw e
  | ub, _ => ub
  | nonfinite, _ => nonfinite

instance : Monad Res where
  pure := ok
  bind := bind

/-- The call returned normally. -/
def isOk {α : Type u} : Res α → Prop
  | ok _ => True
  | _ => False

@[simp] theorem pure_eq {α : Type u} (a : α) : (pure a : Res α) = ok a := rfl
@[simp] theorem ok_bind {α β : Type u} (a : α) (f : α → Res β) : (ok a >>= f) = f a := rfl
@[simp] theorem throw_bind {α β : Type u} (e : Err) (f : α → Res β) : ((throw e : Res α) >>= f) = throw e := rfl
@[simp] theorem ub_bind {α β : Type u} (f : α → Res β) : ((ub : Res α) >>= f) = ub := rfl
@[simp] theorem nonfinite_bind {α β : Type u} (f : α → Res β) : ((nonfinite : Res α) >>= f) = nonfinite := rfl

@[simp] theorem isOk_ok {α : Type u} (a : α) : (ok a).isOk := trivial
@[simp] theorem not_isOk_throw {α : Type u} (e : Err) : ¬ (throw e : Res α).isOk := id
@[simp] theorem not_isOk_ub {α : Type u} : ¬ (ub : Res α).isOk := id
@[simp] theorem not_isOk_nonfinite {α : Type u} : ¬ (nonfinite : Res α).isOk := id

theorem isOk_iff {α : Type u} (r : Res α) : r.isOk ↔ ∃ a, r = ok a := by
  cases r <;> simp [isOk]

theorem bind_eq_ok {α β : Type u} {r : Res α} {f : α → Res β} {b : β} :
    (r >>= f) = ok b ↔ ∃ a, r = ok a ∧ f a = ok b := by
  cases r <;> simp [Bind.bind, bind]

theorem bind_eq_ok' {α β : Type _} {r : Res α} {f : α → Res β} {b : β} :
    r.bind f = ok b ↔ ∃ a, r = ok a ∧ f a = ok b := by
  cases r <;> simp [bind]

instance : LawfulMonad Res := LawfulMonad.mk'
  (id_map := by intro α x; cases x <;> rfl)
  (pure_bind := by intros; rfl)
  (bind_assoc := by intro α β γ x f g; cases x <;> rfl)

/-- A loop `for i in 0..n-1` whose body computes the `i`-th element of a result, or ends the loop abnormally. -/
def tabulate {α : Type u} : (n : Nat) → (Fin n → Res α) → Res (Fin n → α)
  | 0, _ => ok (fun i => i.elim0)
  | n + 1, f =>
    (f 0).bind fun a => (tabulate n (fun i => f i.succ)).bind fun t =>
      ok (fun i => if h : i.val = 0 then a else t ⟨i.val - 1, by omega⟩)

theorem tabulate_eq_ok {α : Type u} {n : Nat} {f : Fin n → Res α} {v : Fin n → α} :
    tabulate n f = ok v ↔ ∀ i, f i = ok (v i) := by
  induction n with
  | zero => simp only [tabulate, ok.injEq]; constructor
            · intro _ i; exact i.elim0
            · intro _; funext i; exact i.elim0
  | succ n ih =>
    simp only [tabulate]
    constructor
    · intro h
      cases hf : f 0 with
      | ok a =>
        rw [hf] at h
        simp only [bind] at h
        cases ht : tabulate n (fun i => f i.succ) with
        | ok t =>
          rw [ht] at h
          simp only [ok.injEq] at h
          have ih' := ih.1 ht
          intro i
          rw [← h]
          by_cases hi : i.val = 0
          · have : i = 0 := Fin.ext hi
            subst this; simpa using hf
          · have : i = (⟨i.val - 1, by omega⟩ : Fin n).succ := Fin.ext (by simp; omega)
            simp only [hi, dif_neg, not_false_eq_true]
            rw [← ih' ⟨i.val - 1, by omega⟩, ← this]
        | throw e => rw [ht] at h; simp at h
        | ub => rw [ht] at h; simp at h
        | nonfinite => rw [ht] at h; simp at h
      | throw e => rw [hf] at h; simp [bind] at h
      | ub => rw [hf] at h; simp [bind] at h
      | nonfinite => rw [hf] at h; simp [bind] at h
    · intro h
      have ht : tabulate n (fun i => f i.succ) = ok (fun i => v i.succ) := ih.2 (fun i => h i.succ)
      rw [h 0, ht]
      simp only [bind, ok.injEq]
      funext i
      by_cases hi : i.val = 0
      · have : i = 0 := Fin.ext hi
        subst this; simp
      · simp only [hi, dif_neg, not_false_eq_true]
        congr 1
        exact Fin.ext (by simp; omega)

/-- Forget which abnormal outcome occurred. -/
def toOption {α : Type u} : Res α → Option α
  | ok a => some a
  | _ => none

end Res
end Verif

import Verif.Lemmas.Loops

/-! Loops that compute one row of a result per iteration. -/

namespace Verif

variable {n T : ℕ} {ρ : Type _}

/-- The update of a loop that stores the result of iteration `i` in row `i`. -/
theorem foldl_rows (r : Fin n → ρ) (l : List (Fin n)) (hnd : l.Nodup) (a : Fin n → ρ) (i : Fin n) :
    (l.foldl (fun s i => Function.update s i (r i)) a) i = if i ∈ l then r i else a i := by
  split
  · rename_i h
    exact foldl_update (fun i => i) r l a (by simpa using hnd) i h
  · rename_i h
    exact foldl_update_other (fun i => i) r l a i (by simpa using h)

/-- Undisturbed: every row is computed. -/
theorem rowsSerial_ok {g : Fin n → Res ρ} {stop : ℕ → Bool} (hs : ∀ q, stop q = false) (r : Fin n → ρ) (hg : ∀ i, g i = .ok (r i))
    (a : Fin n → ρ) : serialFor g (fun i r (a : Fin n → ρ) => Function.update a i r) stop (List.finRange n) 0 a = .ok (r, false) := by
  rw [serialFor_ok r _ _ _ (fun q _ => hs q) (fun i _ => hg i)]
  congr 2
  funext i
  rw [foldl_rows r _ (List.nodup_finRange n)]
  simp

/-- If the loop completes, row `i` is the result of iteration `i`. -/
theorem rowsSerial_complete {g : Fin n → Res ρ} {stop : ℕ → Bool} {a a' : Fin n → ρ}
    (h : serialFor g (fun i r (a : Fin n → ρ) => Function.update a i r) stop (List.finRange n) 0 a = .ok (a', false)) (i : Fin n) :
    g i = .ok (a' i) := by
  have key : ∀ (l : List (Fin n)) (p : ℕ) (s : Fin n → ρ), l.Nodup →
      serialFor g (fun i r (a : Fin n → ρ) => Function.update a i r) stop l p s = .ok (a', false) →
      (∀ i ∈ l, g i = .ok (a' i)) ∧ ∀ i, i ∉ l → a' i = s i := by
    intro l
    induction l with
    | nil =>
      intro p s _ h
      simp only [serialFor, Res.ok.injEq, Prod.mk.injEq, and_true] at h
      subst h
      simp
    | cons j l ih =>
      intro p s hnd h
      rw [List.nodup_cons] at hnd
      simp only [serialFor] at h
      split at h
      · simp at h
      · rw [Res.bind_eq_ok'] at h
        obtain ⟨r, h1, h2⟩ := h
        obtain ⟨h3, h4⟩ := ih _ _ hnd.2 h2
        refine ⟨?_, ?_⟩
        · intro i hi
          rcases List.mem_cons.1 hi with rfl | hi
          · rw [h4 i hnd.1, Function.update_self, h1]
          · exact h3 i hi
        · intro i hi
          rw [List.mem_cons, not_or] at hi
          rw [h4 i hi.2, Function.update_of_ne hi.1]
  exact (key _ _ _ (List.nodup_finRange n) h).1 i (List.mem_finRange i)

/-- If the loop is stopped, the rows before some location are computed and the others are as they were. -/
theorem rowsSerial_stopped {g : Fin n → Res ρ} {stop : ℕ → Bool} {a a' : Fin n → ρ} {b : Bool}
    (h : serialFor g (fun i r (a : Fin n → ρ) => Function.update a i r) stop (List.finRange n) 0 a = .ok (a', b)) :
    ∃ q ≤ n, (b = false → q = n) ∧ (b = true → stop q = true) ∧ (∀ i : Fin n, i.val < q → g i = .ok (a' i)) ∧
      ∀ i : Fin n, q ≤ i.val → a' i = a i := by
  have key : ∀ (m : ℕ) (l : List (Fin n)) (p : ℕ) (s : Fin n → ρ), l.length = m → l = (List.finRange n).drop p → p ≤ n →
      serialFor g (fun i r (a : Fin n → ρ) => Function.update a i r) stop l p s = .ok (a', b) →
      ∃ q, p ≤ q ∧ q ≤ n ∧ (b = false → q = n) ∧ (b = true → stop q = true) ∧
        (∀ i : Fin n, p ≤ i.val → i.val < q → g i = .ok (a' i)) ∧ (∀ i : Fin n, q ≤ i.val → a' i = s i) ∧
        ∀ i : Fin n, i.val < p → a' i = s i := by
    intro m
    induction m with
    | zero =>
      intro l p s hl hd hp h
      have : l = [] := List.length_eq_zero_iff.1 hl
      subst this
      simp only [serialFor, Res.ok.injEq, Prod.mk.injEq] at h
      obtain ⟨rfl, rfl⟩ := h
      have hpn : p = n := by
        have := congrArg List.length hd
        simp at this; omega
      refine ⟨n, by omega, le_rfl, fun _ => rfl, by simp, ?_, fun i _ => rfl, fun i _ => rfl⟩
      intro i h1 h2; omega
    | succ m ih =>
      intro l p s hl hd hp h
      cases l with
      | nil => simp at hl
      | cons j l =>
        have hlen := congrArg List.length hd
        simp at hlen
        have hpn : p < n := by omega
        have hj : j.val = p ∧ l = (List.finRange n).drop (p + 1) := by
          rw [List.drop_eq_getElem_cons (by simpa using hpn)] at hd
          obtain ⟨h1, h2⟩ := List.cons.inj hd
          exact ⟨by rw [h1]; simp, h2⟩
        simp only [serialFor] at h
        split at h
        · rename_i hstop
          simp only [Res.ok.injEq, Prod.mk.injEq] at h
          obtain ⟨rfl, rfl⟩ := h
          exact ⟨p, le_rfl, hp, by simp, fun _ => hstop, fun i h1 h2 => by omega, fun i _ => rfl, fun i _ => rfl⟩
        · rw [Res.bind_eq_ok'] at h
          obtain ⟨r, h1, h2⟩ := h
          obtain ⟨q, hq1, hq2, hq3, hq4, hq5, hq6, hq7⟩ := ih l (p + 1) _ (by simp at hl; omega) hj.2 (by omega) h2
          refine ⟨q, by omega, hq2, hq3, hq4, ?_, ?_, ?_⟩
          · intro i hi1 hi2
            by_cases e : i.val = p
            · have : i = j := Fin.ext (by omega)
              subst this
              rw [hq7 i (by omega), Function.update_self, h1]
            · exact hq5 i (by omega) hi2
          · intro i hi
            rw [hq6 i hi, Function.update_of_ne]
            intro e; subst e; omega
          · intro i hi
            rw [hq7 i (by omega), Function.update_of_ne]
            intro e; subst e; omega
  obtain ⟨q, -, h1, h2, h3, h4, h5, -⟩ := key _ _ 0 a rfl (by simp) (Nat.zero_le _) h
  exact ⟨q, h1, h2, h3, fun i hi => h4 i (Nat.zero_le _) hi, h5⟩

/-- The parallel loop under any schedule: every row is computed. -/
theorem rowsOmp_ok {g : Fin n → Res ρ} {stop : ℕ → Bool} (hs : ∀ q, stop q = false) (r : Fin n → ρ) (hg : ∀ i, g i = .ok (r i))
    (a : Fin n → ρ) {evs : List (OmpEv (Fin n) (Fin T))} (hsch : Schedule (List.finRange n) evs) :
    (ompRun g (fun (_ : Fin T) i r (a : Fin n → ρ) => Function.update a i r) stop evs a).success = true ∧
    (ompRun g (fun (_ : Fin T) i r (a : Fin n → ρ) => Function.update a i r) stop evs a).terminated = false ∧
    (ompRun g (fun (_ : Fin T) i r (a : Fin n → ρ) => Function.update a i r) stop evs a).st = r := by
  obtain ⟨h1, h2, h3⟩ := omp_ok (upd := fun (_ : Fin T) i r (a : Fin n → ρ) => Function.update a i r) hs r a hsch (fun i _ => hg i)
  refine ⟨h1, h2, ?_⟩
  rw [h3]
  funext i
  have : (finishes evs).foldl (fun s ti => Function.update s ti.2 (r ti.2)) a =
      ((finishes evs).map Prod.snd).foldl (fun s i => Function.update s i (r i)) a := by
    rw [List.foldl_map]
  rw [this, foldl_rows r _ (hsch.finishes.nodup_iff.2 (List.nodup_finRange n))]
  rw [if_pos (hsch.finishes.mem_iff.2 (List.mem_finRange i))]

end Verif

import Verif.Model.GWRRobust
import Verif.Props.GWRBasic
import Verif.Spec.GWRDefinition

/-! # C43: robust re-weighting -/

namespace Verif.Props
open Verif Verif.Model Verif.Spec

variable {n k : ℕ}

/-- **C43, the weight function.** With a positive mean squared error, the robust weight of an observation is between 0 and 1; it is 1 if the
residual is at most two standard errors, 0 if it is three or more, and it never increases with the size of the residual. -/
theorem C43_weight_function (r : Fin n → ℝ) (m : ℝ) (hm : 0 < m) :
    (∀ i, 0 ≤ filtWeight r m i ∧ filtWeight r m i ≤ 1) ∧ (∀ i, |r i| ≤ 2 * Real.sqrt m → filtWeight r m i = 1) ∧
    (∀ i, 3 * Real.sqrt m ≤ |r i| → filtWeight r m i = 0) ∧ (∀ i, 2 * Real.sqrt m < |r i| → |r i| < 3 * Real.sqrt m →
      0 < filtWeight r m i ∧ filtWeight r m i < 1) ∧
    ∀ i j, |r i| ≤ |r j| → filtWeight r m j ≤ filtWeight r m i := by
  have hs : 0 < Real.sqrt m := Real.sqrt_pos.2 hm
  have habs : ∀ i, |r i / Real.sqrt m| = |r i| / Real.sqrt m := fun i => by rw [abs_div, abs_of_pos hs]
  -- the weight as a function of the scaled residual
  have hval : ∀ i, filtWeight r m i = if |r i| / Real.sqrt m ≤ 2 then 1 else if |r i| / Real.sqrt m < 3 then
      (1 - (|r i| / Real.sqrt m - 2) * (|r i| / Real.sqrt m - 2)) * (1 - (|r i| / Real.sqrt m - 2) * (|r i| / Real.sqrt m - 2)) else 0 := by
    intro i
    simp only [filtWeight, if_neg hm.ne', habs]
    by_cases h : |r i| / Real.sqrt m ≤ 2
    · rw [if_pos h, if_pos h]
    · rw [if_neg h, if_neg h]
      simp only [not_le.1 h, true_and]
  set a : Fin n → ℝ := fun i => |r i| / Real.sqrt m with ha
  have hval' : ∀ i, filtWeight r m i = if a i ≤ 2 then 1 else if a i < 3 then (1 - (a i - 2) * (a i - 2)) * (1 - (a i - 2) * (a i - 2)) else 0 := hval
  have hu : ∀ i, 2 < a i → a i < 3 → 0 < 1 - (a i - 2) * (a i - 2) ∧ 1 - (a i - 2) * (a i - 2) < 1 := by
    intro i h1 h2; constructor <;> nlinarith
  have mid : ∀ i, 2 < a i → a i < 3 → 0 < filtWeight r m i ∧ filtWeight r m i < 1 := by
    intro i h1 h2
    rw [hval', if_neg (not_le.2 h1), if_pos h2]
    obtain ⟨h3, h4⟩ := hu i h1 h2
    exact ⟨mul_pos h3 h3, by nlinarith⟩
  have bounds : ∀ i, 0 ≤ filtWeight r m i ∧ filtWeight r m i ≤ 1 := by
    intro i
    by_cases h1 : a i ≤ 2
    · rw [hval', if_pos h1]; norm_num
    · by_cases h2 : a i < 3
      · obtain ⟨h3, h4⟩ := mid i (not_le.1 h1) h2
        exact ⟨h3.le, h4.le⟩
      · rw [hval', if_neg h1, if_neg h2]; norm_num
  refine ⟨bounds, ?_, ?_, ?_, ?_⟩
  · intro i h
    rw [hval', if_pos]
    rw [ha]; exact (div_le_iff₀ hs).2 h
  · intro i h
    have : 3 ≤ a i := (le_div_iff₀ hs).2 h
    rw [hval', if_neg (by linarith), if_neg (by linarith)]
  · intro i h1 h2
    exact mid i ((lt_div_iff₀ hs).2 h1) ((div_lt_iff₀ hs).2 h2)
  · intro i j hij
    have hle : a i ≤ a j := div_le_div_of_nonneg_right hij hs.le
    by_cases h1 : a i ≤ 2
    · rw [hval' i, if_pos h1]; exact (bounds j).2
    · by_cases h2 : a j < 3
      · have hj2 : ¬ a j ≤ 2 := by intro h; exact h1 (hle.trans h)
        have hi3 : a i < 3 := lt_of_le_of_lt hle h2
        rw [hval' i, hval' j, if_neg h1, if_neg hj2, if_pos h2, if_pos hi3]
        obtain ⟨h3, h4⟩ := hu i (not_le.1 h1) hi3
        obtain ⟨h5, h6⟩ := hu j (not_le.1 hj2) h2
        have h7 : 1 - (a j - 2) * (a j - 2) ≤ 1 - (a i - 2) * (a i - 2) := by
          rw [not_le] at h1; nlinarith
        exact mul_le_mul h7 h7 h5.le h3.le
      · have hj2 : ¬ a j ≤ 2 := by intro h; exact h1 (hle.trans h)
        rw [hval' j, if_neg hj2, if_neg h2]; exact (bounds i).1

theorem mse_nonneg (r : Fin n → ℝ) : 0 ≤ mse r := div_nonneg (Finset.sum_nonneg fun i _ => mul_self_nonneg _) (Nat.cast_nonneg n)

theorem filtWeight_unit (r : Fin n → ℝ) (m : ℝ) (hm : 0 ≤ m) (i : Fin n) : 0 ≤ filtWeight r m i ∧ filtWeight r m i ≤ 1 := by
  rcases eq_or_lt_of_le hm with h | h
  · rw [← h]; simp [filtWeight]
  · exact (C43_weight_function r m h).1 i

/-- What a robust calibration does: its fits use the masks `ms` one after the other, the first with all ones, each later mask being
computed from the residuals of the fit before; `a` is the last fit. -/
inductive RobustChain (fitF : (Fin n → ℝ) → Res (FitAcc n k)) (next : FitAcc n k → Fin n → ℝ) : List (Fin n → ℝ) → FitAcc n k → Prop
  | first (a) : fitF (fun _ => 1) = .ok a → RobustChain fitF next [fun _ => 1] a
  | step (ms a b) : RobustChain fitF next ms a → fitF (next a) = .ok b → RobustChain fitF next (ms ++ [next a]) b

/-- **C43, first method.** Two fits; the second uses weight 0 for the observations whose studentised residual in the first fit exceeds 3
in absolute value, and 1 for the others. -/
theorem C43_first_method (fitF : (Fin n → ℝ) → Res (FitAcc n k)) (x : Matrix (Fin n) (Fin k) ℝ) (y : Fin n → ℝ) (b : FitAcc n k)
    (ms : List (Fin n → ℝ)) (h : caliFirst fitF x y = .ok (b, ms)) :
    ∃ a mask, fitF (fun _ => 1) = .ok a ∧ fitF mask = .ok b ∧ ms = [fun _ => 1, mask] ∧
      let σ2 := rss x y a.betas / (n - 2 * a.shat 0 + a.shat 1)
      ∀ i, (mask i = 0 ∨ mask i = 1) ∧ (n - 2 * a.shat 0 + a.shat 1 ≠ 0 → 0 < σ2 * a.qdiag i →
        (mask i = 0 ↔ 3 < |(y i - fitted x a.betas i) / Real.sqrt (σ2 * a.qdiag i)|)) := by
  unfold caliFirst at h
  rw [Res.bind_eq_ok'] at h
  obtain ⟨a, ha, h⟩ := h
  rw [Res.bind_eq_ok'] at h
  obtain ⟨b', hb, h⟩ := h
  simp only [Res.ok.injEq, Prod.mk.injEq] at h
  obtain ⟨rfl, rfl⟩ := h
  refine ⟨a, outlierMask x y a, ha, hb, rfl, fun i => ⟨?_, fun hden hpos => ?_⟩⟩
  · unfold outlierMask; split <;> simp
  · unfold outlierMask
    have : outlying (rss x y a.betas) (n - 2 * a.shat 0 + a.shat 1) (a.qdiag i) (residuals x y a.betas i) ↔
        3 < |(y i - fitted x a.betas i) / Real.sqrt (rss x y a.betas / (n - 2 * a.shat 0 + a.shat 1) * a.qdiag i)| := by
      unfold outlying residuals
      constructor
      · rintro ⟨-, -, ⟨h0, -⟩ | ⟨-, h1⟩⟩
        · exact absurd h0 hpos.ne'
        · exact h1
      · intro h1; exact ⟨hden, hpos.le, Or.inr ⟨hpos, h1⟩⟩
    rw [← this]
    by_cases ho : outlying (rss x y a.betas) (n - 2 * a.shat 0 + a.shat 1) (a.qdiag i) (residuals x y a.betas i)
    · simp [ho]
    · simp [ho]

/-- The mask the second method computes from a fit. -/
noncomputable def nextMask (x : Matrix (Fin n) (Fin k) ℝ) (y : Fin n → ℝ) (a : FitAcc n k) : Fin n → ℝ :=
  filtWeight (residuals x y a.betas) (mse (residuals x y a.betas))

theorem robustLoop_spec {fitF : (Fin n → ℝ) → Res (FitAcc n k)} {x : Matrix (Fin n) (Fin k) ℝ} {y : Fin n → ℝ} :
    ∀ (fuel : ℕ) (go : Bool) (a : FitAcc n k) (used : List (Fin n → ℝ)) (b : FitAcc n k) (ms : List (Fin n → ℝ)),
      RobustChain fitF (nextMask x y) used a →
      robustLoop fitF x y fuel go a (mse (residuals x y a.betas)) (nextMask x y a) used = .ok (b, ms) →
      RobustChain fitF (nextMask x y) ms b ∧ ms.length ≤ used.length + fuel
  | 0, go, a, used, b, ms, hc, h => by
    simp only [robustLoop, Res.ok.injEq, Prod.mk.injEq] at h
    obtain ⟨rfl, rfl⟩ := h
    exact ⟨hc, by omega⟩
  | fuel + 1, go, a, used, b, ms, hc, h => by
    simp only [robustLoop] at h
    split at h
    · rw [Res.bind_eq_ok'] at h
      obtain ⟨c, hc', h⟩ := h
      obtain ⟨h1, h2⟩ := robustLoop_spec fuel _ c _ b ms (RobustChain.step used a c hc hc') h
      refine ⟨h1, ?_⟩
      rw [List.length_append] at h2
      simp at h2; omega
    · simp only [Res.ok.injEq, Prod.mk.injEq] at h
      obtain ⟨rfl, rfl⟩ := h
      exact ⟨hc, by omega⟩

/-- **C43, second method.** It makes at most 21 fits; the first has all weights 1, every later one the weights computed from the residuals
of the fit before; the result is the last fit, and all masks are between 0 and 1. -/
theorem C43_second_method (fitF : (Fin n → ℝ) → Res (FitAcc n k)) (x : Matrix (Fin n) (Fin k) ℝ) (y : Fin n → ℝ) (b : FitAcc n k)
    (ms : List (Fin n → ℝ)) (h : caliSecond fitF x y = .ok (b, ms)) :
    RobustChain fitF (fun a => filtWeight (fun i => y i - fitted x a.betas i) (rss x y a.betas / n)) ms b ∧ ms.length ≤ 21 ∧
      ∀ mask ∈ ms, ∀ i, 0 ≤ mask i ∧ mask i ≤ 1 := by
  unfold caliSecond at h
  rw [Res.bind_eq_ok'] at h
  obtain ⟨a, ha, h⟩ := h
  obtain ⟨h1, h2⟩ := robustLoop_spec 20 true a [fun _ => 1] b ms (RobustChain.first a ha) h
  have e : (fun a : FitAcc n k => filtWeight (fun i => y i - fitted x a.betas i) (rss x y a.betas / n)) = nextMask x y := rfl
  rw [e]
  refine ⟨h1, by simp at h2; omega, ?_⟩
  clear h h2 ha e
  induction h1 with
  | first a ha => intro mask hm i; simp at hm; subst hm; simp
  | step ms a c hc hf ih =>
    intro mask hm i
    rcases List.mem_append.1 hm with h | h
    · exact ih mask h i
    · simp at h; subst h
      exact filtWeight_unit _ _ (mse_nonneg _) i

/-- **C43, what is returned.** With the serial fit, the coefficients a robust calibration returns are, at each location, the weighted least
squares fit with the kernel weights multiplied by robust weights between 0 and 1. -/
theorem C43_result_is_weighted_least_squares (x : Matrix (Fin n) (Fin k) ℝ) (y : Fin n → ℝ) (W : Fin n → Fin n → ℝ) (sS : Bool)
    (b : FitAcc n k) (ms : List (Fin n → ℝ))
    (h : caliFirst (robustFit x y W sS) x y = .ok (b, ms) ∨ caliSecond (robustFit x y W sS) x y = .ok (b, ms)) :
    ∃ mask : Fin n → ℝ, (∀ i, 0 ≤ mask i ∧ mask i ≤ 1) ∧ ∀ i, IsWLS x y (fun l => W i l * mask l) (b.betas i) := by
  have key : ∀ mask, robustFit x y W sS mask = .ok b → ∀ i, IsWLS x y (fun l => W i l * mask l) (b.betas i) := by
    intro mask hf i
    unfold robustFit at hf
    rw [Res.bind_eq_ok'] at hf
    obtain ⟨⟨a, t⟩, hf, e⟩ := hf
    simp only [Res.ok.injEq] at e
    subst e
    cases t with
    | false => exact C21_fit_is_weighted_least_squares x y (maskedW W mask) sS false _ a hf i
    | true =>
      exfalso
      obtain ⟨q, -, hq⟩ : ∃ q : ℕ, True ∧ (fun _ : ℕ => false) q = true := by
        have : ∀ (l : List (Fin n)) (p : ℕ) (s : FitAcc n k), serialFor (fun i => localFit x y (maskedW W mask i) (x i)) (fitUpd 0 sS false)
            (fun _ => false) l p s ≠ .ok (a, true) := by
          intro l
          induction l with
          | nil => intro p s h; simp [serialFor] at h
          | cons i l ih =>
            intro p s h
            simp only [serialFor, Bool.false_eq_true, if_false] at h
            rw [Res.bind_eq_ok'] at h
            obtain ⟨r, -, h⟩ := h
            exact ih _ _ h
        exact absurd hf (this _ _ _)
      simp at hq
  rcases h with h | h
  · obtain ⟨a, mask, -, h2, -, h4⟩ := C43_first_method _ x y b ms h
    refine ⟨mask, fun i => ?_, key mask h2⟩
    rcases (h4 i).1 with e | e <;> rw [e] <;> norm_num
  · obtain ⟨h1, -, h3⟩ := C43_second_method _ x y b ms h
    cases h1 with
    | first a ha => exact ⟨_, h3 _ (by simp), key _ ha⟩
    | step ms a c hc hf => exact ⟨_, h3 _ (by simp), key _ hf⟩

/-- The core fit throws when all weights are 0. -/
theorem robustFit_zero (x : Matrix (Fin n) (Fin k) ℝ) (y : Fin n → ℝ) (W : Fin n → Fin n → ℝ) (sS : Bool) (hn : 0 < n) (hk : 0 < k) :
    robustFit x y W sS (fun _ => 0) = .throw .singular := by
  unfold robustFit
  have hz : maskedW W (fun _ => 0) = fun _ _ => 0 := by funext i l; simp [maskedW]
  rw [hz, (C21_fit_succeeds_iff x y (fun _ _ => 0) (fun _ _ => le_rfl) sS false).2 ⟨⟨0, hn⟩, ?_⟩]
  · rfl
  · intro hd
    have := hd (fun _ => 1) (fun l hl => absurd hl (lt_irrefl _))
    have := congrFun this ⟨0, hk⟩
    simp at this

/-- **C43 (refuted for perfect data).** If the response is an exact linear combination of the covariates — every residual is 0, the most
ordinary residuals there are — the second method gives every observation weight 0 and fails. -/
theorem C43_perfect_fit_fails (x : Matrix (Fin n) (Fin k) ℝ) (y : Fin n → ℝ) (W : Fin n → Fin n → ℝ) (sS : Bool) (hn : 0 < n) (hk : 0 < k)
    (hW : ∀ i l, 0 ≤ W i l) (β : Fin k → ℝ) (hy : ∀ l, y l = ∑ j, x l j * β j) : caliSecond (robustFit x y W sS) x y = .throw .singular := by
  have h1 : maskedW W (fun _ => 1) = W := by funext i l; simp [maskedW]
  unfold caliSecond
  by_cases hdet : ∀ i, Determined x (W i)
  · obtain ⟨a, ha⟩ := (C21_fit_succeeds_iff x y W hW sS false).1.2 hdet
    have hfit : robustFit x y W sS (fun _ => 1) = .ok a := by
      unfold robustFit; rw [h1]
      rw [show (fun _ : ℕ => false) = NoStop from rfl, ha]; rfl
    obtain ⟨-, hf, hr⟩ := C22_exact_law x y W sS false _ a ha β hy
    have hm : mse (residuals x y a.betas) = 0 := by
      unfold mse residuals
      rw [Finset.sum_eq_zero fun i _ => by rw [hf i]; ring, zero_div]
    have hmask : filtWeight (residuals x y a.betas) 0 = fun _ => 0 := by funext i; simp [filtWeight]
    rw [hfit]
    simp only [Res.bind, hm, hmask, robustLoop, if_true, robustFit_zero x y W sS hn hk]
  · push Not at hdet
    have hfit : robustFit x y W sS (fun _ => 1) = .throw .singular := by
      unfold robustFit; rw [h1]
      rw [show (fun _ : ℕ => false) = NoStop from rfl, (C21_fit_succeeds_iff x y W hW sS false).2 hdet]; rfl
    rw [hfit]; rfl

theorem filtWeight_eq (r : Fin n → ℝ) (m : ℝ) (hm : 0 < m) (i : Fin n) : filtWeight r m i = robustWeight (Real.sqrt m) (r i) := by
  have hs : 0 < Real.sqrt m := Real.sqrt_pos.2 hm
  simp only [filtWeight, if_neg hm.ne', robustWeight, abs_div, abs_of_pos hs, div_le_iff₀ hs, div_lt_iff₀ hs]
  by_cases h : |r i| ≤ 2 * Real.sqrt m
  · rw [if_pos h, if_pos h]
  · rw [if_neg h, if_neg h]
    have h2 : 2 < |r i| / Real.sqrt m := (lt_div_iff₀ hs).2 (not_le.1 h)
    simp only [h2, true_and]
    by_cases h3 : |r i| < 3 * Real.sqrt m
    · rw [if_pos h3, if_pos h3]; ring
    · rw [if_neg h3, if_neg h3]

theorem goesOn_iff {a b : ℝ} (hb : 0 ≤ b) : goesOn a b ↔ StillMoving a b := by
  unfold goesOn StillMoving
  rcases eq_or_lt_of_le hb with h | h
  · rw [← h]; simp
  · rw [if_neg h.ne', lt_div_iff₀ h]

/-- The fits `f 0, …, f q` made so far and their masks. -/
structure RobustTrace (fitF : (Fin n → ℝ) → Res (FitAcc n k)) (x : Matrix (Fin n) (Fin k) ℝ) (y : Fin n → ℝ) (f : ℕ → FitAcc n k)
    (q : ℕ) (used : List (Fin n → ℝ)) : Prop where
  zero : fitF (fun _ => 1) = .ok (f 0)
  succ : ∀ t < q, fitF (nextMask x y (f t)) = .ok (f (t + 1))
  masks : used = (fun _ => 1) :: (List.range q).map fun t => nextMask x y (f t)
  moving : ∀ t, t + 1 < q → goesOn (mse (residuals x y (f t).betas)) (mse (residuals x y (f (t + 1)).betas))

theorem robustLoop_trace {fitF : (Fin n → ℝ) → Res (FitAcc n k)} {x : Matrix (Fin n) (Fin k) ℝ} {y : Fin n → ℝ} :
    ∀ (fuel : ℕ) (go : Bool) (f : ℕ → FitAcc n k) (q : ℕ) (used : List (Fin n → ℝ)) (b : FitAcc n k) (ms : List (Fin n → ℝ)),
      RobustTrace fitF x y f q used →
      (go = true ↔ ∀ t, t + 1 = q → goesOn (mse (residuals x y (f t).betas)) (mse (residuals x y (f (t + 1)).betas))) →
      robustLoop fitF x y fuel go (f q) (mse (residuals x y (f q).betas)) (nextMask x y (f q)) used = .ok (b, ms) →
      ∃ (g : ℕ → FitAcc n k) (q' : ℕ), RobustTrace fitF x y g q' ms ∧ q ≤ q' ∧ q' ≤ q + fuel ∧ g q' = b ∧
        (q' = q + fuel ∨ ∃ t, t + 1 = q' ∧ ¬ goesOn (mse (residuals x y (g t).betas)) (mse (residuals x y (g (t + 1)).betas)))
  | 0, go, f, q, used, b, ms, hT, _, h => by
    simp only [robustLoop, Res.ok.injEq, Prod.mk.injEq] at h
    obtain ⟨rfl, rfl⟩ := h
    exact ⟨f, q, hT, le_rfl, le_rfl, rfl, Or.inl rfl⟩
  | fuel + 1, go, f, q, used, b, ms, hT, hgo, h => by
    simp only [robustLoop] at h
    by_cases hg : go = true
    · rw [if_pos hg, Res.bind_eq_ok'] at h
      obtain ⟨c, hc, h⟩ := h
      have hq : ∀ t ≤ q, Function.update f (q + 1) c t = f t := fun t ht => Function.update_of_ne (by omega) _ _
      have hq1 : Function.update f (q + 1) c (q + 1) = c := Function.update_self _ _ _
      have hT' : RobustTrace fitF x y (Function.update f (q + 1) c) (q + 1) (used ++ [nextMask x y (f q)]) := by
        refine ⟨by rw [hq 0 (Nat.zero_le _)]; exact hT.zero, fun t ht => ?_, ?_, fun t ht => ?_⟩
        · rcases Nat.lt_succ_iff_lt_or_eq.1 ht with h1 | h1
          · rw [hq t h1.le, hq (t + 1) h1]; exact hT.succ t h1
          · subst h1; rw [hq t le_rfl, hq1]; exact hc
        · rw [hT.masks, List.range_succ, List.map_append, List.cons_append]
          congr 2
          · exact List.map_congr_left fun t ht => by rw [hq t (List.mem_range.1 ht).le]
          · simp
        · rcases Nat.lt_succ_iff_lt_or_eq.1 ht with h1 | h1
          · rw [hq t (by omega), hq (t + 1) h1.le]; exact hT.moving t h1
          · rw [hq t (by omega), hq (t + 1) h1.le]; exact hgo.1 hg t h1
      obtain ⟨go', hgo', h⟩ : ∃ go' : Bool, (go' = true ↔ goesOn (mse (residuals x y (f q).betas)) (mse (residuals x y c.betas))) ∧
          robustLoop fitF x y fuel go' c (mse (residuals x y c.betas)) (nextMask x y c) (used ++ [nextMask x y (f q)]) = .ok (b, ms) :=
        ⟨_, @decide_eq_true_iff _ (Classical.propDecidable _), h⟩
      obtain ⟨g, q', h1, h2, h3, h4, h5⟩ := robustLoop_trace fuel go' (Function.update f (q + 1) c) (q + 1) _ b ms hT' (by
          rw [hgo']
          constructor
          · intro hh t ht
            have : t = q := by omega
            subst this
            rw [hq t le_rfl, hq1]; exact hh
          · intro hh
            have := hh q rfl
            rwa [hq q le_rfl, hq1] at this) (by rw [hq1]; exact h)
      refine ⟨g, q', h1, by omega, by omega, h4, ?_⟩
      rcases h5 with h5 | h5
      · exact Or.inl (by omega)
      · exact Or.inr h5
    · rw [if_neg hg] at h
      simp only [Res.ok.injEq, Prod.mk.injEq] at h
      obtain ⟨rfl, rfl⟩ := h
      refine ⟨f, q, hT, le_rfl, by omega, rfl, Or.inr ?_⟩
      have := mt hgo.2 hg
      push Not at this
      exact this

/-- **C43, the second method step by step.** There are between 2 and 21 fits. The first has all weights 1. Every later one has the robust
weights of the residuals of the fit before it, at the root of their mean square (all weights 0 if that is 0). The iteration goes on
exactly as long as two successive mean squared errors differ by more than 0.00001 of the later one, up to the limit. -/
theorem C43_second_method_steps (fitF : (Fin n → ℝ) → Res (FitAcc n k)) (x : Matrix (Fin n) (Fin k) ℝ) (y : Fin n → ℝ) (b : FitAcc n k)
    (ms : List (Fin n → ℝ)) (h : caliSecond fitF x y = .ok (b, ms)) :
    ∃ (f : ℕ → FitAcc n k) (q : ℕ), 1 ≤ q ∧ q ≤ 20 ∧ f q = b ∧ fitF (fun _ => 1) = .ok (f 0) ∧
      let E := fun t => residualSS x y (f t).betas / n
      (∀ t < q, ∃ mask, fitF mask = .ok (f (t + 1)) ∧
        ∀ i, mask i = if E t = 0 then 0 else robustWeight (Real.sqrt (E t)) (y i - ∑ j, x i j * (f t).betas i j)) ∧
      (∀ t, t + 1 < q → StillMoving (E t) (E (t + 1))) ∧ (q = 20 ∨ ∃ t, t + 1 = q ∧ ¬ StillMoving (E t) (E (t + 1))) := by
  unfold caliSecond at h
  rw [Res.bind_eq_ok'] at h
  obtain ⟨a, ha, h⟩ := h
  obtain ⟨g, q, hT, -, hq, hb, hend⟩ := robustLoop_trace 20 true (fun _ => a) 0 [fun _ => 1] b ms
    ⟨ha, fun t ht => absurd ht (Nat.not_lt_zero t), rfl, fun t ht => absurd ht (Nat.not_lt_zero _)⟩
    ⟨fun _ t ht => by omega, fun _ => rfl⟩ h
  have hres : ∀ (c : FitAcc n k) (i : Fin n), residuals x y c.betas i = y i - ∑ j, x i j * c.betas i j := fun c i => by
    unfold residuals fitted
    congr 1
    exact Finset.sum_congr rfl fun j _ => mul_comm _ _
  have hE : ∀ t, mse (residuals x y (g t).betas) = residualSS x y (g t).betas / n := fun t => by
    unfold mse residualSS
    congr 1
    exact Finset.sum_congr rfl fun i _ => by rw [hres, sq]
  have hE0 : ∀ t, 0 ≤ residualSS x y (g t).betas / n := fun t => by rw [← hE]; exact mse_nonneg _
  refine ⟨g, q, ?_, by omega, hb, hT.zero, fun t ht => ⟨_, hT.succ t ht, fun i => ?_⟩, fun t ht => ?_, ?_⟩
  · rcases hend with h1 | ⟨t, h1, -⟩ <;> omega
  · unfold nextMask
    rw [hE]
    split_ifs with h0
    · simp [filtWeight, h0]
    · rw [filtWeight_eq _ _ (lt_of_le_of_ne (hE0 t) (Ne.symm h0)), hres]
  · have := hT.moving t ht
    rw [hE, hE, goesOn_iff (hE0 _)] at this
    exact this
  · rcases hend with h1 | ⟨t, h1, h2⟩
    · exact Or.inl (by omega)
    · refine Or.inr ⟨t, h1, ?_⟩
      rw [hE, hE, goesOn_iff (hE0 _)] at h2
      exact h2

/-- The refutation applies to ordinary data. -/
example : caliSecond (robustFit exX ![1, 3, 5] exW true) exX ![1, 3, 5] = .throw .singular := by
  refine C43_perfect_fit_fails _ _ _ _ (by norm_num) (by norm_num) (fun i l => (exW_pos i l).le) ![1, 2] ?_
  intro l
  fin_cases l <;> norm_num [exX, Fin.sum_univ_two]

/-- Weights of residuals 0, 2.5 and 4 at mean squared error 1. -/
example : filtWeight (![0, 5 / 2, 4] : Fin 3 → ℝ) 1 = ![1, 9 / 16, 0] := by
  funext i
  fin_cases i
  · simp [filtWeight]
  · norm_num [filtWeight, abs_of_pos]
  · norm_num [filtWeight, abs_of_pos]

theorem robustLoop_converged {fitF : (Fin n → ℝ) → Res (FitAcc n k)} {x : Matrix (Fin n) (Fin k) ℝ} {y : Fin n → ℝ} (fuel : ℕ)
    {a c : FitAcc n k} {m : ℝ} {mask : Fin n → ℝ} {used : List (Fin n → ℝ)} (h : fitF mask = .ok c)
    (hg : ¬ goesOn m (mse (residuals x y c.betas))) :
    robustLoop fitF x y (fuel + 2) true a m mask used = .ok (c, used ++ [mask]) := by
  simp only [robustLoop, if_true, h, Res.bind]
  rw [if_neg]
  exact fun hd => hg (@of_decide_eq_true _ (Classical.propDecidable _) hd)

/-- A run that succeeds: four observations, intercept only. The residuals of the mean are -1, -1, -1 and 3, none beyond two standard
errors, so all weights stay 1 and the second fit ends the iteration. -/
theorem ex_robust : ∃ a, caliSecond (robustFit (Matrix.of fun _ _ => 1 : Matrix (Fin 4) (Fin 1) ℝ) ![0, 0, 0, 4] (fun _ _ => 1) true)
    (Matrix.of fun _ _ => 1) ![0, 0, 0, 4] = .ok (a, [fun _ => 1, fun _ => 1]) := by
  obtain ⟨a, ha⟩ := (C21_fit_succeeds_iff (Matrix.of fun _ _ => 1 : Matrix (Fin 4) (Fin 1) ℝ) ![0, 0, 0, 4] (fun _ _ => 1)
    (fun _ _ => zero_le_one) true false).1.2 (fun i b hb => by
      have := hb 0 one_pos
      simp at this
      funext j; rw [Subsingleton.elim j 0]; simpa using this)
  have hb : ∀ i, a.betas i 0 = 1 := fun i => by
    have := C21_normal_equations _ _ _ _ _ _ _ ha i 0
    simp [Fin.sum_univ_succ] at this
    linarith
  have hr : residuals (Matrix.of fun _ _ => 1 : Matrix (Fin 4) (Fin 1) ℝ) ![0, 0, 0, 4] a.betas = ![-1, -1, -1, 3] := by
    funext i
    fin_cases i <;> simp [residuals, fitted, hb] <;> norm_num
  have hm : mse (![-1, -1, -1, 3] : Fin 4 → ℝ) = 3 := by
    simp [mse, Fin.sum_univ_succ]; norm_num
  have hf : robustFit (Matrix.of fun _ _ => 1 : Matrix (Fin 4) (Fin 1) ℝ) ![0, 0, 0, 4] (fun _ _ => 1) true (fun _ => 1) = .ok a := by
    unfold robustFit
    have : maskedW (fun _ _ => 1) (fun _ => 1) = (fun _ _ => 1 : Fin 4 → Fin 4 → ℝ) := by funext i l; simp [maskedW]
    rw [this, show (fun _ : ℕ => false) = NoStop from rfl, ha]; rfl
  have hs : (3 : ℝ) ≤ 2 * Real.sqrt 3 := by
    have : Real.sqrt 3 ^ 2 = 3 := Real.sq_sqrt (by norm_num)
    nlinarith [Real.sqrt_nonneg 3]
  have hw : filtWeight (![-1, -1, -1, 3] : Fin 4 → ℝ) 3 = fun _ => 1 := by
    funext i
    refine (C43_weight_function _ 3 (by norm_num)).2.1 i ?_
    fin_cases i <;> simp <;> linarith
  refine ⟨a, ?_⟩
  unfold caliSecond
  rw [hf]
  simp only [Res.bind, hr, hm, hw]
  have : ¬ goesOn 3 3 := by rw [goesOn_iff (by norm_num)]; norm_num [StillMoving]
  rw [robustLoop_converged 18 hf (by rw [hr, hm]; exact this)]
  rfl

end Verif.Props

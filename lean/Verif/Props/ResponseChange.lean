import Verif.Spec.ResponseChange
import Verif.Props.ModesAgreeMore

/-! # C139: robust, space-time and density regression follow the unit of the response and known linear effects -/

namespace Verif.Props
open Verif Verif.Model Verif.Spec Matrix Classical

variable {n k d : ℕ}

/-! ### One fit -/

theorem changed_eq (x : Matrix (Fin n) (Fin k) ℝ) (a : ℝ) (γ : Fin k → ℝ) (y : Fin n → ℝ) : changedResponse x a γ y = a • y + x *ᵥ γ := by
  funext i
  simp [changedResponse, mulVec, dotProduct]

theorem solve_changed {x : Matrix (Fin n) (Fin k) ℝ} {w : Fin n → ℝ} (h : (xtwx x w).PosDef) (a : ℝ) (γ : Fin k → ℝ) (y : Fin n → ℝ) :
    (xtwx x w)⁻¹ *ᵥ (xtw x w *ᵥ changedResponse x a γ y) = a • ((xtwx x w)⁻¹ *ᵥ (xtw x w *ᵥ y)) + γ := by
  have hu : IsUnit (xtwx x w).det := (Matrix.isUnit_iff_isUnit_det _).1 h.isUnit
  rw [changed_eq, mulVec_add, mulVec_add, mulVec_smul, mulVec_smul]
  congr 1
  rw [mulVec_mulVec, mulVec_mulVec, Matrix.mul_assoc, show xtw x w * x = xtwx x w from rfl, nonsing_inv_mul _ hu, one_mulVec]

/-- Two fits that differ by a change of the response. -/
def ChangedAcc (a : ℝ) (γ : Fin k → ℝ) (u v : FitAcc n k) : Prop :=
  (∀ i j, v.betas i j = a * u.betas i j + γ j) ∧ v.se = u.se ∧ v.shat = u.shat ∧ v.qdiag = u.qdiag

theorem core_changed {x : Matrix (Fin n) (Fin k) ℝ} {y : Fin n → ℝ} {W : Fin n → Fin n → ℝ} {sS sC : Bool} {ex ex' : Exec n} (hex : ex.Valid)
    (hex' : ex'.Valid) (a : ℝ) (γ : Fin k → ℝ) {u : FitAcc n k} (h : gwrCoreEx x y W sS sC ex = .ok u) :
    ∃ v, gwrCoreEx x (changedResponse x a γ y) W sS sC ex' = .ok v ∧ ChangedAcc a γ u v := by
  obtain ⟨u0, h0, e1, e2, e3, e4, -⟩ := core_serial_of hex h
  obtain ⟨hp, cu⟩ := fitCoreSerial_ok h0
  have h1 : fitCoreSerial x (changedResponse x a γ y) W 0 n sS sC NoStop = _ :=
    serialFor_ok (fitAt x (changedResponse x a γ y) W) _ 0 _ (fun _ _ => rfl) fun i _ => localFit_fitAt (hp i (Nat.zero_le _) i.isLt)
  obtain ⟨-, cv⟩ := fitCoreSerial_ok h1
  obtain ⟨v, hv, f1, f2, f3, f4, -⟩ := core_of_serial hex' h1
  refine ⟨v, hv, fun i j => ?_, ?_, ?_, ?_⟩
  · rw [f1, e1, cv.betas i (Nat.zero_le _) i.isLt, cu.betas i (Nat.zero_le _) i.isLt]
    simp only [fitAt]
    rw [solve_changed (hp i (Nat.zero_le _) i.isLt)]
    simp
  · rw [f2, e2]
    funext i
    rw [cv.se i (Nat.zero_le _) i.isLt, cu.se i (Nat.zero_le _) i.isLt]
    rfl
  · rw [f3, e3, cv.shat, cu.shat]; rfl
  · rw [f4, e4, cv.qdiag, cu.qdiag]; rfl

theorem residual_changed {x : Matrix (Fin n) (Fin k) ℝ} {y : Fin n → ℝ} {a : ℝ} {γ : Fin k → ℝ} {B B' : Matrix (Fin n) (Fin k) ℝ}
    (hB : ∀ i j, B' i j = a * B i j + γ j) (i : Fin n) : changedResponse x a γ y i - fitted x B' i = a * (y i - fitted x B i) := by
  unfold changedResponse fitted
  simp only [hB, add_mul, Finset.sum_add_distrib, mul_assoc, ← Finset.mul_sum]
  have : ∑ j, γ j * x i j = ∑ j, x i j * γ j := Finset.sum_congr rfl fun j _ => mul_comm _ _
  rw [this]
  ring

theorem rss_changed {x : Matrix (Fin n) (Fin k) ℝ} {y : Fin n → ℝ} {a : ℝ} {γ : Fin k → ℝ} {B B' : Matrix (Fin n) (Fin k) ℝ}
    (hB : ∀ i j, B' i j = a * B i j + γ j) : rss x (changedResponse x a γ y) B' = a ^ 2 * rss x y B := by
  unfold rss
  rw [Finset.mul_sum]
  refine Finset.sum_congr rfl fun i _ => ?_
  rw [residual_changed hB]
  ring

theorem total_changed {x : Matrix (Fin n) (Fin k) ℝ} {y : Fin n → ℝ} {a : ℝ} {γ : Fin k → ℝ} {c : ℝ} (hc : ∀ i, ∑ j, x i j * γ j = c) :
    ∑ i, (changedResponse x a γ y i - meanVec (changedResponse x a γ y)) * (changedResponse x a γ y i - meanVec (changedResponse x a γ y)) =
      a ^ 2 * ∑ i, (y i - meanVec y) * (y i - meanVec y) := by
  rcases Nat.eq_zero_or_pos n with rfl | hn
  · simp
  have hm : meanVec (changedResponse x a γ y) = a * meanVec y + c := by
    have hn' : (n : ℝ) ≠ 0 := by exact_mod_cast hn.ne'
    unfold meanVec changedResponse
    simp only [hc, Finset.sum_add_distrib, ← Finset.mul_sum, Finset.sum_const, Finset.card_univ, Fintype.card_fin, nsmul_eq_mul]
    field_simp
  rw [Finset.mul_sum]
  refine Finset.sum_congr rfl fun i _ => ?_
  rw [hm]
  simp only [changedResponse, hc]
  ring

theorem fdiv_scale {c : ℝ} (hc : c ≠ 0) (p q : ℝ) : fdiv (c * p) (c * q) = fdiv p q := by
  unfold fdiv
  by_cases hq : q = 0
  · simp [hq]
  · rw [if_neg (mul_ne_zero hc hq), if_neg hq, mul_div_mul_left _ _ hc]

theorem fdiv_ok_iff {p q v : ℝ} (h : fdiv p q = .ok v) : q ≠ 0 ∧ v = p / q := by
  unfold fdiv at h
  split at h
  · cases h
  · rename_i hq; exact ⟨hq, (Res.ok.inj h).symm⟩

theorem flog_ok_pos {p v : ℝ} (h : flog p = .ok v) : 0 < p ∧ v = Real.log p := by
  unfold flog at h
  split at h
  · cases h
  · rename_i hq; exact ⟨not_le.1 hq, (Res.ok.inj h).symm⟩

theorem flog_scale {a r l : ℝ} (ha : a ≠ 0) (hn : (n : ℝ) ≠ 0) (h : flog (r / n) = .ok l) : flog (a ^ 2 * r / n) = .ok (l + Real.log (a ^ 2)) := by
  obtain ⟨hp, rfl⟩ := flog_ok_pos h
  have h2 : 0 < a ^ 2 := by positivity
  unfold flog
  rw [mul_div_assoc, if_neg (not_le.2 (mul_pos h2 hp)), Real.log_mul h2.ne' hp.ne', add_comm]

theorem follows_of {x : Matrix (Fin n) (Fin k) ℝ} {y : Fin n → ℝ} {a : ℝ} (ha : a ≠ 0) {γ : Fin k → ℝ} {u v : FitAcc n k} (h : ChangedAcc a γ u v) :
    FollowsResponse x a γ u.betas v.betas (calcDiagnostic x y u.betas u.shat) (calcDiagnostic x (changedResponse x a γ y) v.betas v.shat)
      (betasSE x y u) (betasSE x (changedResponse x a γ y) v) := by
  obtain ⟨hB, hse, hsh, -⟩ := h
  have h2 : a ^ 2 ≠ 0 := pow_ne_zero _ ha
  have hR := rss_changed (x := x) (y := y) hB
  refine ⟨hB, hR, by simp only [calcDiagnostic, hsh], by simp only [calcDiagnostic, hsh], fun w hw => ?_, fun w hw => ?_, fun ⟨c, hc⟩ => ?_,
    fun i j w hw => ?_⟩
  · simp only [calcDiagnostic] at hw ⊢
    obtain ⟨q, hq, hw1⟩ := Res.bind_eq_ok'.1 hw
    obtain ⟨l, hl, hw2⟩ := Res.bind_eq_ok'.1 hw1
    obtain ⟨hn, e⟩ := fdiv_ok_iff hq
    rw [e] at hl
    rw [← Res.ok.inj hw2]
    rw [hR, show fdiv (a ^ 2 * rss x y u.betas) n = .ok (a ^ 2 * rss x y u.betas / n) from if_neg hn]
    simp only [Res.bind, flog_scale ha hn hl, hsh]
    congr 1; ring
  · simp only [calcDiagnostic] at hw ⊢
    obtain ⟨q, hq, hw1⟩ := Res.bind_eq_ok'.1 hw
    obtain ⟨l, hl, hw2⟩ := Res.bind_eq_ok'.1 hw1
    obtain ⟨f, hf, hw3⟩ := Res.bind_eq_ok'.1 hw2
    obtain ⟨hn, e⟩ := fdiv_ok_iff hq
    rw [e] at hl
    rw [← Res.ok.inj hw3]
    rw [hR, show fdiv (a ^ 2 * rss x y u.betas) n = .ok (a ^ 2 * rss x y u.betas / n) from if_neg hn]
    simp only [Res.bind, flog_scale ha hn hl, hsh, hf]
    congr 1; ring
  · simp only [calcDiagnostic, hR, total_changed hc, fdiv_scale h2, hsh, and_self]
  · unfold betasSE at hw ⊢
    obtain ⟨s, hs, hw⟩ := Res.bind_eq_ok'.1 hw
    obtain ⟨hd, rfl⟩ := fdiv_ok_iff hs
    rw [hR, hsh, hse, show fdiv (a ^ 2 * rss x y u.betas) (n - 2 * u.shat 0 + u.shat 1) = .ok (a ^ 2 * rss x y u.betas / (n - 2 * u.shat 0 + u.shat 1))
      from if_neg hd]
    simp only [Res.bind]
    unfold fsqrt at hw ⊢
    split at hw
    · cases hw
    rename_i hs
    cases Res.ok.inj hw
    rw [mul_div_assoc, mul_assoc, if_neg (not_lt.2 (mul_nonneg (sq_nonneg a) (not_lt.1 hs))), Real.sqrt_mul (sq_nonneg a), Real.sqrt_sq_eq_abs]

/-! ### Robust regression -/

theorem filt_changed {a : ℝ} (ha : a ≠ 0) (r : Fin n → ℝ) (m : ℝ) : filtWeight (fun i => a * r i) (a ^ 2 * m) = filtWeight r m := by
  have h2 : a ^ 2 ≠ 0 := pow_ne_zero _ ha
  have e : ∀ i, |a * r i / Real.sqrt (a ^ 2 * m)| = |r i / Real.sqrt m| := by
    intro i
    rw [Real.sqrt_mul (sq_nonneg a), Real.sqrt_sq_eq_abs, abs_div, abs_div, abs_mul, abs_mul, abs_abs, mul_div_mul_left _ _ (abs_ne_zero.2 ha)]
  funext i
  unfold filtWeight
  simp only [e, mul_eq_zero, h2, false_or]

theorem mse_changed (a : ℝ) (r : Fin n → ℝ) : mse (fun i => a * r i) = a ^ 2 * mse r := by
  unfold mse
  rw [← mul_div_assoc, Finset.mul_sum]
  congr 1
  exact Finset.sum_congr rfl fun i _ => by ring

theorem goesOn_changed {a : ℝ} (ha : a ≠ 0) (o m : ℝ) : goesOn (a ^ 2 * o) (a ^ 2 * m) ↔ goesOn o m := by
  have h2 : a ^ 2 ≠ 0 := pow_ne_zero _ ha
  unfold goesOn
  by_cases hm : m = 0
  · simp [hm, h2]
  · rw [if_neg (mul_ne_zero h2 hm), if_neg hm, ← mul_sub, abs_mul, abs_of_nonneg (sq_nonneg a), mul_div_mul_left _ _ h2]

theorem outlying_changed {a : ℝ} (ha : a ≠ 0) (p den q r : ℝ) : outlying (a ^ 2 * p) den q (a * r) ↔ outlying p den q r := by
  have h2 : 0 < a ^ 2 := by positivity
  have e : a ^ 2 * p / den * q = a ^ 2 * (p / den * q) := by ring
  have e2 : |a * r / Real.sqrt (a ^ 2 * (p / den * q))| = |r / Real.sqrt (p / den * q)| := by
    rw [Real.sqrt_mul (sq_nonneg a), Real.sqrt_sq_eq_abs, abs_div, abs_div, abs_mul, abs_mul, abs_abs, mul_div_mul_left _ _ (abs_ne_zero.2 ha)]
  unfold outlying
  rw [e, e2, mul_nonneg_iff_of_pos_left h2, mul_pos_iff_of_pos_left h2, mul_eq_zero_iff_left h2.ne', mul_ne_zero_iff]
  simp only [ne_eq, ha, not_false_eq_true, true_and]

theorem residuals_changed {x : Matrix (Fin n) (Fin k) ℝ} {y : Fin n → ℝ} {a : ℝ} {γ : Fin k → ℝ} {u v : FitAcc n k} (h : ChangedAcc a γ u v) :
    residuals x (changedResponse x a γ y) v.betas = fun i => a * residuals x y u.betas i :=
  funext fun i => residual_changed h.1 i

theorem robustLoop_changed {x : Matrix (Fin n) (Fin k) ℝ} {y : Fin n → ℝ} {a : ℝ} (ha : a ≠ 0) {γ : Fin k → ℝ}
    {F F' : (Fin n → ℝ) → Res (FitAcc n k)} (hF : ∀ mask u, F mask = .ok u → ∃ v, F' mask = .ok v ∧ ChangedAcc a γ u v) :
    ∀ (fuel : ℕ) (go : Bool) (u v : FitAcc n k) (m : ℝ) (mask : Fin n → ℝ) (used : List (Fin n → ℝ)) (r : FitAcc n k × List (Fin n → ℝ)),
    ChangedAcc a γ u v → robustLoop F x y fuel go u m mask used = .ok r →
    ∃ r', robustLoop F' x (changedResponse x a γ y) fuel go v (a ^ 2 * m) mask used = .ok r' ∧ ChangedAcc a γ r.1 r'.1 ∧ r'.2 = r.2
  | 0, _, u, v, _, _, used, r, hs, h => by rw [robustLoop] at h ⊢; cases Res.ok.inj h; exact ⟨_, rfl, hs, rfl⟩
  | fuel + 1, go, u, v, m, mask, used, r, hs, h => by
    rw [robustLoop] at h ⊢
    split at h
    · rename_i hg
      rw [if_pos hg]
      obtain ⟨b, hb, h⟩ := Res.bind_eq_ok'.1 h
      obtain ⟨b', hb', hsb⟩ := hF mask b hb
      rw [hb']
      simp only [Res.bind, residuals_changed hsb, mse_changed, goesOn_changed ha, filt_changed ha]
      exact robustLoop_changed ha hF fuel _ b b' _ _ _ r hsb h
    · rename_i hg
      rw [if_neg hg]
      cases Res.ok.inj h
      exact ⟨_, rfl, hs, rfl⟩

theorem robustCali_changed {filtered : Bool} {sched sched' : (Fin n → ℝ) → Exec n} (hs : ∀ mask, (sched mask).Valid)
    (hs' : ∀ mask, (sched' mask).Valid) {x : Matrix (Fin n) (Fin k) ℝ} {y : Fin n → ℝ} {W : Fin n → Fin n → ℝ} {sS : Bool} {a : ℝ} (ha : a ≠ 0)
    (γ : Fin k → ℝ) {r : FitAcc n k × List (Fin n → ℝ)} (h : robustCali filtered sched x y W sS = .ok r) :
    ∃ r', robustCali filtered sched' x (changedResponse x a γ y) W sS = .ok r' ∧ ChangedAcc a γ r.1 r'.1 ∧ r'.2 = r.2 := by
  have hF : ∀ mask u, robustFitEx x y W sS mask (sched mask) = .ok u →
      ∃ v, robustFitEx x (changedResponse x a γ y) W sS mask (sched' mask) = .ok v ∧ ChangedAcc a γ u v := by
    intro mask u hu
    have e : ∀ (y : Fin n → ℝ) (ex : Exec n), robustFitEx x y W sS mask ex = gwrCoreEx x y (maskedW W mask) sS false ex := by intro y ex; cases ex <;> rfl
    rw [e] at hu
    obtain ⟨v, hv, hc⟩ := core_changed (hs mask) (hs' mask) a γ hu
    exact ⟨v, by rw [e, hv], hc⟩
  unfold robustCali at h ⊢
  split at h
  · rename_i hf
    rw [if_pos hf]
    unfold caliFirst at h ⊢
    obtain ⟨u, hu, h⟩ := Res.bind_eq_ok'.1 h
    obtain ⟨w, hw, h⟩ := Res.bind_eq_ok'.1 h
    cases Res.ok.inj h
    obtain ⟨u', hu', su⟩ := hF _ u hu
    have em : outlierMask x (changedResponse x a γ y) u' = outlierMask x y u := by
      funext i
      unfold outlierMask
      rw [residuals_changed su, rss_changed su.1, su.2.2.1, su.2.2.2]
      simp only [outlying_changed ha]
    obtain ⟨w', hw', sw⟩ := hF _ w hw
    simp only [hu', Res.bind, em, hw']
    exact ⟨_, rfl, sw, rfl⟩
  · rename_i hf
    rw [if_neg hf]
    unfold caliSecond at h ⊢
    obtain ⟨u, hu, h⟩ := Res.bind_eq_ok'.1 h
    obtain ⟨u', hu', su⟩ := hF _ u hu
    simp only [hu', Res.bind, residuals_changed su, mse_changed, filt_changed ha]
    exact robustLoop_changed ha hF 20 _ u u' _ _ _ r su h

/-- **C139 (robust regression).** With a given bandwidth, either method, in any mode: measuring the response in another unit and adding a known linear
effect of the predictors changes the coefficients by exactly this, scales the residuals and standard errors, and leaves everything without unit as it
was. In particular the same observations are treated as outliers. -/
theorem C139_robust (filtered : Bool) (sched sched' : (Fin n → ℝ) → Exec n) (hs : ∀ mask, (sched mask).Valid) (hs' : ∀ mask, (sched' mask).Valid)
    (d : CRSDistance) (b : BandwidthWeight) (coords : DynMat) (x : Matrix (Fin n) (Fin k) ℝ) (y : Fin n → ℝ) (sS : Bool) (a : ℝ) (ha : a ≠ 0)
    (γ : Fin k → ℝ) (r : RobustResult n k) (h : robustRun filtered sched d b coords x y sS = .ok r) :
    ∃ r', robustRun filtered sched' d b coords x (fun i => a * y i + ∑ j, x i j * γ j) sS = .ok r' ∧ r'.weight = r.weight ∧
      FollowsResponse x a γ r.betas r'.betas r.diagnostic r'.diagnostic r.se r'.se := by
  unfold robustRun robustFinish at h ⊢
  obtain ⟨d', hd, h⟩ := Res.bind_eq_ok'.1 h
  obtain ⟨W, hW, h⟩ := Res.bind_eq_ok'.1 h
  obtain ⟨u, hu, h⟩ := Res.bind_eq_ok'.1 h
  obtain ⟨v, hv, hc, -⟩ := robustCali_changed hs hs' ha γ hu
  cases Res.ok.inj h
  rw [hd]
  simp only [Res.bind, hW]
  rw [show (fun i => a * y i + ∑ j, x i j * γ j) = changedResponse x a γ y from rfl, hv]
  exact ⟨_, rfl, rfl, follows_of ha hc⟩

/-! ### Space-time regression -/

theorem serialFor_alike {ι ρ σ : Type} {g g' : ι → Res ρ} {upd : ι → ρ → σ → σ}
    (h : ∀ i, (∃ r r', g i = .ok r ∧ g' i = .ok r') ∨ ∃ e, g i = .throw e ∧ g' i = .throw e) : ∀ (is : List ι) (p : ℕ) (s s' : σ),
    (∃ q q', serialFor g upd NoStop is p s = .ok (q, false) ∧ serialFor g' upd NoStop is p s' = .ok (q', false)) ∨
      ∃ e, serialFor g upd NoStop is p s = .throw e ∧ serialFor g' upd NoStop is p s' = .throw e
  | [], _, s, s' => .inl ⟨s, s', rfl, rfl⟩
  | i :: is, p, s, s' => by
    have hstop : ¬ NoStop p = true := by simp [NoStop]
    rw [serialFor, serialFor, if_neg hstop, if_neg hstop]
    rcases h i with ⟨r, r', h1, h2⟩ | ⟨e, h1, h2⟩
    · rw [h1, h2]; exact serialFor_alike h is (p + 1) _ _
    · rw [h1, h2]; exact .inr ⟨e, rfl, rfl⟩

theorem predict_changed (x : Matrix (Fin n) (Fin k) ℝ) (y : Fin n → ℝ) (W : Fin n → Fin n → ℝ) (a : ℝ) (γ : Fin k → ℝ) :
    (∃ B B', predictSerial x y W NoStop = .ok (B, false) ∧ predictSerial x (changedResponse x a γ y) W NoStop = .ok (B', false) ∧
      ∀ i j, B' i j = a * B i j + γ j) ∨
    ∃ e, predictSerial x y W NoStop = .throw e ∧ predictSerial x (changedResponse x a γ y) W NoStop = .throw e := by
  have hl : ∀ (y : Fin n → ℝ) i, (xtwx x (W i)).PosDef → localBeta x y (W i) = .ok ((xtwx x (W i))⁻¹ *ᵥ (xtw x (W i) *ᵥ y)) := by
    intro y i hp
    unfold localBeta invSympd
    rw [if_pos hp, Res.bind]
  have hl' : ∀ (y : Fin n → ℝ) i, ¬ (xtwx x (W i)).PosDef → localBeta x y (W i) = .throw .singular := by
    intro y i hp
    unfold localBeta invSympd
    rw [if_neg hp, Res.bind]
  have hset : ∀ (r : Fin n → Fin k → ℝ), ((List.finRange n).foldl (fun s i => setRow i (r i) s) (0 : Matrix (Fin n) (Fin k) ℝ)) = r := by
    intro r
    have : ∀ (l : List (Fin n)) (s : Matrix (Fin n) (Fin k) ℝ) (i : Fin n), i ∈ l ∨ s i = r i → (l.foldl (fun s i => setRow i (r i) s) s) i = r i := by
      intro l
      induction l with
      | nil => intro s i h; simpa using h
      | cons j l ih =>
        intro s i h
        rw [List.foldl_cons]
        refine ih _ i ?_
        by_cases hj : i = j
        · right; subst hj; exact Function.update_self ..
        · rcases h with h | h
          · rcases List.mem_cons.1 h with h | h
            · exact absurd h hj
            · exact .inl h
          · right; exact (Function.update_of_ne hj ..).trans h
    funext i
    exact this _ _ i (.inl (List.mem_finRange i))
  by_cases hall : ∀ i, (xtwx x (W i)).PosDef
  · left
    have e : ∀ y : Fin n → ℝ, predictSerial x y W NoStop = .ok (fun i => (xtwx x (W i))⁻¹ *ᵥ (xtw x (W i) *ᵥ y), false) := by
      intro y
      have := serialFor_ok (g := fun i => localBeta x y (W i)) (upd := setRow) (stop := NoStop) (fun i => (xtwx x (W i))⁻¹ *ᵥ (xtw x (W i) *ᵥ y))
        (List.finRange n) 0 (0 : Matrix (Fin n) (Fin k) ℝ) (fun _ _ => rfl) fun i _ => hl y i (hall i)
      rw [hset] at this
      exact this
    refine ⟨_, _, e y, e _, fun i j => ?_⟩
    have := congrFun (solve_changed (hall i) a γ y) j
    simpa using this
  · right
    have hsame : ∀ i, (∃ r r', localBeta x y (W i) = .ok r ∧ localBeta x (changedResponse x a γ y) (W i) = .ok r') ∨
        ∃ e, localBeta x y (W i) = .throw e ∧ localBeta x (changedResponse x a γ y) (W i) = .throw e := by
      intro i
      by_cases hp : (xtwx x (W i)).PosDef
      · exact .inl ⟨_, _, hl y i hp, hl _ i hp⟩
      · exact .inr ⟨_, hl' y i hp, hl' _ i hp⟩
    rcases serialFor_alike (upd := setRow) hsame (List.finRange n) 0 (0 : Matrix (Fin n) (Fin k) ℝ) 0 with ⟨q, q', h1, -⟩ | h
    · push Not at hall
      obtain ⟨i, hi⟩ := hall
      obtain ⟨r, hr⟩ := serialFor_complete _ _ _ _ h1 i (List.mem_finRange i)
      rw [hl' y i hi] at hr
      cases hr
    · exact h

theorem rsquare_changed (d : CRSSTDistance) (b : BandwidthWeight) (coords : DynMat) (times : List ℝ) (x : Matrix (Fin n) (Fin k) ℝ) (y : Fin n → ℝ)
    {a : ℝ} (ha : a ≠ 0) {γ : Fin k → ℝ} {c : ℝ} (hc : ∀ i, ∑ j, x i j * γ j = c) (l : ℝ) :
    rsquareByLambda d b coords times x (changedResponse x a γ y) NoStop l = rsquareByLambda d b coords times x y NoStop l := by
  unfold rsquareByLambda
  split <;> try rfl
  congr 1; funext d'
  congr 1; funext W
  rcases predict_changed x y W a γ with ⟨B, B', h1, h2, hB⟩ | ⟨e, h1, h2⟩
  · rw [h1, h2]
    simp only [Res.bind, Bool.false_eq_true, if_false, rss_changed hB, total_changed hc, fdiv_scale (pow_ne_zero 2 ha)]
  · rw [h1, h2]; rfl

/-- **C139 (space-time regression).** With a given bandwidth and, if the effect is the same everywhere, also with automatic selection of λ, in any mode:
the same λ is used, coefficients follow the change of the response, and everything without unit stays as it was. -/
theorem C139_spacetime (autoLambda : Bool) (ex ex' : Exec n) (hex : ex.Valid) (hex' : ex'.Valid) (d : CRSSTDistance) (b : BandwidthWeight)
    (coords : DynMat) (times : List ℝ) (x : Matrix (Fin n) (Fin k) ℝ) (y : Fin n → ℝ) (sS : Bool) (a : ℝ) (ha : a ≠ 0) (γ : Fin k → ℝ)
    (hγ : autoLambda = true → ∃ c, ∀ i, ∑ j, x i j * γ j = c) (l : ℝ) (g : GWRReport n k)
    (h : gtwrRunEx none autoLambda ex d b coords times x y sS = .ok (l, g)) :
    ∃ g', gtwrRunEx none autoLambda ex' d b coords times x (fun i => a * y i + ∑ j, x i j * γ j) sS = .ok (l, g') ∧ g'.weight = g.weight ∧
      FollowsResponse x a γ g.betas g'.betas g.diagnostic g'.diagnostic g.se g'.se := by
  rw [show (fun i => a * y i + ∑ j, x i j * γ j) = changedResponse x a γ y from rfl]
  unfold gtwrRunEx at h ⊢
  obtain ⟨d', hd', h⟩ := Res.bind_eq_ok'.1 h
  rw [hd']
  simp only [Res.bind] at h ⊢
  unfold gtwrFinishLambda at h ⊢
  obtain ⟨l', hl, h⟩ := Res.bind_eq_ok'.1 h
  have hl' : gtwrLambda autoLambda d b coords times x (changedResponse x a γ y) = .ok l' := by
    rw [← hl]
    unfold gtwrLambda
    split
    · rename_i hauto
      obtain ⟨c, hc⟩ := hγ hauto
      congr 2
      funext _ l
      exact rsquare_changed d b coords times x y ha hc l
    · rfl
  rw [hl']
  simp only [Res.bind] at h ⊢
  revert h
  generalize (if autoLambda = true then d.setLambda l' else (d, .ok ())) = p
  obtain ⟨d1, r⟩ := p
  cases r with
  | ok _ =>
    intro h
    cases h2 : gtwrBind d1 coords times with
    | ok d2 =>
      simp only [h2] at h ⊢
      cases h3 : gtwrFinish ex d2 b x y sS with
      | ok g1 =>
        simp only [h3, Res.ok.injEq, Prod.mk.injEq] at h
        obtain ⟨rfl, rfl⟩ := h
        unfold gtwrFinish at h3 ⊢
        obtain ⟨W, hW, h3⟩ := Res.bind_eq_ok'.1 h3
        have hW' : stWeightRows d2 b n n = .ok W := by
          cases ex <;> cases hw : stWeightRows d2 b n n <;> rw [hw] at hW <;> simp_all [summaryEscape]
        obtain ⟨u, hu, h3⟩ := Res.bind_eq_ok'.1 h3
        obtain ⟨v, hv, hcv⟩ := core_changed hex hex' a γ hu
        cases Res.ok.inj h3
        have hs : summaryEscape ex' (.ok W) = .ok W := by cases ex' <;> rfl
        rw [hW', hs]
        simp only [Res.bind, hv]
        exact ⟨_, rfl, rfl, follows_of ha hcv⟩
      | _ => simp [h3] at h
    | _ => simp [h2] at h
  | _ => intro h; simp at h

/-! ### Density regression -/

/-- **C139 (density regression).** If the serial run of the original data completes with given bandwidths, so does the run of the changed data in any
mode, and follows the change. The second part is about selected bandwidths; there the two runs are given the same answers `gsl` of the external minimiser,
which is an assumption about it (its objective does depend on the response). -/
theorem C139_density (gsl : (Fin d → ℝ) → SimplexTrace d) (eps : ℝ) (maxIter : ℕ) (ex : Exec n) (hex : ex.Valid) (bws : Fin d → BandwidthWeight)
    (coords : Matrix (Fin n) (Fin d) ℝ) (x : Matrix (Fin n) (Fin k) ℝ) (y : Fin n → ℝ) (sS : Bool) (a : ℝ) (ha : a ≠ 0) (γ : Fin k → ℝ)
    (r : GWDRResult n k d) :
    (gwdrRun .serial bws coords x y sS = .ok r → ∃ r', gwdrRun ex bws coords x (fun i => a * y i + ∑ j, x i j * γ j) sS = .ok r' ∧
      r'.weights = r.weights ∧ FollowsResponse x a γ r.betas r'.betas r.diagnostic r'.diagnostic r.se r'.se) ∧
    (gwdrAutoRun gsl eps maxIter .serial bws coords x y sS = .ok r →
      ∃ r', gwdrAutoRun gsl eps maxIter ex bws coords x (fun i => a * y i + ∑ j, x i j * γ j) sS = .ok r' ∧
      r'.weights = r.weights ∧ FollowsResponse x a γ r.betas r'.betas r.diagnostic r'.diagnostic r.se r'.se) := by
  rw [show (fun i => a * y i + ∑ j, x i j * γ j) = changedResponse x a γ y from rfl]
  have key : ∀ bws, gwdrFinish .serial bws coords x y sS = .ok r → ∃ r', gwdrFinish ex bws coords x (changedResponse x a γ y) sS = .ok r' ∧
      r'.weights = r.weights ∧ FollowsResponse x a γ r.betas r'.betas r.diagnostic r'.diagnostic r.se r'.se := by
    intro bws h
    suffices hser : ∃ r', gwdrFinish .serial bws coords x (changedResponse x a γ y) sS = .ok r' ∧
        r'.weights = r.weights ∧ FollowsResponse x a γ r.betas r'.betas r.diagnostic r'.diagnostic r.se r'.se by
      obtain ⟨r', h1, h2⟩ := hser
      exact ⟨r', gwdrFinish_same h1 hex, h2⟩
    unfold gwdrFinish at h ⊢
    obtain ⟨D, hD, h⟩ := Res.bind_eq_ok'.1 h
    obtain ⟨u, hu, h⟩ := Res.bind_eq_ok'.1 h
    cases Res.ok.inj h
    rw [hD]
    obtain ⟨w, hw, rfl⟩ := gwdrWeights_ok.1 (gwdrEscape_ok.1 hD)
    have hD0 : ∀ i, ∀ u ∈ (fun i => List.ofFn fun m => w m i : Fin n → List (Fin n → ℝ)) i, ∀ l, 0 ≤ u l := by
      intro i u hu l
      obtain ⟨m, rfl⟩ := List.mem_ofFn.1 hu
      exact weight_nonneg _ _ _ (fun _ => abs_nonneg _) (hw m i) l
    have e : ∀ y : Fin n → ℝ, gwdrFitEx x y (fun i => List.ofFn fun m => w m i) sS .serial =
        gwrCoreEx x y (fun i l => (((fun i => List.ofFn fun m => w m i : Fin n → List (Fin n → ℝ)) i).map fun w => w l).prod) sS false .serial := by
      intro y
      show (gwdrFitSerial x y (fun i => List.ofFn fun m => w m i) sS NoStop).bind (fun p => Res.ok p.1) = _
      rw [C54_fit_is_gwr x y _ hD0]
      rfl
    rw [e] at hu
    obtain ⟨v, hv, hc⟩ := core_changed (ex := .serial) (ex' := .serial) trivial trivial a γ hu
    simp only [Res.bind, e, hv]
    exact ⟨_, rfl, rfl, follows_of ha hc⟩
  refine ⟨key bws, fun h => ?_⟩
  unfold gwdrAutoRun at h ⊢
  obtain ⟨b, hb, h⟩ := Res.bind_eq_ok'.1 h
  rw [hb]
  exact key b h

/-! ### Concrete cases -/

/-- C139, robust: eleven places with one outlier, measured in thousandths, turned round and raised by 7; one run serial, the other with two threads. -/
example (filtered : Bool) : ∃ r r', robustRun filtered (fun _ => .serial) (CRSDistance.new false) ⟨(11 : ℕ), false, .Boxcar⟩ (linePoints 11) (ones 11)
      (Pi.single 3 1) true = .ok r ∧
    robustRun filtered (fun _ => moreThreads 11) (CRSDistance.new false) ⟨(11 : ℕ), false, .Boxcar⟩ (linePoints 11) (ones 11)
      (fun i => (-1000) * (Pi.single 3 1 : Fin 11 → ℝ) i + ∑ j, ones 11 i j * 7) true = .ok r' ∧
    FollowsResponse (ones 11) (-1000) (fun _ => 7) r.betas r'.betas r.diagnostic r'.diagnostic r.se r'.se := by
  obtain ⟨r, -, h, -⟩ := C111_predict_at_data_fails (n := 11) le_rfl 3 filtered true
  obtain ⟨r', h', -, hf⟩ := C139_robust filtered (fun _ => .serial) (fun _ => moreThreads 11) (fun _ => trivial) (fun _ => moreThreads_valid) _ _ _ _ _ _
    (-1000) (by norm_num) (fun _ => 7) r h
  exact ⟨r, r', h, h', hf⟩

/-- C139, space-time: two places, λ selected. -/
example : ∃ l g g', gtwrRunEx none true .serial (exST (1 / 2)) ⟨1, false, .Gaussian⟩ unitPair (List.ofFn fun _ : Fin 2 => 0) (ones 2) ![0, 1] true =
      .ok (l, g) ∧
    gtwrRunEx none true (moreThreads 2) (exST (1 / 2)) ⟨1, false, .Gaussian⟩ unitPair (List.ofFn fun _ : Fin 2 => 0) (ones 2)
      (fun i => (-1000) * (![0, 1] : Fin 2 → ℝ) i + ∑ j, ones 2 i j * 7) true = .ok (l, g') ∧
    FollowsResponse (ones 2) (-1000) (fun _ => 7) g.betas g'.betas g.diagnostic g'.diagnostic g.se g'.se := by
  obtain ⟨-, -, l, g, h, -⟩ := ex_lambdaRun
  obtain ⟨g', h', -, hf⟩ := C139_spacetime true .serial (moreThreads 2) trivial moreThreads_valid _ _ _ _ _ _ _ (-1000) (by norm_num) (fun _ => 7)
    (fun _ => ⟨7, fun i => by simp [ones]⟩) l g h
  exact ⟨l, g, g', h, h', hf⟩

/-- C139, density: two dimensions, five observations, bandwidths from the minimiser. -/
example (coords : Matrix (Fin 5) (Fin 2) ℝ) (y : Fin 5 → ℝ) :
    ∃ r r', gwdrAutoRun tameGsl 1 1 .serial ![⟨2, false, .Gaussian⟩, ⟨3, false, .Boxcar⟩] coords (ones 5) y true = .ok r ∧
      gwdrAutoRun tameGsl 1 1 (moreThreads 5) ![⟨2, false, .Gaussian⟩, ⟨3, false, .Boxcar⟩] coords (ones 5)
        (fun i => (-1000) * y i + ∑ j, ones 5 i j * 7) true = .ok r' ∧
      FollowsResponse (ones 5) (-1000) (fun _ => 7) r.betas r'.betas r.diagnostic r'.diagnostic r.se r'.se := by
  obtain ⟨r, h⟩ := ex_auto (by decide) ![⟨2, false, .Gaussian⟩, ⟨3, false, .Boxcar⟩] (fun m => by fin_cases m <;> rfl) coords y
  obtain ⟨r', h', -, hf⟩ := (C139_density _ _ _ _ moreThreads_valid _ _ _ _ _ (-1000) (by norm_num) (fun _ => 7) r).2 h
  exact ⟨r, r', h, h', hf⟩

end Verif.Props

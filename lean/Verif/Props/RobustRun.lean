import Verif.Model.RobustRun
import Verif.Spec.Smoother
import Verif.Props.GWRRobust
import Verif.Props.GWRParallel
import Verif.Props.GWRCriteria
import Verif.Props.GGWRRun

/-! Whole runs of robust regression (C110, C111). -/

namespace Verif.Props
open Verif Verif.Model Verif.Spec Matrix Classical

variable {n k m : ℕ}

/-- A core fit in terms of the textbook local regression. -/
structure ExplicitFit (x : Matrix (Fin n) (Fin k) ℝ) (y : Fin n → ℝ) (w : Fin n → Fin n → ℝ) (a : FitAcc n k) (C : Fin n → Fin k → Fin n → ℝ) :
    Prop where
  local_ : IsLocalRegression x y w a.betas C
  se : ∀ i j, a.se i j = ∑ l, C i j l ^ 2
  trace : a.shat 0 = ∑ i, hatOf x C i i
  trace2 : a.shat 1 = ∑ i, ∑ l, hatOf x C i l ^ 2
  qdiag : ∀ l, a.qdiag l = residualDfAt x C l
  linear : ∀ i j, a.betas i j = ∑ l, C i j l * y l

theorem serialFit_explicit {x : Matrix (Fin n) (Fin k) ℝ} {y : Fin n → ℝ} {W : Fin n → Fin n → ℝ} (hW : ∀ i l, 0 ≤ W i l) {sS sC : Bool}
    {stop : ℕ → Bool} {a : FitAcc n k} (h : fitCoreSerial x y W 0 n sS sC stop = .ok (a, false)) : ∃ C, ExplicitFit x y W a C := by
  obtain ⟨-, hc⟩ := fitCoreSerial_ok h
  have hl : ∀ i, localFitInv x y (W i) (x i) = .ok (fitAt x y W i) := fun i => by
    have := hc.loc i (Nat.zero_le _) i.isLt
    unfold localFitInv
    rw [invGeneral_gram _ _ (hW i)]
    exact this
  have hsi : ∀ i l, (fitAt x y W i).si l = ∑ j, x i j * (fitAt x y W i).ci j l := fun i l => localFitInv_row (hl i) l
  refine ⟨fun i j l => (fitAt x y W i).ci j l, ⟨fun i => ?_, fun i l => ?_⟩, fun i j => ?_, ?_, ?_, fun l => ?_, fun i j => ?_⟩
  · rw [hc.betas i (Nat.zero_le _) i.isLt]
    exact (gwPredict_ok (hW i) (localFitInv_ok (hl i))).1
  · exact (gwPredict_ok (hW i) (localFitInv_ci (hl i) l)).1
  · rw [hc.se i (Nat.zero_le _) i.isLt]
    simp only [seRow, sq]
  · rw [hc.shat, sum_workRange, Finset.sum_apply]
    exact Finset.sum_congr rfl fun i _ => hsi i i
  · rw [hc.shat, sum_workRange, Finset.sum_apply]
    refine Finset.sum_congr rfl fun i _ => ?_
    show ∑ l, (fitAt x y W i).si l * (fitAt x y W i).si l = _
    simp only [hsi, sq, hatOf]
  · rw [hc.qdiag, sum_workRange, Finset.sum_apply]
    refine Finset.sum_congr rfl fun i _ => ?_
    have : Function.update (fun l => -(fitAt x y W i).si l) i (-(fitAt x y W i).si i + 1) l =
        (if i = l then 1 else 0) - hatOf x (fun i j l => (fitAt x y W i).ci j l) i l := by
      unfold hatOf
      rw [← hsi i l]
      by_cases e : i = l
      · subst e; simp; ring
      · rw [Function.update_of_ne (Ne.symm e), if_neg e]; ring
    simp only [qRow, this, sq]
  · rw [hc.betas i (Nat.zero_le _) i.isLt]
    obtain ⟨inv, -, e⟩ := Res.bind_eq_ok'.1 (hl i)
    rw [← Res.ok.inj e, mulVec_mulVec]
    rfl

theorem robustFitEx_explicit {x : Matrix (Fin n) (Fin k) ℝ} {y : Fin n → ℝ} {W : Fin n → Fin n → ℝ} (hW : ∀ i l, 0 ≤ W i l) {sS : Bool}
    {mask : Fin n → ℝ} (hm : ∀ l, 0 ≤ mask l) {ex : Exec n} (hex : ex.Valid) {a : FitAcc n k} (h : robustFitEx x y W sS mask ex = .ok a) :
    ∃ C, ExplicitFit x y (fun i l => W i l * mask l) a C := by
  have hWm : ∀ i l, 0 ≤ maskedW W mask i l := fun i l => mul_nonneg (hW i l) (hm l)
  cases ex with
  | serial =>
    unfold robustFitEx robustFit at h
    obtain ⟨⟨a', t⟩, h1, h2⟩ := Res.bind_eq_ok'.1 h
    cases Res.ok.inj h2
    have ht : t = false := serialFor_nostop _ _ _ h1
    subst ht
    exact serialFit_explicit hWm h1
  | omp evs =>
    unfold robustFitEx at h
    obtain ⟨⟨a', t⟩, h1, h2⟩ := Res.bind_eq_ok'.1 h
    cases Res.ok.inj h2
    have hs : Schedule (workRange n 0 n) evs := by rw [workRange_all]; exact hex
    obtain ⟨p1, p2⟩ := C27_fit_parallel_eq_serial x y (maskedW W mask) 0 n sS false evs hs
    by_cases hdet : ∀ i, Determined x (maskedW W mask i)
    · obtain ⟨b, hb⟩ := (C21_fit_succeeds_iff x y (maskedW W mask) hWm sS false).1.2 hdet
      obtain ⟨a'', e, e1, e2, e3, e4, -⟩ := p1 b hb
      have : a' = a'' := by
        have := h1.symm.trans e
        exact congrArg Prod.fst (Res.ok.inj this)
      subst this
      obtain ⟨C, hC⟩ := serialFit_explicit hWm hb
      exact ⟨C, by rw [e1]; exact hC.local_, by rw [e2]; exact hC.se, by rw [e3]; exact hC.trace, by rw [e3]; exact hC.trace2, by rw [e4]; exact hC.qdiag, by rw [e1]; exact hC.linear⟩
    · push Not at hdet
      have := (C21_fit_succeeds_iff x y (maskedW W mask) hWm sS false).2 hdet
      obtain ⟨e, he⟩ := p2.1 ⟨_, this⟩
      rw [show (fun _ : ℕ => false) = NoStop from rfl, he] at h1
      cases h1

/-- The degrees of freedom that the code computes from the traces are the squared length of `I - S`. -/
theorem residualDf_eq (x : Matrix (Fin n) (Fin k) ℝ) (C : Fin n → Fin k → Fin n → ℝ) :
    residualDf x C = n - 2 * ∑ i, hatOf x C i i + ∑ i, ∑ l, hatOf x C i l ^ 2 := by
  unfold residualDf residualDfAt
  rw [Finset.sum_comm]
  have : ∀ i l : Fin n, ((if i = l then (1 : ℝ) else 0) - hatOf x C i l) ^ 2 =
      (if i = l then 1 else 0) - (if i = l then 2 * hatOf x C i l else 0) + hatOf x C i l ^ 2 := by
    intro i l
    by_cases e : i = l
    · simp only [if_pos e]; ring
    · simp only [if_neg e]; ring
  simp only [this, Finset.sum_add_distrib, Finset.sum_sub_distrib, Finset.sum_ite_eq, Finset.mem_univ, if_true, Finset.sum_const,
    Finset.card_univ, Fintype.card_fin, nsmul_eq_mul, mul_one, Finset.mul_sum]

theorem residualDfAt_nonneg (x : Matrix (Fin n) (Fin k) ℝ) (C : Fin n → Fin k → Fin n → ℝ) (l : Fin n) : 0 ≤ residualDfAt x C l :=
  Finset.sum_nonneg fun _ _ => sq_nonneg _

theorem residualDf_nonneg (x : Matrix (Fin n) (Fin k) ℝ) (C : Fin n → Fin k → Fin n → ℝ) : 0 ≤ residualDf x C :=
  Finset.sum_nonneg fun _ _ => residualDfAt_nonneg x C _

theorem residuals_eq (x : Matrix (Fin n) (Fin k) ℝ) (y : Fin n → ℝ) (B : Matrix (Fin n) (Fin k) ℝ) (i : Fin n) :
    residuals x y B i = residualAt x y B i := by
  unfold residuals fitted residualAt
  congr 1
  exact Finset.sum_congr rfl fun j _ => mul_comm _ _

theorem outlierMask_eq {x : Matrix (Fin n) (Fin k) ℝ} {y : Fin n → ℝ} {w : Fin n → Fin n → ℝ} {a : FitAcc n k} {C : Fin n → Fin k → Fin n → ℝ}
    (h : ExplicitFit x y w a C) (l : Fin n) : outlierMask x y a l = outlierWeight x y a.betas C l := by
  have hden : (n : ℝ) - 2 * a.shat 0 + a.shat 1 = residualDf x C := by rw [residualDf_eq, h.trace, h.trace2]
  have h0 := residualDf_nonneg x C
  have hq := residualDfAt_nonneg x C l
  have hr := residualSS_nonneg x y a.betas
  unfold outlierMask outlierWeight
  rw [hden, h.qdiag, rss_eq, residuals_eq]
  rcases eq_or_lt_of_le h0 with hz | hz
  · have hS : ∀ i m, hatOf x C i m = if i = m then 1 else 0 := by
      intro i m
      have h1 := (Finset.sum_eq_zero_iff_of_nonneg fun l _ => residualDfAt_nonneg x C l).1 hz.symm m (Finset.mem_univ _)
      have h2 := (Finset.sum_eq_zero_iff_of_nonneg fun _ _ => sq_nonneg _).1 h1 i (Finset.mem_univ _)
      have h3 := pow_eq_zero_iff (two_ne_zero) |>.1 h2
      linarith
    have hres : residualAt x y a.betas l = 0 := by
      have : ∑ j, x l j * a.betas l j = ∑ m, hatOf x C l m * y m := by
        simp only [h.linear, hatOf, Finset.mul_sum, Finset.sum_mul]
        rw [Finset.sum_comm]
        exact Finset.sum_congr rfl fun _ _ => Finset.sum_congr rfl fun _ _ => by ring
      unfold residualAt
      rw [this]
      simp [hS]
    rw [if_neg (fun ho => ho.1 hz.symm), if_neg]
    rw [hres, abs_zero]
    exact not_lt.2 (mul_nonneg (by norm_num) (Real.sqrt_nonneg _))
  · have hs : 0 ≤ residualSS x y a.betas / residualDf x C * residualDfAt x C l := mul_nonneg (div_nonneg hr hz.le) hq
    have key : outlying (residualSS x y a.betas) (residualDf x C) (residualDfAt x C l) (residualAt x y a.betas l) ↔
        3 * √(residualSS x y a.betas / residualDf x C * residualDfAt x C l) < |residualAt x y a.betas l| := by
      unfold outlying
      rcases eq_or_lt_of_le hs with h1 | h1
      · rw [← h1, Real.sqrt_zero, mul_zero, abs_pos]
        simp [hz.ne']
      · have h2 := Real.sqrt_pos.2 h1
        rw [abs_div, abs_of_pos h2, lt_div_iff₀ h2]
        simp [hz.ne', hs, h1, h1.ne']
    by_cases ho : 3 * √(residualSS x y a.betas / residualDf x C * residualDfAt x C l) < |residualAt x y a.betas l|
    · rw [if_pos ho, if_pos (key.2 ho)]
    · rw [if_neg ho, if_neg fun hh => ho (key.1 hh)]

/-- The textbook diagnostics and standard errors of local coefficients `B` whose dependence on the responses is `C`. -/
structure Reports (x : Matrix (Fin n) (Fin k) ℝ) (y : Fin n → ℝ) (B : Matrix (Fin n) (Fin k) ℝ) (C : Fin n → Fin k → Fin n → ℝ) (g : Diagnostic)
    (se : Fin n → Fin k → Res ℝ) : Prop where
  rss : g.RSS = residualSS x y B
  enp : g.ENP = n - residualDf x C
  edf : g.EDF = residualDf x C
  aic : 0 < residualSS x y B → g.AIC = .ok (aicFormula n (residualSS x y B) (∑ i, hatOf x C i i))
  aicc : 0 < residualSS x y B → ∑ i, hatOf x C i i ≠ n - 2 → g.AICc = .ok (aiccFormula n (residualSS x y B) (∑ i, hatOf x C i i))
  rSquare : totalSS y ≠ 0 → g.RSquare = .ok (1 - residualSS x y B / totalSS y)
  rSquareAdjust : totalSS y ≠ 0 → residualDf x C ≠ 1 →
    g.RSquareAdjust = .ok (1 - residualSS x y B / totalSS y * (n - 1) / (residualDf x C - 1))
  se : residualDf x C ≠ 0 → ∀ i j, se i j = .ok √(residualSS x y B / residualDf x C * ∑ l, C i j l ^ 2)

/-- What a robust fit with spatial weights `W` reports: the coefficients of one of the two robust methods, standard errors and diagnostics. -/
structure IsRobustFit (filtered : Bool) (x : Matrix (Fin n) (Fin k) ℝ) (y : Fin n → ℝ) (W : Fin n → Fin n → ℝ) (r : RobustResult n k)
    (mask : Fin n → ℝ) (C : Fin n → Fin k → Fin n → ℝ) : Prop where
  method : if filtered = true then RobustFirst x y W mask r.betas C else RobustSecond x y W mask r.betas C
  report : Reports x y r.betas C r.diagnostic r.se

theorem totalSS_eq (y : Fin n → ℝ) : ∑ i, (y i - meanVec y) * (y i - meanVec y) = totalSS y := by
  simp only [totalSS, meanVec, sq]

theorem calcDiagnostic_explicit {x : Matrix (Fin n) (Fin k) ℝ} {y : Fin n → ℝ} {w : Fin n → Fin n → ℝ} {a : FitAcc n k}
    {C : Fin n → Fin k → Fin n → ℝ} (h : ExplicitFit x y w a C) : Reports x y a.betas C (calcDiagnostic x y a.betas a.shat) (betasSE x y a) := by
  have hden : (n : ℝ) - 2 * a.shat 0 + a.shat 1 = residualDf x C := by rw [residualDf_eq, h.trace, h.trace2]
  have h0 := residualDf_nonneg x C
  have hr := residualSS_nonneg x y a.betas
  have hn : 0 < residualSS x y a.betas → (0 : ℝ) < n := fun hp => by
    rcases Nat.eq_zero_or_pos n with hz | hz
    · subst hz; simp [residualSS] at hp
    · exact_mod_cast hz
  refine ⟨by simp only [calcDiagnostic, rss_eq], ?_, by simp only [calcDiagnostic, hden], fun hp => ?_, fun hp ht => ?_, fun ht => ?_, fun ht he => ?_,
    fun he i j => ?_⟩
  · simp only [calcDiagnostic]; linarith
  · have := hn hp
    simp only [calcDiagnostic, rss_eq, fdiv, flog, this.ne', if_false, Res.bind, not_le.2 (div_pos hp this), aicFormula, h.trace]
  · have := hn hp
    have hd : (n : ℝ) - 2 - ∑ i, hatOf x C i i ≠ 0 := fun e => ht (by linarith)
    simp only [calcDiagnostic, rss_eq, fdiv, flog, this.ne', if_false, Res.bind, not_le.2 (div_pos hp this), aiccFormula, h.trace, hd]
  · simp only [calcDiagnostic, rss_eq, totalSS_eq, fdiv, ht, if_false, Res.bind]
  · have hd : residualDf x C - 1 ≠ 0 := sub_ne_zero.2 he
    simp only [calcDiagnostic, rss_eq, totalSS_eq, hden, fdiv, ht, hd, if_false, Res.bind, sub_sub_cancel]
  · simp only [betasSE, hden, rss_eq, fdiv, he, if_false, Res.bind, fsqrt, h.se]
    rw [if_neg]
    exact not_lt.2 (mul_nonneg (div_nonneg hr h0) (Finset.sum_nonneg fun _ _ => sq_nonneg _))

theorem robustWeight_nonneg (σ r : ℝ) : 0 ≤ robustWeight σ r := by
  unfold robustWeight
  split
  · norm_num
  · split
    · exact sq_nonneg _
    · exact le_rfl

theorem robustCali_explicit {filtered : Bool} {sched : (Fin n → ℝ) → Exec n} (hs : ∀ mask, (sched mask).Valid) {x : Matrix (Fin n) (Fin k) ℝ}
    {y : Fin n → ℝ} {W : Fin n → Fin n → ℝ} (hW : ∀ i l, 0 ≤ W i l) {sS : Bool} {a : FitAcc n k × List (Fin n → ℝ)}
    (h : robustCali filtered sched x y W sS = .ok a) :
    ∃ mask C, ExplicitFit x y (fun i l => W i l * mask l) a.1 C ∧
      if filtered = true then RobustFirst x y W mask a.1.betas C else RobustSecond x y W mask a.1.betas C := by
  unfold robustCali at h
  by_cases hf : filtered = true
  · rw [if_pos hf] at h
    simp only [hf, if_true]
    unfold caliFirst at h
    obtain ⟨a0, h1, h⟩ := Res.bind_eq_ok'.1 h
    obtain ⟨b, h2, h⟩ := Res.bind_eq_ok'.1 h
    cases Res.ok.inj h
    obtain ⟨C0, hC0⟩ := robustFitEx_explicit hW (fun _ => zero_le_one) (hs _) h1
    have hm : ∀ l, 0 ≤ outlierMask x y a0 l := fun l => by unfold outlierMask; split <;> norm_num
    obtain ⟨C, hC⟩ := robustFitEx_explicit hW hm (hs _) h2
    refine ⟨outlierMask x y a0, C, hC, a0.betas, C0, ?_, outlierMask_eq hC0, hC.local_⟩
    have := hC0.local_
    simpa only [mul_one] using this
  · rw [if_neg hf] at h
    simp only [hf]
    obtain ⟨f, q, hq1, hq2, hfq, hf0, h1, h2, h3⟩ := C43_second_method_steps _ x y a.1 a.2 h
    simp only at h1 h2 h3
    choose! M hM1 hM2 using h1
    have hM0 : ∀ t < q, ∀ l, 0 ≤ M t l := fun t ht l => by
      rw [hM2 t ht]; split
      · exact le_rfl
      · exact robustWeight_nonneg _ _
    have hex : ∀ t ≤ q, ∃ C, ExplicitFit x y (fun i l => W i l * pushFront (fun _ => 1) M t l) (f t) C := by
      intro t ht
      cases t with
      | zero => exact robustFitEx_explicit hW (fun _ => zero_le_one) (hs _) hf0
      | succ t => exact robustFitEx_explicit hW (hM0 t (by omega)) (hs _) (hM1 t (by omega))
    choose! c hc using hex
    have hE : ∀ t, residualSS x y (f t).betas / n = 0 ↔ residualSS x y (f t).betas = 0 := fun t => by
      refine ⟨fun e => ?_, fun e => by rw [e, zero_div]⟩
      rcases div_eq_zero_iff.1 e with e | e
      · exact e
      · have : n = 0 := by exact_mod_cast e
        subst this
        simp [residualSS]
    refine ⟨pushFront (fun _ => 1) M q, c q, by rw [← hfq]; exact hc q le_rfl, q, fun t => (f t).betas, c, pushFront (fun _ => 1) M, hq1, hq2, fun _ => rfl,
      fun t ht => (hc t ht).local_, fun t ht l => ?_, h2, ?_, congrArg FitAcc.betas hfq, rfl, rfl⟩
    · show M t l = _
      rw [hM2 t ht]
      simp only [hE, residualAt]
    · rcases h3 with h3 | ⟨t, ht, h3⟩
      · exact Or.inl h3
      · exact Or.inr ⟨t, ht, by subst ht; exact h3⟩

theorem robustFinish_explicit {filtered : Bool} {sched : (Fin n → ℝ) → Exec n} (hs : ∀ mask, (sched mask).Valid) {d' : CRSDistance} {b : BandwidthWeight}
    {x : Matrix (Fin n) (Fin k) ℝ} {y : Fin n → ℝ} {sS : Bool} {r : RobustResult n k} (h : robustFinish filtered sched d' b x y sS = .ok r) :
    ∃ W, weightRows d' b n n = .ok W ∧ r.weight = b ∧ ((∀ i l, 0 ≤ W i l) → ∃ mask C, IsRobustFit filtered x y W r mask C) := by
  unfold robustFinish at h
  obtain ⟨W, hW, h⟩ := Res.bind_eq_ok'.1 h
  obtain ⟨a, ha, h⟩ := Res.bind_eq_ok'.1 h
  cases Res.ok.inj h
  refine ⟨W, hW, rfl, fun hnn => ?_⟩
  obtain ⟨mask, C, h1, h2⟩ := robustCali_explicit hs hnn ha
  exact ⟨mask, C, h2, calcDiagnostic_explicit h1⟩

/-- **C110 (fixed bandwidth).** A completed fit, in parallel or not, with a given bandwidth and planar coordinates reports the coefficients, standard
errors and diagnostics of the robust method that was chosen, for the kernel weights of the distances between the coordinates. -/
theorem C110_fit (filtered : Bool) (sched : (Fin n → ℝ) → Exec n) (hs : ∀ mask, (sched mask).Valid) (p : Option (DynMat × DynMat))
    (kernel : KernelType) (bw : ℝ) (hb : 0 < bw) (coords : DynMat) (x : Matrix (Fin n) (Fin k) ℝ) (y : Fin n → ℝ) (sS : Bool) (r : RobustResult n k)
    (h : robustRun filtered sched ⟨false, p⟩ ⟨bw, false, kernel⟩ coords x y sS = .ok r) :
    ∃ mask C, IsRobustFit filtered x y (fun i l : Fin n => kernelFormula kernel bw (plane (coords.val i) (coords.val l))) r mask C := by
  unfold robustRun at h
  obtain ⟨d', hd, h⟩ := Res.bind_eq_ok'.1 h
  obtain ⟨-, -, rfl⟩ := bindLocations_eq_ok.1 hd
  obtain ⟨W, hW, -, h⟩ := robustFinish_explicit hs h
  have e : W = fun i l : Fin n => kernelFormula kernel bw (plane (coords.val i) (coords.val l)) := by
    funext i; exact ((weights_fixed hb).1 hW i).2.2
  rw [e] at h
  exact h fun i l => kernelFormula_nonneg kernel hb _

/-- **C110 (adaptive bandwidth).** The same when the bandwidth is the distance to the `q`-th nearest observation, if no such distance is zero. -/
theorem C110_adaptive_fit (filtered : Bool) (sched : (Fin n → ℝ) → Exec n) (hs : ∀ mask, (sched mask).Valid) (p : Option (DynMat × DynMat))
    (kernel : KernelType) (q : ℕ) (h1 : 1 ≤ q) (h2 : q < n) (h3 : q < 2147483648) (coords : DynMat) (x : Matrix (Fin n) (Fin k) ℝ) (y : Fin n → ℝ)
    (sS : Bool) (hr : ∀ (i : Fin n) (r : ℝ), IsKthSmallest (fun l : Fin n => plane (coords.val i) (coords.val l)) q r → 0 < r) (r : RobustResult n k)
    (h : robustRun filtered sched ⟨false, p⟩ ⟨q, true, kernel⟩ coords x y sS = .ok r) :
    ∃ ρ : Fin n → ℝ, (∀ i : Fin n, IsKthSmallest (fun l : Fin n => plane (coords.val i) (coords.val l)) q (ρ i)) ∧
      ∃ mask C, IsRobustFit filtered x y (fun i l : Fin n => kernelFormula kernel (ρ i) (plane (coords.val i) (coords.val l))) r mask C := by
  unfold robustRun at h
  obtain ⟨d', hd, h⟩ := Res.bind_eq_ok'.1 h
  obtain ⟨-, -, rfl⟩ := bindLocations_eq_ok.1 hd
  obtain ⟨W, hW, -, h⟩ := robustFinish_explicit hs h
  choose ρ hρ hw using weights_adaptive h1 h2 h3 hr hW
  have e : W = fun i l : Fin n => kernelFormula kernel (ρ i) (plane (coords.val i) (coords.val l)) := by
    funext i; exact hw i
  rw [e] at h
  exact ⟨ρ, hρ, h fun i l => kernelFormula_nonneg kernel (hr i _ (hρ i)) _⟩

/-- The score of spatial weights by a criterion: leave-one-out for CV, corrected AIC for AIC. -/
def HasScore : Crit → Matrix (Fin n) (Fin k) ℝ → (Fin n → ℝ) → (Fin n → Fin n → ℝ) → ℝ → Prop
  | .CV, x, y, W, v => IsLeaveOneOut x y W dblMax v
  | .AIC, x, y, W, v => IsCorrectedAIC x y W dblMax v

theorem gwrSelect_choice {c : Crit} {coords : DynMat} {kernel : KernelType} {bw0 : ℝ} {lower upper : Option ℝ} {x : Matrix (Fin n) (Fin k) ℝ}
    {y : Fin n → ℝ} {sr : SearchResult} {b : BandwidthWeight}
    (hsr : gwrSelectBandwidth c ⟨false, some (coords, coords)⟩ ⟨bw0, false, kernel⟩ lower upper x y = .ok sr) (hout : sr.out = .ok b)
    (hrow : ∀ i : Fin n, i.val < coords.nRows ∧ coords.nRows = n) :
    b.mKernel = kernel ∧ b.mAdaptive = false ∧
    ∃ tried : List (ℝ × ℝ), 2 ≤ tried.length ∧ (∃ v, (b.mBandwidth, v) ∈ tried ∧ ∀ q ∈ tried, v ≤ q.2) ∧
      ∀ q ∈ tried, 0 < q.1 →
        HasScore c x y (fun i l : Fin n => kernelFormula kernel q.1 (plane (coords.val i) (coords.val l))) q.2 := by
  unfold gwrSelectBandwidth at hsr
  obtain ⟨u, -, hsr⟩ := Res.bind_eq_ok'.1 hsr
  cases Res.ok.inj hsr
  obtain ⟨k1, k2⟩ := C17_kernel_kind_kept _ _ _ _ _ _ hout
  refine ⟨k1, k2, ?_⟩
  have hev := optimize_evals ⟨bw0, false, kernel⟩ (lower.getD (if false = true then 20 else 0)) u (gwrCriterion c ⟨false, some (coords, coords)⟩ x y) []
  obtain ⟨e, he, hx, hmin⟩ := C14_returns_best_evaluated _ _ _ _ _ _ hout fun e he => (hev e he).1
  refine ⟨(optimize ⟨bw0, false, kernel⟩ (lower.getD (if false = true then 20 else 0)) u
    (fun _ b => (true, gwrCriterion c ⟨false, some (coords, coords)⟩ x y b)) []).evals.map fun e => (e.x, e.f), ?_,
    ⟨e.f, List.mem_map.2 ⟨e, he, by rw [hx]⟩, ?_⟩, ?_⟩
  · rw [List.length_map]; exact (C16_call_bound _ _ _ _ _).1
  · rintro q hq
    obtain ⟨e', he', rfl⟩ := List.mem_map.1 hq
    exact hmin e' he'
  · rintro q hq hpos
    obtain ⟨e', he', rfl⟩ := List.mem_map.1 hq
    have hfe := (hev e' he').2
    have hW : weightRows ⟨false, some (coords, coords)⟩ ⟨e'.x, false, kernel⟩ n n =
        .ok fun i l : Fin n => kernelFormula kernel e'.x (plane (coords.val i) (coords.val l)) :=
      (weights_fixed hpos).2 fun i => ⟨(hrow i).1, (hrow i).2, rfl⟩
    have hnn : ∀ i l : Fin n, 0 ≤ kernelFormula kernel e'.x (plane (coords.val i) (coords.val l)) :=
      fun _ _ => kernelFormula_nonneg kernel hpos _
    cases c with
    | CV =>
      simp only [gwrCriterion, hW] at hfe
      simp only [hfe]
      exact loo_spec x y hnn
    | AIC =>
      simp only [gwrCriterion, hW] at hfe
      simp only [hfe]
      exact aicc_spec x y hnn

/-- **C110 (bandwidth choice).** With automatic selection of a fixed bandwidth, the reported bandwidth has the smallest score of all bandwidths tried;
the score is that of the regression without robust weights. If it is positive, the fit reports what `C110_fit` says for it. -/
theorem C110_bandwidth_choice (c : Crit) (filtered : Bool) (sched : (Fin n → ℝ) → Exec n) (hs : ∀ mask, (sched mask).Valid)
    (p : Option (DynMat × DynMat)) (kernel : KernelType) (bw0 : ℝ) (coords : DynMat) (x : Matrix (Fin n) (Fin k) ℝ) (y : Fin n → ℝ) (sS : Bool)
    (r : RobustResult n k) (h : robustAutoRun c filtered sched ⟨false, p⟩ ⟨bw0, false, kernel⟩ coords x y sS = .ok r) :
    r.weight.mKernel = kernel ∧ r.weight.mAdaptive = false ∧
    (0 < r.weight.mBandwidth → ∃ mask C, IsRobustFit filtered x y
      (fun i l : Fin n => kernelFormula kernel r.weight.mBandwidth (plane (coords.val i) (coords.val l))) r mask C) ∧
    ∃ tried : List (ℝ × ℝ), 2 ≤ tried.length ∧ (∃ v, (r.weight.mBandwidth, v) ∈ tried ∧ ∀ q ∈ tried, v ≤ q.2) ∧
      ∀ q ∈ tried, 0 < q.1 →
        HasScore c x y (fun i l : Fin n => kernelFormula kernel q.1 (plane (coords.val i) (coords.val l))) q.2 := by
  unfold robustAutoRun at h
  obtain ⟨d', hd, h⟩ := Res.bind_eq_ok'.1 h
  obtain ⟨-, -, rfl⟩ := bindLocations_eq_ok.1 hd
  obtain ⟨sr, hsr, h⟩ := Res.bind_eq_ok'.1 h
  obtain ⟨b, hout, h⟩ := Res.bind_eq_ok'.1 h
  obtain ⟨W, hW, hb, hfin⟩ := robustFinish_explicit hs h
  have hrow : ∀ i : Fin n, i.val < coords.nRows ∧ coords.nRows = n := fun i => by
    obtain ⟨h1, h2, -⟩ := weightRows_eq_ok.1 hW i
    exact ⟨h1, h2⟩
  obtain ⟨k1, k2, k3⟩ := gwrSelect_choice hsr hout hrow
  rw [hb]
  refine ⟨k1, k2, fun hpos => ?_, k3⟩
  obtain ⟨bw, ad, ker⟩ := b
  simp only at k1 k2 hpos ⊢
  subst k1 k2
  have e : W = fun i l : Fin n => kernelFormula ker bw (plane (coords.val i) (coords.val l)) := by
    funext i; exact ((weights_fixed hpos).1 hW i).2.2
  rw [e] at hfin
  exact hfin fun i l => kernelFormula_nonneg ker hpos _

/-- **C98 (bandwidth choice).** With automatic selection of a fixed bandwidth the reported bandwidth has the smallest score of all bandwidths tried:
the leave-one-out score for CV, the corrected AIC for AIC, of the regressions with the kernel weights of the distances between the coordinates. -/
theorem C98_bandwidth_choice (c : Crit) (p : Option (DynMat × DynMat)) (kernel : KernelType) (bw0 : ℝ) (lower upper : Option ℝ) (coords : DynMat)
    (x : Matrix (Fin n) (Fin k) ℝ) (y : Fin n → ℝ) (sS sC : Bool) (b : BandwidthWeight) (a : FitAcc n k)
    (h : gwrAutoFit c ⟨false, p⟩ ⟨bw0, false, kernel⟩ lower upper coords x y sS sC = .ok (b, a)) :
    b.mKernel = kernel ∧ b.mAdaptive = false ∧
    ∃ tried : List (ℝ × ℝ), 2 ≤ tried.length ∧ (∃ v, (b.mBandwidth, v) ∈ tried ∧ ∀ q ∈ tried, v ≤ q.2) ∧
      ∀ q ∈ tried, 0 < q.1 →
        HasScore c x y (fun i l : Fin n => kernelFormula kernel q.1 (plane (coords.val i) (coords.val l))) q.2 := by
  unfold gwrAutoFit at h
  obtain ⟨d', hd, h⟩ := Res.bind_eq_ok'.1 h
  obtain ⟨-, -, rfl⟩ := bindLocations_eq_ok.1 hd
  obtain ⟨sr, hsr, h⟩ := Res.bind_eq_ok'.1 h
  obtain ⟨b', hout, h⟩ := Res.bind_eq_ok'.1 h
  obtain ⟨W, hW, h⟩ := Res.bind_eq_ok'.1 h
  obtain ⟨q, -, h⟩ := Res.bind_eq_ok'.1 h
  cases Res.ok.inj h
  exact gwrSelect_choice hsr hout fun i => by
    obtain ⟨h1, h2, -⟩ := weightRows_eq_ok.1 hW i
    exact ⟨h1, h2⟩

theorem wls_unique {x : Matrix (Fin n) (Fin k) ℝ} {y w : Fin n → ℝ} {b b' : Fin k → ℝ} (h : IsWLS x y w b) (h' : IsWLS x y w b') : b = b' := by
  by_contra hne
  exact lt_asymm (h b' (Ne.symm hne)) (h' b hne)

/-- **C111, partial.** If the last robust weights are all 1, predicting at the observations returns the coefficients of the fit. -/
theorem C111_predict_at_data_partial (filtered : Bool) (p' : Option (DynMat × DynMat)) (kernel : KernelType) (bw : ℝ) (hb : 0 < bw) (coords : DynMat)
    (x : Matrix (Fin n) (Fin k) ℝ) (y : Fin n → ℝ) (r : RobustResult n k) (mask : Fin n → ℝ) (C : Fin n → Fin k → Fin n → ℝ)
    (h : IsRobustFit filtered x y (fun i l : Fin n => kernelFormula kernel bw (plane (coords.val i) (coords.val l))) r mask C) (hm : ∀ l, mask l = 1)
    (B : Matrix (Fin n) (Fin k) ℝ) (hB : robustPredict ⟨false, p'⟩ ⟨bw, false, kernel⟩ coords coords n x y = .ok (B, false)) : B = r.betas := by
  have hB' := C98_prediction_is_gwr p' kernel bw hb coords coords x y NoStop B hB
  have hl : IsLocalRegression x y (fun i l : Fin n => kernelFormula kernel bw (plane (coords.val i) (coords.val l)) * mask l) r.betas C := by
    have := h.method
    by_cases hf : filtered = true
    · rw [if_pos hf] at this
      obtain ⟨_, _, -, -, h3⟩ := this
      exact h3
    · rw [if_neg hf] at this
      obtain ⟨q, b, c, m, -, -, -, h4, -, -, -, h5, h6, h7⟩ := this
      rw [← h5, ← h6, ← h7]
      exact h4 q le_rfl
  funext i
  refine wls_unique (hB' i) ?_
  have := hl.coefficients i
  simpa only [hm, mul_one] using this

/-- Points `0, 1, 2, …` on a line. -/
def linePoints (n : ℕ) : DynMat := ⟨n, 2, fun i j => if j = 0 then i else 0⟩

theorem linePoints_weight (i l : Fin n) : kernelFormula .Boxcar n (plane ((linePoints n).val i) ((linePoints n).val l)) = 1 := by
  have : plane ((linePoints n).val i) ((linePoints n).val l) < n := by
    unfold plane linePoints
    simp only [if_true, one_ne_zero, if_false]
    have hi : (i.val : ℝ) < n := by exact_mod_cast i.isLt
    have hl : (l.val : ℝ) < n := by exact_mod_cast l.isLt
    have hi0 : (0 : ℝ) ≤ i.val := Nat.cast_nonneg _
    have hl0 : (0 : ℝ) ≤ l.val := Nat.cast_nonneg _
    rw [Real.sqrt_lt' (by linarith)]
    nlinarith
  simp only [kernelFormula, if_pos this]

theorem linePoints_rows (hn : 0 < n) : weightRows ⟨false, some (linePoints n, linePoints n)⟩ ⟨n, false, .Boxcar⟩ n n = .ok fun _ _ => 1 :=
  (weights_fixed (by exact_mod_cast hn)).2 fun i => ⟨i.isLt, rfl, by funext l; exact (linePoints_weight i l).symm⟩

theorem onesFit (y : Fin n → ℝ) (sS : Bool) {mask : Fin n → ℝ} (hm : ∀ l, 0 ≤ mask l) (hp : ∃ l, 0 < mask l) :
    ∃ a, robustFit (ones n) y (fun _ _ => 1) sS mask = .ok a ∧ ∀ i j, a.betas i j = (∑ l, mask l * y l) / ∑ l, mask l := by
  have e : maskedW (fun _ _ => 1) mask = fun _ : Fin n => mask := by funext i l; simp [maskedW]
  obtain ⟨a, ha⟩ := (C21_fit_succeeds_iff (ones n) y (maskedW (fun _ _ => 1) mask) (fun i l => by rw [e]; exact hm l) sS false).1.2
    (fun i => by rw [e]; exact ones_det hm hp)
  refine ⟨a, by unfold robustFit; rw [show (fun _ : ℕ => false) = NoStop from rfl, ha]; rfl, fun i j => ?_⟩
  obtain ⟨C, hC⟩ := serialFit_explicit (fun i l => by rw [e]; exact hm l) ha
  have h1 := hC.local_.coefficients i
  rw [e] at h1
  rw [wls_unique h1 (gwPredict_ok hm (ones_predict hm hp y)).1]

/-- All ones but for one 0. -/
def without (o : Fin n) : Fin n → ℝ := fun l => if l = o then 0 else 1

theorem without_sum (o : Fin n) : ∑ l, without o l = n - 1 := by
  have : ∀ l, without o l = 1 - if l = o then (1 : ℝ) else 0 := fun l => by unfold without; split <;> ring
  simp only [this, Finset.sum_sub_distrib, Finset.sum_const, Finset.card_univ, Fintype.card_fin, nsmul_eq_mul, mul_one, Finset.sum_ite_eq',
    Finset.mem_univ, if_true]

theorem constant_residual {y : Fin n → ℝ} {B : Matrix (Fin n) (Fin 1) ℝ} {β : ℝ} (h : ∀ i j, B i j = β) (l : Fin n) :
    residualAt (ones n) y B l = y l - β := by
  simp [residualAt, ones, h]

theorem constant_residualSS (o : Fin n) {B : Matrix (Fin n) (Fin 1) ℝ} {β : ℝ} (h : ∀ i j, B i j = β) :
    residualSS (ones n) (Pi.single o 1) B = 1 - 2 * β + n * β ^ 2 := by
  have e : ∀ l : Fin n, ((Pi.single o (1 : ℝ) : Fin n → ℝ) l - ∑ j, ones n l j * B l j) ^ 2 = (if l = o then 1 - 2 * β else 0) + β ^ 2 := by
    intro l
    simp only [Finset.univ_unique, Finset.sum_singleton, ones, h, one_mul, Pi.single_apply]
    split <;> ring
  simp only [residualSS, e, Finset.sum_add_distrib, Finset.sum_ite_eq', Finset.mem_univ, if_true, Finset.sum_const, Finset.card_univ,
    Fintype.card_fin, nsmul_eq_mul]

theorem without_unit (o : Fin n) : ∑ l, without o l * (Pi.single o 1 : Fin n → ℝ) l = 0 :=
  Finset.sum_eq_zero fun l _ => by
    unfold without
    by_cases e : l = o
    · rw [if_pos e, zero_mul]
    · rw [Pi.single_eq_of_ne e, mul_zero]

theorem outlier_first (hn : 11 ≤ n) (o : Fin n) {a : FitAcc n 1} {sS : Bool}
    (h : robustFit (ones n) (Pi.single o 1) (fun _ _ => 1) sS (fun _ => 1) = .ok a) (hb : ∀ i j, a.betas i j = 1 / n) :
    outlierMask (ones n) (Pi.single o 1) a = without o := by
  have hN : (11 : ℝ) ≤ n := by exact_mod_cast hn
  have hN0 : (0 : ℝ) < n := by linarith
  obtain ⟨C, hC⟩ := robustFitEx_explicit (x := ones n) (W := fun _ _ => 1) (ex := .serial) (fun _ _ => zero_le_one) (fun _ => zero_le_one) trivial h
  have h1 : ∀ l : Fin n, (0 : ℝ) ≤ (fun _ : Fin n => 1 * 1) l := fun _ => by norm_num
  have hc : ∀ i j l, C i j l = 1 / n := fun i j l => by
    have := congrFun (wls_unique (hC.local_.unit i l) (gwPredict_ok h1 (ones_predict h1 ⟨o, by norm_num⟩ _)).1) j
    simp only [this]
    simp
  have hh : ∀ i l, hatOf (ones n) C i l = 1 / n := fun i l => by simp [hatOf, ones, hc]
  have hq : ∀ l, residualDfAt (ones n) C l = 1 - 1 / n := fun l => by
    have e : ∀ i : Fin n, ((if i = l then (1 : ℝ) else 0) - 1 / n) ^ 2 = (if i = l then (1 : ℝ) - 2 * (1 / n) else 0) + (1 / n) ^ 2 := by
      intro i; split <;> ring
    simp only [residualDfAt, hh, e, Finset.sum_add_distrib, Finset.sum_ite_eq', Finset.mem_univ, if_true, Finset.sum_const, Finset.card_univ,
      Fintype.card_fin, nsmul_eq_mul]
    field_simp; ring
  have hdf : residualDf (ones n) C = n - 1 := by
    simp only [residualDf, hq, Finset.sum_const, Finset.card_univ, Fintype.card_fin, nsmul_eq_mul]
    field_simp
  have hss := constant_residualSS o hb
  have hs : residualSS (ones n) (Pi.single o 1) a.betas / residualDf (ones n) C * (1 - 1 / n) = (n - 1) / n ^ 2 := by
    rw [hss, hdf]
    have : (n : ℝ) - 1 ≠ 0 := by linarith
    field_simp; ring
  have hroot : √((n - 1 : ℝ) / n ^ 2) = √(n - 1) / n := by rw [Real.sqrt_div (by linarith), Real.sqrt_sq hN0.le]
  have hr3 : 3 < √((n : ℝ) - 1) := by
    rw [Real.lt_sqrt (by norm_num)]; linarith
  have hr2 : √((n : ℝ) - 1) * √((n : ℝ) - 1) = n - 1 := Real.mul_self_sqrt (by linarith)
  funext l
  rw [outlierMask_eq hC, outlierWeight, hq, hs, hroot, constant_residual hb, without]
  by_cases e : l = o
  · subst e
    rw [if_pos rfl, if_pos]
    rw [Pi.single_eq_same, abs_of_nonneg (by rw [sub_nonneg, div_le_one hN0]; linarith), ← mul_div_assoc, div_lt_iff₀ hN0]
    have : (1 - 1 / (n : ℝ)) * n = √((n : ℝ) - 1) * √((n : ℝ) - 1) := by rw [hr2]; field_simp
    rw [this]
    nlinarith
  · rw [if_neg e, Pi.single_eq_of_ne e, zero_sub, abs_neg, abs_of_pos (by positivity), if_neg]
    rw [not_lt, ← mul_div_assoc]
    exact div_le_div_of_nonneg_right (by linarith) hN0.le

theorem outlier_filt (hn : 11 ≤ n) (o : Fin n) {B : Matrix (Fin n) (Fin 1) ℝ} {β : ℝ} (hb : ∀ i j, B i j = β) (hβ : β = 0 ∨ β = 1 / n) :
    filtWeight (residuals (ones n) (Pi.single o 1) B) (mse (residuals (ones n) (Pi.single o 1) B)) = without o := by
  have hN : (11 : ℝ) ≤ n := by exact_mod_cast hn
  have hN0 : (0 : ℝ) < n := by linarith
  have hr : ∀ l, residuals (ones n) (Pi.single o 1) B l = (Pi.single o 1 : Fin n → ℝ) l - β := fun l => by
    rw [residuals_eq, constant_residual hb]
  have hm : mse (residuals (ones n) (Pi.single o 1) B) = (1 - 2 * β + n * β ^ 2) / n := by
    rw [← constant_residualSS o hb]
    unfold mse residualSS
    congr 1
    refine Finset.sum_congr rfl fun i _ => ?_
    rw [residuals_eq, residualAt, sq]
  rw [hm]
  set m := (1 - 2 * β + n * β ^ 2) / (n : ℝ) with hmd
  have hk : 0 < m ∧ 9 * m ≤ (1 - β) ^ 2 ∧ β ^ 2 ≤ 4 * m ∧ 0 ≤ 1 - β ∧ 0 ≤ β := by
    rcases hβ with rfl | rfl
    · refine ⟨by rw [hmd]; norm_num; omega, ?_, ?_, by norm_num, le_rfl⟩
      · rw [hmd, ← mul_div_assoc, div_le_iff₀ hN0]; nlinarith
      · rw [hmd]; norm_num
    · have e : m = (n - 1) / n ^ 2 := by rw [hmd]; field_simp; ring
      have e2 : (1 - 1 / (n : ℝ)) = (n - 1) / n := by field_simp
      rw [e, e2]
      refine ⟨div_pos (by linarith) (by positivity), ?_, ?_, div_nonneg (by linarith) hN0.le, by positivity⟩
      · rw [div_pow, ← mul_div_assoc]
        exact div_le_div_of_nonneg_right (by nlinarith) (by positivity)
      · rw [div_pow, ← mul_div_assoc]
        exact div_le_div_of_nonneg_right (by nlinarith) (by positivity)
  obtain ⟨h0, h9, h4, h5, h6⟩ := hk
  obtain ⟨-, w1, w0, -, -⟩ := C43_weight_function (residuals (ones n) (Pi.single o 1) B) m h0
  funext l
  unfold without
  by_cases e : l = o
  · subst e
    rw [if_pos rfl]
    refine w0 l ?_
    rw [hr, Pi.single_eq_same, abs_of_nonneg h5]
    have : √m ≤ (1 - β) / 3 := Real.sqrt_le_iff.2 ⟨by linarith, by rw [div_pow]; linarith⟩
    linarith
  · rw [if_neg e]
    refine w1 l ?_
    rw [hr, Pi.single_eq_of_ne e, zero_sub, abs_neg, abs_of_nonneg h6]
    have : β / 2 ≤ √m := Real.le_sqrt_of_sq_le (by rw [div_pow]; linarith)
    linarith

theorem robustLoop_total {fitF : (Fin n → ℝ) → Res (FitAcc n k)} {x : Matrix (Fin n) (Fin k) ℝ} {y : Fin n → ℝ} {mask : Fin n → ℝ} {b : FitAcc n k}
    (hf : fitF mask = .ok b) (hnext : filtWeight (residuals x y b.betas) (mse (residuals x y b.betas)) = mask) :
    ∀ (fuel : ℕ) (go : Bool) (a : FitAcc n k) (m : ℝ) (used : List (Fin n → ℝ)), a = b ∨ (go = true ∧ fuel ≠ 0) →
      ∃ ms, robustLoop fitF x y fuel go a m mask used = .ok (b, ms)
  | 0, go, a, m, used, h => by
    rcases h with rfl | h
    · exact ⟨used, rfl⟩
    · exact absurd rfl h.2
  | fuel + 1, go, a, m, used, h => by
    by_cases hg : go = true
    · simp only [robustLoop, if_pos hg, hf, Res.bind, hnext]
      exact robustLoop_total hf hnext fuel _ b _ _ (Or.inl rfl)
    · rcases h with rfl | h
      · exact ⟨used, by simp only [robustLoop, if_neg hg]⟩
      · exact absurd h.1 hg

/-- **C111 fails.** `n ≥ 11` observations on a line, all of them neighbours of each other, an intercept, the response 1 at one of them and 0 at the others:
both methods give that observation weight 0 and report the coefficient 0 everywhere, but the prediction of the fitted model at the same places is `1/n`
everywhere. -/
theorem C111_predict_at_data_fails (hn : 11 ≤ n) (o : Fin n) (filtered sS : Bool) :
    ∃ r B, robustRun filtered (fun _ => .serial) (CRSDistance.new false) ⟨n, false, .Boxcar⟩ (linePoints n) (ones n) (Pi.single o 1) sS = .ok r ∧
      robustPredict (CRSDistance.new false) ⟨n, false, .Boxcar⟩ (linePoints n) (linePoints n) n (ones n) (Pi.single o 1) = .ok (B, false) ∧
      ∀ i, r.betas i 0 = 0 ∧ B i 0 = 1 / n := by
  have hn0 : 0 < n := by omega
  have hN : (11 : ℝ) ≤ n := by exact_mod_cast hn
  have hd : bindLocations (CRSDistance.new false) (linePoints n) (linePoints n) = .ok ⟨false, some (linePoints n, linePoints n)⟩ :=
    bindLocations_eq_ok.2 ⟨rfl, rfl, rfl⟩
  obtain ⟨a, ha, hab⟩ := onesFit (Pi.single o 1) sS (mask := fun _ : Fin n => 1) (fun _ => zero_le_one) ⟨o, one_pos⟩
  have hab' : ∀ i j, a.betas i j = 1 / n := fun i j => by rw [hab]; simp
  have hw : ∃ l, 0 < without o l := by
    by_contra hc
    push Not at hc
    have := without_sum o
    have h2 : ∑ l, without o l ≤ 0 := Finset.sum_nonpos fun l _ => hc l
    linarith
  obtain ⟨b, hb, hbb⟩ := onesFit (Pi.single o 1) sS (mask := without o) (fun l => by unfold without; split <;> norm_num) hw
  have hbb' : ∀ i j, b.betas i j = 0 := fun i j => by rw [hbb, without_unit, zero_div]
  have hcali : ∃ ms, robustCali filtered (fun _ => .serial) (ones n) (Pi.single o 1) (fun _ _ => 1) sS = .ok (b, ms) := by
    unfold robustCali
    by_cases hf : filtered = true
    · rw [if_pos hf]
      unfold caliFirst robustFitEx
      simp only [ha, Res.bind, outlier_first hn o ha hab', hb]
      exact ⟨_, rfl⟩
    · rw [if_neg hf]
      unfold caliSecond robustFitEx
      simp only [ha, Res.bind, outlier_filt hn o hab' (Or.inr rfl)]
      exact robustLoop_total hb (outlier_filt hn o hbb' (Or.inl rfl)) 20 true a _ _ (Or.inr ⟨rfl, by norm_num⟩)
  obtain ⟨ms, hms⟩ := hcali
  have hfit : gwrFit (CRSDistance.new false) ⟨n, false, .Boxcar⟩ (linePoints n) (ones n) (Pi.single o 1) sS false NoStop = .ok (a, false) := by
    unfold gwrFit
    rw [hd]
    simp only [Res.bind]
    rw [linePoints_rows hn0]
    unfold robustFit at ha
    obtain ⟨⟨a', t⟩, h1, h2⟩ := Res.bind_eq_ok'.1 ha
    cases Res.ok.inj h2
    have ht : t = false := serialFor_nostop _ _ _ h1
    subst ht
    have e : maskedW (fun _ _ => 1) (fun _ => 1) = (fun _ _ => 1 : Fin n → Fin n → ℝ) := by funext i l; simp [maskedW]
    rw [e] at h1
    exact h1
  have hrun : ∃ r, robustRun filtered (fun _ => .serial) (CRSDistance.new false) ⟨n, false, .Boxcar⟩ (linePoints n) (ones n) (Pi.single o 1) sS = .ok r ∧
      r.betas = b.betas := by
    unfold robustRun
    rw [hd]
    simp only [Res.bind, robustFinish]
    rw [linePoints_rows hn0]
    simp only [hms]
    exact ⟨_, rfl, rfl⟩
  obtain ⟨r, hr, hrb⟩ := hrun
  exact ⟨r, a.betas, hr, C50_predict_at_data_eq_fit _ _ _ _ _ _ _ _ hfit, fun i => ⟨by rw [hrb]; exact hbb' i 0, hab' i 0⟩⟩

/-- A run to which C110 applies, by either method, with an observation that gets weight 0. -/
example (filtered : Bool) : ∃ r mask C, robustRun filtered (fun _ => .serial) (CRSDistance.new false) ⟨(11 : ℕ), false, .Boxcar⟩ (linePoints 11) (ones 11)
    (Pi.single 3 1) true = .ok r ∧
    IsRobustFit filtered (ones 11) (Pi.single 3 1) (fun i l : Fin 11 => kernelFormula .Boxcar (11 : ℕ) (plane ((linePoints 11).val i) ((linePoints 11).val l)))
      r mask C := by
  obtain ⟨r, -, h, -⟩ := C111_predict_at_data_fails (n := 11) le_rfl 3 filtered true
  obtain ⟨mask, C, h'⟩ := C110_fit filtered (fun _ => .serial) (fun _ => trivial) none .Boxcar (11 : ℕ) (by norm_num) (linePoints 11) (ones 11) _ true r h
  exact ⟨r, mask, C, h, h'⟩

end Verif.Props

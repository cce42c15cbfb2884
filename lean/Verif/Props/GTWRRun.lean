import Verif.Model.GTWRRun
import Verif.Props.GTWR
import Verif.Props.GWRCriteria
import Verif.Props.GWRRidgeRun

/-! Whole runs of space-time regression (C104). -/

namespace Verif.Props
open Verif Verif.Model Verif.Spec Matrix Classical

variable {n k m : ℕ}

theorem stElem_eq (l c : ℝ) (p q : ℕ → ℝ) (t u : ℝ) : stElem l c (euclid p q) t u = stDist l c p q t u := by
  unfold stElem stDist spaceTime
  rw [euclid_eq_plane]
  by_cases h1 : l = 1
  · subst h1; simp [plane]
  · by_cases h2 : t < u
    · simp only [h1, h2, if_false, if_true, ne_eq, not_false_eq_true, and_self]; norm_num
    · have : |t - u| = t - u := abs_of_nonneg (by linarith)
      simp only [h1, h2, if_false, and_false, this, plane]

/-- Weights of a planar space-time run with a fixed positive bandwidth. -/
theorem st_fixed {d d' : CRSSTDistance} {coords : DynMat} (hd : STData n d coords) {τ : Fin n → ℝ}
    (hd' : gtwrBind d coords (List.ofFn τ) = .ok d') (kernel : KernelType) {bw : ℝ} (hb : 0 < bw) :
    stWeightRows d' ⟨bw, false, kernel⟩ n n = .ok fun i j =>
      kernelFormula kernel bw (stDist d.mLambda (stFactor d) (coords.val i) (coords.val j) (τ i) (τ j)) := by
  obtain ⟨d1, h1, h2, -⟩ := st_weights hd τ ⟨bw, false, kernel⟩
  rw [hd'] at h1
  cases Res.ok.inj h1
  refine Res.tabulate_eq_ok.2 fun i => ?_
  rw [h2, C97_fixed_kernel_formula _ _ hb]
  simp only [stElem_eq]

/-- Weights of a planar space-time run with an adaptive bandwidth. -/
theorem st_adaptive {d d' : CRSSTDistance} {coords : DynMat} (hd : STData n d coords) {τ : Fin n → ℝ}
    (hd' : gtwrBind d coords (List.ofFn τ) = .ok d') {kernel : KernelType} {q : ℕ} (h1 : 1 ≤ q) (h2 : q < n) (h3 : q < 2147483648)
    (hr : ∀ (i : Fin n) (r : ℝ),
      IsKthSmallest (fun j : Fin n => stDist d.mLambda (stFactor d) (coords.val i) (coords.val j) (τ i) (τ j)) q r → 0 < r)
    {W : Fin n → Fin n → ℝ} (h : stWeightRows d' ⟨q, true, kernel⟩ n n = .ok W) (i : Fin n) :
    ∃ r, IsKthSmallest (fun j : Fin n => stDist d.mLambda (stFactor d) (coords.val i) (coords.val j) (τ i) (τ j)) q r ∧
      W i = fun j : Fin n => kernelFormula kernel r (stDist d.mLambda (stFactor d) (coords.val i) (coords.val j) (τ i) (τ j)) := by
  obtain ⟨d1, h1', h2', -⟩ := st_weights hd τ ⟨q, true, kernel⟩
  rw [hd'] at h1'
  cases Res.ok.inj h1'
  have hw := Res.tabulate_eq_ok.1 h i
  rw [h2'] at hw
  simp only [stElem_eq] at hw
  have hk := sorted_get_isKth (fun j : Fin n => stDist d.mLambda (stFactor d) (coords.val i) (coords.val j) (τ i) (τ j)) h1 h2.le
  refine ⟨_, hk, ?_⟩
  rw [C97_adaptive_kernel_formula kernel _ q _ h1 h2 h3 hk (hr i _ hk)] at hw
  exact (Res.ok.inj hw).symm

/-- **C104 (coefficients, fixed bandwidth).** With planar coordinates and a positive fixed bandwidth, a completed fit returns the coefficients of
space-time regression: at every observation the unique minimiser of the sum of squares weighted by the kernel of the space-time distances. -/
theorem C104_fit_is_gtwr (d : CRSSTDistance) (kernel : KernelType) (bw : ℝ) (hb : 0 < bw) (coords : DynMat) (hd : STData n d coords)
    (τ : Fin n → ℝ) (x : Matrix (Fin n) (Fin k) ℝ) (y : Fin n → ℝ) (sS : Bool) (stop : ℕ → Bool) (a : FitAcc n k)
    (h : gtwrFit d ⟨bw, false, kernel⟩ coords (List.ofFn τ) x y sS stop = .ok (a, false)) :
    IsGTWRFixed kernel bw d.mLambda (stFactor d) (fun i => coords.val i) τ x y a.betas := by
  unfold gtwrFit at h
  rw [Res.bind_eq_ok'] at h
  obtain ⟨d', hd', h⟩ := h
  rw [st_fixed hd hd' kernel hb, Res.bind] at h
  exact fun i => C21_fit_is_weighted_least_squares x y _ sS false stop a h i

/-- **C104 (coefficients, adaptive bandwidth).** The same with a bandwidth of `q` neighbours, if no `q` observations have space-time distance zero from
an observation. -/
theorem C104_adaptive_fit_is_gtwr (d : CRSSTDistance) (kernel : KernelType) (q : ℕ) (h1 : 1 ≤ q) (h2 : q < n) (h3 : q < 2147483648)
    (coords : DynMat) (hd : STData n d coords) (τ : Fin n → ℝ) (x : Matrix (Fin n) (Fin k) ℝ) (y : Fin n → ℝ) (sS : Bool) (stop : ℕ → Bool)
    (hr : ∀ (i : Fin n) (r : ℝ),
      IsKthSmallest (fun j : Fin n => stDist d.mLambda (stFactor d) (coords.val i) (coords.val j) (τ i) (τ j)) q r → 0 < r)
    (a : FitAcc n k) (h : gtwrFit d ⟨q, true, kernel⟩ coords (List.ofFn τ) x y sS stop = .ok (a, false)) :
    IsGTWRAdaptive kernel q d.mLambda (stFactor d) (fun i => coords.val i) τ x y a.betas := by
  unfold gtwrFit at h
  rw [Res.bind_eq_ok'] at h
  obtain ⟨d', hd', h⟩ := h
  rw [Res.bind_eq_ok'] at h
  obtain ⟨W, hW, h⟩ := h
  intro i
  have := C21_fit_is_weighted_least_squares x y W sS false stop a h i
  obtain ⟨r, hk, e⟩ := st_adaptive hd hd' h1 h2 h3 hr hW i
  rw [e] at this
  exact ⟨r, hk, this⟩

theorem stData_lambda {d : CRSSTDistance} {coords : DynMat} (hd : STData n d coords) {l : ℝ} (hl : l = 1 ∨ ¬ |l - 1| < 1e-16) :
    STData n { d with mLambda := l } coords := ⟨hd.spatial, hd.temporal, hl, hd.cols, hd.rows⟩

/-- **C104 (objective of the search for lambda).** What the search compares at a λ in [0,1] is `1 - RSS/TSS` of the space-time regression with that λ
and the given bandwidth; it has no finite value if the response is constant. -/
theorem C104_objective (d : CRSSTDistance) (kernel : KernelType) (bw : ℝ) (hb : 0 < bw) (coords : DynMat) (hd : STData n d coords)
    (τ : Fin n → ℝ) (x : Matrix (Fin n) (Fin k) ℝ) (y : Fin n → ℝ) (l : ℝ) (h01 : 0 ≤ l ∧ l ≤ 1) (hl : l = 1 ∨ ¬ |l - 1| < 1e-16)
    (t : Bool) (v : Option ℝ) (h : rsquareByLambda d ⟨bw, false, kernel⟩ coords (List.ofFn τ) x y NoStop l = .ok (t, v)) :
    ∃ B, IsGTWRFixed kernel bw l (stFactor d) (fun i => coords.val i) τ x y B ∧ t = false ∧
      (∑ i, (y i - (∑ i, y i) / n) ^ 2 ≠ 0 → v = some (1 - residualSS x y B / ∑ i, (y i - (∑ i, y i) / n) ^ 2)) ∧
      (∑ i, (y i - (∑ i, y i) / n) ^ 2 = 0 → v = none) := by
  unfold rsquareByLambda at h
  rw [(C12_setLambda d l).1 h01] at h
  simp only at h
  rw [Res.bind_eq_ok'] at h
  obtain ⟨d', hd', h⟩ := h
  rw [st_fixed (stData_lambda hd hl) hd' kernel hb, Res.bind] at h
  rw [Res.bind_eq_ok'] at h
  obtain ⟨⟨B, t'⟩, hp, h⟩ := h
  have ht : t' = false := serialFor_nostop _ _ _ hp
  subst ht
  obtain ⟨rfl, rfl⟩ := Prod.mk.inj (Res.ok.inj h)
  have e : ∑ i, (y i - meanVec y) * (y i - meanVec y) = ∑ i, (y i - (∑ i, y i) / n) ^ 2 := by simp only [meanVec, sq]
  refine ⟨B, fun i => ?_, rfl, fun h0 => ?_, fun h0 => ?_⟩
  · exact C21_prediction_is_weighted_least_squares x y _ NoStop B hp i
  · simp only [Bool.false_eq_true, if_false, e, fdiv, h0, Res.bind, rss_eq]; rfl
  · simp only [Bool.false_eq_true, if_false, e, fdiv, h0, if_true, Res.bind]; rfl

theorem flog_ok {a v : ℝ} (h : flog a = .ok v) : v = Real.log a := by
  unfold flog at h
  by_cases ha : a ≤ 0
  · rw [if_pos ha] at h; cases h
  · rw [if_neg ha] at h; exact (Res.ok.inj h).symm

/-- The search only looks at its objective on [0,1]. -/
theorem lambda_congr {R R' : ℕ → ℝ → Res (Bool × Option ℝ)} (hR : ∀ j l, 0 ≤ l ∧ l ≤ 1 → R j l = R' j l) :
    lambdaAutoSelection R = lambdaAutoSelection R' := by
  have r1 := ratio_gt
  have r2 := ratio_lt
  have h0 : lambdaInit R = lambdaInit R' := by
    unfold lambdaInit
    simp only
    rw [hR 0 0 (by norm_num), hR 1 1 (by norm_num), hR 2 _ (by constructor <;> linarith), hR 3 _ (by constructor <;> linarith)]
  have hstep : ∀ s j, Bracket s j → lambdaStep R s = lambdaStep R' s := by
    intro s j hs
    obtain ⟨h1, h2, h3, h4, h5, -, -⟩ := hs
    have hw : 0 < lambdaRatio ^ j := pow_pos ratio_pos j
    have hq : s.q - s.a = lambdaRatio * lambdaRatio ^ j := by rw [h5, h3]; ring
    have hp : s.b - s.p = lambdaRatio * lambdaRatio ^ j := by rw [h4]; linear_combination lambdaRatio * h3
    have hqp : 0 < lambdaRatio * lambdaRatio ^ j := mul_pos ratio_pos hw
    have hp0 : 0 ≤ s.p := by rw [h4, h3]; nlinarith
    unfold lambdaStep
    simp only
    rw [hR _ (s.a + (1 - lambdaRatio) * (s.q - s.a)) (by rw [hq]; constructor <;> nlinarith),
      hR _ (s.p + lambdaRatio * (s.b - s.p)) (by rw [hp]; constructor <;> nlinarith)]
  have hloop : ∀ fuel s j, Bracket s j → lambdaLoop R fuel s = lambdaLoop R' fuel s := by
    intro fuel
    induction fuel with
    | zero => intro s j _; rfl
    | succ fuel ih =>
      intro s j hs
      rw [lambdaLoop, lambdaLoop]
      split
      · rw [hstep s j hs]
        cases h : lambdaStep R' s with
        | ok s' => exact ih s' (j + 1) (bracket_step hs h)
        | throw e => rfl
        | ub => rfl
        | nonfinite => rfl
      · rfl
  have key : ∀ (fuel : ℕ) (G : LambdaState → Res (ℝ × LambdaState)),
      ((lambdaInit R').bind fun s0 => (lambdaLoop R fuel s0).bind G) = (lambdaInit R').bind fun s0 => (lambdaLoop R' fuel s0).bind G := by
    intro fuel G
    cases h : lambdaInit R' with
    | ok s => simp only [Res.bind]; rw [hloop fuel s 0 (bracket_init h)]
    | throw e => rfl
    | ub => rfl
    | nonfinite => rfl
  unfold lambdaAutoSelection
  rw [h0]
  exact key 100 _

/-- **C104 (selected lambda).** If R² of the data, as a function of λ in [0,1], has a single peak `m`, then the λ of a fit with automatic λ is within
half of `0.618^j` of the peak, where `j` is the number of rounds of the search: 100, or fewer if R² at the ends of a bracket of width `0.618^j` around the
peak agrees up to 1e-12. The coefficients are those of the fit with that λ. -/
theorem C104_lambda_near_peak (d : CRSSTDistance) (b : BandwidthWeight) (coords : DynMat) (times : List ℝ) (x : Matrix (Fin n) (Fin k) ℝ)
    (y : Fin n → ℝ) (sS : Bool) (f : ℝ → ℝ) (m : ℝ) (hm : UnimodalAt f m)
    (hf : ∀ l, 0 ≤ l ∧ l ≤ 1 → rsquareByLambda d b coords times x y NoStop l = .ok (false, some (f l))) (l : ℝ) (a : FitAcc n k × Bool)
    (h : gtwrLambdaFit d b coords times x y sS = .ok (l, a)) :
    (∃ (j : ℕ) (lo hi : ℝ), j ≤ 100 ∧ lo ≤ m ∧ m ≤ hi ∧ |l - m| ≤ ((√5 - 1) / 2) ^ j / 2 ∧ (j = 100 ∨ |f lo - f hi| < 1e-12)) ∧
      gtwrFit { d with mLambda := l } b coords times x y sS NoStop = .ok a := by
  refine ⟨?_, (C44_fit_uses_selected d b coords times x y sS l a h).2⟩
  unfold gtwrLambdaFit at h
  rw [Res.bind_eq_ok'] at h
  obtain ⟨⟨l', s⟩, hs, h⟩ := h
  have hl := (C44_lambda_in_range _ _ _ hs).1
  simp only at h
  rw [(C12_setLambda d l').1 hl] at h
  simp only [Res.bind_eq_ok'] at h
  obtain ⟨a', -, h⟩ := h
  obtain ⟨rfl, rfl⟩ := Prod.mk.inj (Res.ok.inj h)
  rw [lambda_congr (R' := fun _ l => .ok (false, some (f l))) fun j l hl => hf l hl] at hs
  obtain ⟨h1, h2, h3, h4⟩ := C74_single_peak_partial f m hm l' s hs
  obtain ⟨-, -, h5, h6, -⟩ := C44_lambda_in_range _ _ _ hs
  exact ⟨s.evals.length - 4, s.a, s.b, by omega, h1, h2, h3, h4.imp (fun h => by omega) id⟩

/-- The traces of a fit are those of its hat matrix. -/
theorem fit_traces {x : Matrix (Fin n) (Fin k) ℝ} {y : Fin n → ℝ} {W : Fin n → Fin n → ℝ} {sS sC : Bool} {stop : ℕ → Bool} {a : FitAcc n k}
    (h : fitCoreSerial x y W 0 n sS sC stop = .ok (a, false)) :
    a.shat 0 = ∑ i, hatEntry x (W i) i i ∧ a.shat 1 = ∑ i, ∑ l, hatEntry x (W i) i l ^ 2 := by
  have hc := (fitCoreSerial_ok h).2
  have e : ∀ i l, (fitAt x y W i).si l = hatEntry x (W i) i l := by
    intro i l
    have : (Matrix.of fun a b => ∑ l, x l a * W i l * x l b : Matrix (Fin k) (Fin k) ℝ) = xtwx x (W i) := by ext a b; rfl
    rw [hat_entry, hatEntry, this, dotProduct_mulVec]
    simp only [dotProduct, mul_comm]
  rw [hc.shat, sum_workRange, Finset.sum_apply, Finset.sum_apply]
  constructor <;> refine Finset.sum_congr rfl fun i _ => ?_
  · exact e i i
  · show ∑ l, (fitAt x y W i).si l * (fitAt x y W i).si l = _
    simp only [e, sq]

/-- **C104 (run).** A run of space-time regression with planar coordinates, a fixed-bandwidth kernel, any choice of automatic selections, that reports a
bandwidth `b`, a λ and coefficients: the kernel is the one that was set, a λ or bandwidth that was not to be selected is the one that was set, a selected
λ is in [0,1], and the coefficients are those of space-time regression with the reported bandwidth and λ. The diagnostics are the textbook functions
of the residuals of these coefficients and the traces of the hat matrix. -/
theorem C104_run (crit : Option Crit) (autoLambda : Bool) (d : CRSSTDistance) (kernel : KernelType) (bw0 : ℝ) (coords : DynMat)
    (hd : STData n d coords) (τ : Fin n → ℝ) (x : Matrix (Fin n) (Fin k) ℝ) (y : Fin n → ℝ) (sS : Bool) (r : GtwrResult n k)
    (h : gtwrRun crit autoLambda d ⟨bw0, false, kernel⟩ coords (List.ofFn τ) x y sS = .ok r)
    (hb : 0 < r.weight.mBandwidth) (hl : r.lambda = 1 ∨ ¬ |r.lambda - 1| < 1e-16) :
    r.weight.mAdaptive = false ∧ r.weight.mKernel = kernel ∧ (crit = none → r.weight.mBandwidth = bw0) ∧
      (autoLambda = false → r.lambda = d.mLambda) ∧ (autoLambda = true → 0 ≤ r.lambda ∧ r.lambda ≤ 1) ∧
      IsGTWRFixed kernel r.weight.mBandwidth r.lambda (stFactor d) (fun i => coords.val i) τ x y r.acc.betas ∧
      let S := fun i l : Fin n => hatEntry x (fun j =>
        kernelFormula kernel r.weight.mBandwidth (stDist r.lambda (stFactor d) (coords.val i) (coords.val j) (τ i) (τ j))) i l
      let rss := residualSS x y r.acc.betas
      r.diagnostic.RSS = rss ∧
      r.diagnostic.ENP = 2 * ∑ i, S i i - ∑ i, ∑ l, S i l ^ 2 ∧
      r.diagnostic.EDF = n - 2 * ∑ i, S i i + ∑ i, ∑ l, S i l ^ 2 ∧
      (∀ v, r.diagnostic.AIC = .ok v → v = aicFormula n rss (∑ i, S i i)) ∧
      (∀ v, r.diagnostic.AICc = .ok v → v = aiccFormula n rss (∑ i, S i i)) ∧
      (∀ v, r.diagnostic.RSquare = .ok v → v = 1 - rss / ∑ i, (y i - (∑ i, y i) / n) ^ 2) ∧
      (∀ v, r.diagnostic.RSquareAdjust = .ok v →
        v = 1 - rss / (∑ i, (y i - (∑ i, y i) / n) ^ 2) * (n - 1) / (r.diagnostic.EDF - 1)) := by
  unfold gtwrRun at h
  rw [Res.bind_eq_ok'] at h
  obtain ⟨d', hd', h⟩ := h
  rw [Res.bind_eq_ok'] at h
  obtain ⟨b, hsel, h⟩ := h
  rw [Res.bind_eq_ok'] at h
  obtain ⟨⟨l, a, t⟩, hfit, h⟩ := h
  have hr := (Res.ok.inj h).symm
  subst hr
  simp only at hb hl ⊢
  have hkind : b.mKernel = kernel ∧ b.mAdaptive = false ∧ (crit = none → b.mBandwidth = bw0) := by
    cases crit with
    | none => cases Res.ok.inj hsel; exact ⟨rfl, rfl, fun _ => rfl⟩
    | some c =>
      simp only at hsel
      rw [Res.bind_eq_ok'] at hsel
      obtain ⟨sr, hsr, hout⟩ := hsel
      unfold gtwrSelectBandwidth at hsr
      rw [Res.bind_eq_ok'] at hsr
      obtain ⟨lu, -, hsr⟩ := hsr
      simp only at hsr
      split at hsr
      · cases Res.ok.inj hsr
        obtain ⟨h1, h2⟩ := C17_kernel_kind_kept _ _ _ _ _ _ hout
        exact ⟨h1, h2, fun h => by cases h⟩
      · cases hsr
  obtain ⟨hk, ha, hbw⟩ := hkind
  have hf : (autoLambda = false → l = d.mLambda) ∧ (autoLambda = true → 0 ≤ l ∧ l ≤ 1) ∧
      gtwrFit { d with mLambda := l } b coords (List.ofFn τ) x y sS NoStop = .ok (a, t) := by
    by_cases hau : autoLambda = true
    · rw [if_pos hau] at hfit
      obtain ⟨h1, h2⟩ := C44_fit_uses_selected d b coords _ x y sS l (a, t) hfit
      exact ⟨fun h => (by rw [hau] at h; cases h), fun _ => h1, h2⟩
    · rw [if_neg hau, Res.bind_eq_ok'] at hfit
      obtain ⟨p, hp, he⟩ := hfit
      obtain ⟨rfl, rfl⟩ := Prod.mk.inj (Res.ok.inj he)
      exact ⟨fun _ => rfl, fun h => absurd h hau, hp⟩
  obtain ⟨hf1, hf2, hf3⟩ := hf
  obtain ⟨bw, ad, ker⟩ := b
  simp only at hk ha hbw hb ⊢
  subst hk ha
  have hf4 := hf3
  unfold gtwrFit at hf4
  rw [Res.bind_eq_ok'] at hf4
  obtain ⟨d1, hd1, hf4⟩ := hf4
  rw [st_fixed (stData_lambda hd hl) hd1 ker hb, Res.bind] at hf4
  have ht : t = false := serialFor_nostop _ _ _ hf4
  subst ht
  have hfac : stFactor { d with mLambda := l } = stFactor d := rfl
  simp only [hfac] at hf4
  obtain ⟨t1, t2⟩ := fit_traces hf4
  refine ⟨rfl, rfl, hbw, hf1, hf2, C104_fit_is_gtwr { d with mLambda := l } ker bw hb coords (stData_lambda hd hl) τ x y sS NoStop a hf3,
    rss_eq x y a.betas, ?_, ?_, ?_, ?_, ?_, ?_⟩
  · simp only [calcDiagnostic, t1, t2]
  · simp only [calcDiagnostic, t1, t2]
  · intro v hv
    simp only [calcDiagnostic] at hv
    obtain ⟨q, hq, h1⟩ := Res.bind_eq_ok'.1 hv
    obtain ⟨lg, hlg, h2⟩ := Res.bind_eq_ok'.1 h1
    rw [← Res.ok.inj h2, flog_ok hlg, fdiv_ok hq, rss_eq, t1]; rfl
  · intro v hv
    have hv' : aicc x y a.betas (a.shat 0) = .ok v := hv
    rw [aicc_formula hv', t1]
  · intro v hv
    simp only [calcDiagnostic] at hv
    obtain ⟨q, hq, h1⟩ := Res.bind_eq_ok'.1 hv
    rw [← Res.ok.inj h1, fdiv_ok hq, rss_eq]
    simp only [meanVec, sq]
  · intro v hv
    simp only [calcDiagnostic] at hv ⊢
    obtain ⟨q, hq, h1⟩ := Res.bind_eq_ok'.1 hv
    obtain ⟨q', hq', h2⟩ := Res.bind_eq_ok'.1 hq
    obtain ⟨q3, hq3, h3⟩ := Res.bind_eq_ok'.1 h1
    rw [← Res.ok.inj h3, fdiv_ok hq3, ← Res.ok.inj h2, fdiv_ok hq', rss_eq]
    simp only [meanVec, sq, sub_sub_cancel]

/-- **C104 (bandwidth choice).** If the bandwidth is selected with the criterion `c`, the reported bandwidth is one of the bandwidths tried and has the
smallest score of them. Scores are computed with the λ that was set before the run — not with the reported one, if λ is selected too: the leave-one-out
score of the kernel weights for CV, the corrected AIC for AIC. -/
theorem C104_bandwidth_choice (c : Crit) (autoLambda : Bool) (d : CRSSTDistance) (kernel : KernelType) (bw0 : ℝ) (coords : DynMat)
    (hd : STData n d coords) (τ : Fin n → ℝ) (x : Matrix (Fin n) (Fin k) ℝ) (y : Fin n → ℝ) (sS : Bool) (r : GtwrResult n k)
    (h : gtwrRun (some c) autoLambda d ⟨bw0, false, kernel⟩ coords (List.ofFn τ) x y sS = .ok r) :
    ∃ tried : List (ℝ × ℝ), 2 ≤ tried.length ∧ (∃ v, (r.weight.mBandwidth, v) ∈ tried ∧ ∀ q ∈ tried, v ≤ q.2) ∧
      ∀ q ∈ tried, 0 < q.1 →
        let W := fun i j : Fin n =>
          kernelFormula kernel q.1 (stDist d.mLambda (stFactor d) (coords.val i) (coords.val j) (τ i) (τ j))
        match c with
        | .CV => IsLeaveOneOut x y W dblMax q.2
        | .AIC => IsCorrectedAIC x y W dblMax q.2 := by
  unfold gtwrRun at h
  rw [Res.bind_eq_ok'] at h
  obtain ⟨d', hd', h⟩ := h
  rw [Res.bind_eq_ok'] at h
  obtain ⟨b, hsel, h⟩ := h
  rw [Res.bind_eq_ok'] at h
  obtain ⟨p, -, h⟩ := h
  have hr := (Res.ok.inj h).symm
  subst hr
  simp only at hsel ⊢
  rw [Res.bind_eq_ok'] at hsel
  obtain ⟨sr, hsr, hout⟩ := hsel
  unfold gtwrSelectBandwidth at hsr
  rw [Res.bind_eq_ok'] at hsr
  obtain ⟨lu, -, hsr⟩ := hsr
  simp only at hsr
  split at hsr
  · rename_i hc
    cases Res.ok.inj hsr
    have hev := optimize_evals ⟨bw0, false, kernel⟩ lu.1 lu.2 (gtwrScore c d' x y) []
    obtain ⟨e, he, hx, hmin⟩ := C14_returns_best_evaluated _ _ _ _ _ _ hout fun e he => (hev e he).1
    refine ⟨(optimize ⟨bw0, false, kernel⟩ lu.1 lu.2 (fun _ b => (true, gtwrScore c d' x y b)) []).evals.map fun e => (e.x, e.f), ?_,
      ⟨e.f, List.mem_map.2 ⟨e, he, by rw [hx]⟩, ?_⟩, ?_⟩
    · rw [List.length_map]; exact (C16_call_bound _ _ _ _ _).1
    · rintro q hq
      obtain ⟨e', he', rfl⟩ := List.mem_map.1 hq
      exact hmin e' he'
    · rintro q hq hpos
      obtain ⟨e', he', rfl⟩ := List.mem_map.1 hq
      have hfe := (hev e' he').2
      have hW := st_fixed hd hd' kernel hpos
      have hnn : ∀ i j : Fin n, 0 ≤ kernelFormula kernel e'.x (stDist d.mLambda (stFactor d) (coords.val i) (coords.val j) (τ i) (τ j)) :=
        fun _ _ => kernelFormula_nonneg kernel hpos _
      cases c with
      | CV =>
        simp only [gtwrScore, gtwrCriterion, hW] at hfe
        simp only [hfe]
        exact loo_spec x y hnn
      | AIC =>
        simp only [gtwrScore, gtwrCriterion, hW] at hfe
        simp only [hfe]
        exact aicc_spec x y hnn
  · cases hsr

/-- A run to which C104 applies: three points on a line observed at times 0, 1, 2, Gaussian kernel, λ = 1/2. -/
example : ∃ r, gtwrRun none false (exST (1 / 2)) ⟨1, false, .Gaussian⟩ (lineCoords 2) (List.ofFn ![0, 1, 2]) exX ![1, 3, 2] true = .ok r ∧
    IsGTWRFixed .Gaussian 1 (1 / 2) 1 (fun i => (lineCoords 2).val i) ![0, 1, 2] exX ![1, 3, 2] r.acc.betas := by
  have hd : STData 3 (exST (1 / 2)) (lineCoords 2) := exST_data _ (Or.inr (by norm_num)) _ rfl rfl
  obtain ⟨d', hd', -⟩ := st_distance hd ![0, 1, 2]
  have hW := st_fixed hd hd' .Gaussian (bw := 1) one_pos
  obtain ⟨a, ha⟩ := (C21_fit_succeeds_iff exX ![1, 3, 2] (fun i j : Fin 3 => kernelFormula .Gaussian 1
      (stDist (exST (1 / 2)).mLambda (stFactor (exST (1 / 2))) ((lineCoords 2).val i) ((lineCoords 2).val j) (![0, 1, 2] i) (![0, 1, 2] j)))
    (fun i l => (Real.exp_pos _).le) true false).1.2 (fun i => exX_determined _ fun l => Real.exp_pos _)
  have hf : gtwrFit (exST (1 / 2)) ⟨1, false, .Gaussian⟩ (lineCoords 2) (List.ofFn ![0, 1, 2]) exX ![1, 3, 2] true NoStop = .ok (a, false) := by
    unfold gtwrFit
    rw [hd', Res.bind, hW, Res.bind, ha]
  refine ⟨⟨⟨1, false, .Gaussian⟩, 1 / 2, a, calcDiagnostic exX ![1, 3, 2] a.betas a.shat⟩, ?_,
    C104_fit_is_gtwr _ .Gaussian 1 one_pos _ hd _ _ _ _ _ a hf⟩
  unfold gtwrRun
  rw [hd', Res.bind]
  simp only [Res.bind, Bool.false_eq_true, if_false]
  rw [show (fun _ : ℕ => false) = NoStop from rfl, hf]
  rfl

end Verif.Props

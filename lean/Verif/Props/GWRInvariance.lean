import Verif.Props.GWRBasicRun

/-! # C121: what a whole run of basic regression does under changes of unit -/

namespace Verif.Props
open Verif Verif.Model Verif.Spec Matrix

variable {n k : ℕ}

theorem wls_transform {x x' : Matrix (Fin n) (Fin k) ℝ} {y y' w : Fin n → ℝ} {a : ℝ} (ha : a ≠ 0) (T : (Fin k → ℝ) → Fin k → ℝ)
    (hT : Function.Injective T) (h : ∀ b, wss x' y' w b = a ^ 2 * wss x y w (T b)) {b : Fin k → ℝ} (hb : IsWLS x y w (T b)) : IsWLS x' y' w b := by
  intro b' hne
  rw [h, h]
  exact mul_lt_mul_of_pos_left (hb _ (hT.ne hne)) (by positivity)

theorem wls_response {x : Matrix (Fin n) (Fin k) ℝ} {y w : Fin n → ℝ} {b : Fin k → ℝ} {a : ℝ} (ha : a ≠ 0) (h : IsWLS x y w b) :
    IsWLS x (fun l => a * y l) w fun j => a * b j := by
  have e : (fun j => a⁻¹ * (a * b j)) = b := by funext j; field_simp
  refine wls_transform ha (fun b j => a⁻¹ * b j) (fun u v huv => ?_) (fun b => ?_) (by simp only [e]; exact h)
  · funext j
    exact mul_left_cancel₀ (inv_ne_zero ha) (congrFun huv j)
  · simp only [wss, Finset.mul_sum]
    refine Finset.sum_congr rfl fun l _ => ?_
    have : ∑ j, x l j * (a⁻¹ * b j) = a⁻¹ * ∑ j, x l j * b j := by
      rw [Finset.mul_sum]; exact Finset.sum_congr rfl fun j _ => by ring
    have e2 : ∑ j, x l j * b j = a * (a⁻¹ * ∑ j, x l j * b j) := by field_simp
    rw [this, e2]
    field_simp

theorem wls_covariates {x : Matrix (Fin n) (Fin k) ℝ} {y w : Fin n → ℝ} {b s : Fin k → ℝ} (hs : ∀ j, s j ≠ 0) (h : IsWLS x y w b) :
    IsWLS (fun i j => s j * x i j) y w fun j => b j / s j := by
  have e : (fun j => s j * (b j / s j)) = b := by funext j; have := hs j; field_simp
  refine wls_transform one_ne_zero (fun b j => s j * b j) (fun u v huv => ?_) (fun b => ?_) (by simp only [e]; exact h)
  · funext j
    exact mul_left_cancel₀ (hs j) (congrFun huv j)
  · simp only [wss, one_pow, one_mul]
    refine Finset.sum_congr rfl fun l _ => ?_
    have : ∑ j, s j * x l j * b j = ∑ j, x l j * (s j * b j) := Finset.sum_congr rfl fun j _ => by ring
    rw [this]

theorem wls_shift {x : Matrix (Fin n) (Fin k) ℝ} {y w : Fin n → ℝ} {b : Fin k → ℝ} (γ : Fin k → ℝ) (h : IsWLS x y w b) :
    IsWLS x (fun l => y l + ∑ j, x l j * γ j) w fun j => b j + γ j := by
  have e : (fun j => b j + γ j - γ j) = b := by funext j; ring
  refine wls_transform one_ne_zero (fun b j => b j - γ j) (fun u v huv => ?_) (fun b => ?_) (by simp only [e]; exact h)
  · funext j
    have := congrFun huv j
    simp only [sub_left_inj] at this
    exact this
  · simp only [wss, one_pow, one_mul, mul_sub, Finset.sum_sub_distrib]
    refine Finset.sum_congr rfl fun l _ => ?_
    ring

theorem report_unique {x : Matrix (Fin n) (Fin k) ℝ} {y : Fin n → ℝ} {w : Fin n → Fin n → ℝ} {B B' : Matrix (Fin n) (Fin k) ℝ}
    {C C' : Fin n → Fin k → Fin n → ℝ} (h : IsLocalRegression x y w B C) (h' : IsLocalRegression x y w B' C') : B = B' ∧ C = C' := by
  constructor
  · funext i; exact wls_unique (h.coefficients i) (h'.coefficients i)
  · funext i j l; exact congrFun (wls_unique (h.unit i l) (h'.unit i l)) j

/-- **C121 (map).** Two maps of the same places, planar or geographic, whose distances are proportional (another unit, a shift, a rotation, a reflection,
another projection that keeps the shape): with the same kernel, and a fixed bandwidth in the same proportion or the same adaptive one, a fit on the second map does exactly what
the fit on the first does, except for the bandwidth it names. -/
theorem C121_map (ex : Exec n) (geo geo' : Bool) (par par' : Option (DynMat × DynMat)) (b b' : BandwidthWeight) (coords coords' : DynMat)
    (hc : FitsData coords n) (hc' : FitsData coords' n) (dist dist' : Fin n → Fin n → ℝ) (hd : IsMapDistance geo coords coords dist)
    (hd' : IsMapDistance geo' coords' coords' dist') (c : ℝ) (hc0 : 0 < c) (hdd : ∀ i l, dist' i l = c * dist i l) (hb : UsableRadius b dist)
    (hk : b'.mKernel = b.mKernel) (ha : b'.mAdaptive = b.mAdaptive)
    (hbw : b'.mBandwidth = if b.mAdaptive = true then b.mBandwidth else c * b.mBandwidth) (x : Matrix (Fin n) (Fin k) ℝ) (y : Fin n → ℝ) (sS sC : Bool) :
    gwrRun ex ⟨geo', par'⟩ b' coords' x y sS sC = (gwrRun ex ⟨geo, par⟩ b coords x y sS sC).bind fun g => .ok { g with weight := b' } := by
  obtain ⟨W, h1, h2, h3⟩ := kernelRows hc.2 hc.2 hd hb id
  obtain ⟨W', h1', h2', h3'⟩ := kernelRows hc'.2 hc'.2 hd' (usableRadius_scale hc0 hdd ha hbw hb) id
  obtain rfl := kernelWeight_unique h2' (kernelWeight_scale hc0 hdd hk ha hbw h2)
  have e1 : bindLocations ⟨geo, par⟩ coords coords = .ok ⟨geo, some (coords, coords)⟩ := bindLocations_eq_ok.2 ⟨hc.1, hc.1, rfl⟩
  have e2 : bindLocations ⟨geo', par'⟩ coords' coords' = .ok ⟨geo', some (coords', coords')⟩ := bindLocations_eq_ok.2 ⟨hc'.1, hc'.1, rfl⟩
  have s1 : ∀ {d' : CRSDistance} {b : BandwidthWeight}, weightRows d' b n n = .ok W' → summaryEscape ex (weightRows d' b n n) = .ok W' := fun h => by
    rw [h]; cases ex <;> rfl
  unfold gwrRun
  rw [e1, e2]
  simp only [Res.bind]
  unfold gwrFinish
  rw [s1 h1, s1 h1']
  simp only [Res.bind]
  cases gwrCoreEx x y W' sS sC ex <;> rfl

/-- What the fits of the same observations with two descriptions of the data have in common apart from the coefficients and standard errors: hat matrix,
degrees of freedom and their shares. -/
structure SameSmoother (sS : Bool) (g g' : GWRReport n k) : Prop where
  enp : g'.diagnostic.ENP = g.diagnostic.ENP
  edf : g'.diagnostic.EDF = g.diagnostic.EDF
  traces : g'.shat = g.shat
  qdiag : g'.qdiag = g.qdiag
  hat : sS = true → ∀ i l : Fin n, g'.s i l = g.s i l

theorem sameSmoother {x x' : Matrix (Fin n) (Fin k) ℝ} {y y' : Fin n → ℝ} {w : Fin n → Fin n → ℝ} {sS sC : Bool} {g g' : GWRReport n k}
    {C C' : Fin n → Fin k → Fin n → ℝ} (h : IsGWRReport x y w sS sC g C) (h' : IsGWRReport x' y' w sS sC g' C')
    (hh : ∀ i l, hatOf x' C' i l = hatOf x C i l) : SameSmoother sS g g' := by
  have hq : ∀ l, residualDfAt x' C' l = residualDfAt x C l := fun l => by simp only [residualDfAt, hh]
  have hr : residualDf x' C' = residualDf x C := by simp only [residualDf, hq]
  refine ⟨by rw [h.reports.enp, h'.reports.enp, hr], by rw [h.reports.edf, h'.reports.edf, hr], ?_, ?_, fun hs i l => ?_⟩
  · funext q
    fin_cases q
    · have := h'.traces.1; simp only [hh] at this; exact this.trans h.traces.1.symm
    · have := h'.traces.2; simp only [hh] at this; exact this.trans h.traces.2.symm
  · funext l; rw [h.qdiag, h'.qdiag, hq]
  · rw [h.hat hs, h'.hat hs, hh]

/-- **C121 (unit of the response).** If the response is multiplied by `a ≠ 0` (another unit, or the opposite sign), a fit that succeeded succeeds again, in any mode: the
coefficients are multiplied by `a`, their standard errors by `|a|`, the residual sum of squares by `a²`; the Akaike criteria move by `n log a²`; the hat
matrix, the degrees of freedom, the R² and the adjusted R² do not change. -/
theorem C121_response (ex ex' : Exec n) (hex : ex.Valid) (hex' : ex'.Valid) (geo : Bool) (par par' : Option (DynMat × DynMat)) (b : BandwidthWeight) (coords : DynMat)
    (hc : FitsData coords n) (dist : Fin n → Fin n → ℝ) (hd : IsMapDistance geo coords coords dist) (hb : UsableRadius b dist)
    (x : Matrix (Fin n) (Fin k) ℝ) (y : Fin n → ℝ) (sS sC : Bool) (a : ℝ) (ha : a ≠ 0) (g : GWRReport n k)
    (h : gwrRun ex ⟨geo, par⟩ b coords x y sS sC = .ok g) :
    ∃ g', gwrRun ex' ⟨geo, par'⟩ b coords x (fun i => a * y i) sS sC = .ok g' ∧ SameSmoother sS g g' ∧
      (∀ i j, g'.betas i j = a * g.betas i j) ∧ g'.diagnostic.RSS = a ^ 2 * g.diagnostic.RSS ∧
      (0 < g.diagnostic.RSS → ∃ v, g.diagnostic.AIC = .ok v ∧ g'.diagnostic.AIC = .ok (v + n * Real.log (a ^ 2))) ∧
      (0 < g.diagnostic.RSS → g.shat 0 ≠ n - 2 → ∃ v, g.diagnostic.AICc = .ok v ∧ g'.diagnostic.AICc = .ok (v + n * Real.log (a ^ 2))) ∧
      (totalSS y ≠ 0 → ∃ v, g.diagnostic.RSquare = .ok v ∧ g'.diagnostic.RSquare = .ok v) ∧
      (totalSS y ≠ 0 → g.diagnostic.EDF ≠ 1 → ∃ v, g.diagnostic.RSquareAdjust = .ok v ∧ g'.diagnostic.RSquareAdjust = .ok v) ∧
      (g.diagnostic.EDF ≠ 0 → ∀ i j, ∃ v, g.se i j = .ok v ∧ g'.se i j = .ok (|a| * v)) ∧
      (sC = true → ∀ (i : Fin n) (j : Fin k) (l : Fin n), g'.c i j l = g.c i j l) := by
  obtain ⟨w, -, hw, hw0⟩ := kernelRows hc.2 hc.2 hd hb id
  obtain ⟨f1, f2⟩ := C118_fit ex hex geo par b coords hc dist w hd hb hw x y sS sC
  have hdet : ∀ i, Determined x (w i) := by
    by_contra hno
    push Not at hno
    obtain ⟨e, he⟩ := f2 hno
    rw [he] at h; cases h
  obtain ⟨g0, C, e, -, hC⟩ := f1 hdet
  cases Res.ok.inj (h.symm.trans e)
  obtain ⟨g', C', h', -, hC'⟩ := (C118_fit ex' hex' geo par' b coords hc dist w hd hb hw x (fun i => a * y i) sS sC).1 hdet
  have hreg : IsLocalRegression x (fun i => a * y i) w (fun i j => a * g.betas i j) C :=
    ⟨fun i => wls_response ha (hC.regression.coefficients i), hC.regression.unit⟩
  obtain ⟨eB, rfl⟩ := report_unique hC'.regression hreg
  have hss := sameSmoother hC hC' fun _ _ => rfl
  have a2 : 0 < a ^ 2 := by positivity
  have hR : residualSS x (fun i => a * y i) g'.betas = a ^ 2 * residualSS x y g.betas := by
    rw [eB]
    simp only [residualSS, Finset.mul_sum]
    refine Finset.sum_congr rfl fun i _ => ?_
    have : ∑ j, x i j * (a * g.betas i j) = a * ∑ j, x i j * g.betas i j := by
      rw [Finset.mul_sum]; exact Finset.sum_congr rfl fun j _ => by ring
    rw [this]; ring
  have hT : totalSS (fun i => a * y i) = a ^ 2 * totalSS y := by
    simp only [totalSS, Finset.mul_sum]
    refine Finset.sum_congr rfl fun i _ => ?_
    rw [← Finset.mul_sum]; ring
  have hlog : ∀ R, 0 < R → (0 : ℝ) < n → Real.log (a ^ 2 * R / n) = Real.log (a ^ 2) + Real.log (R / n) := fun R hR hn => by
    rw [mul_div_assoc, Real.log_mul a2.ne' (by positivity)]
  have hn : 0 < residualSS x y g.betas → (0 : ℝ) < n := fun hp => by
    rcases Nat.eq_zero_or_pos n with hz | hz
    · subst hz; simp [residualSS] at hp
    · exact_mod_cast hz
  refine ⟨g', h', hss, fun i j => by rw [eB], by rw [hC'.reports.rss, hC.reports.rss, hR], fun hp => ?_, fun hp ht => ?_, fun ht => ?_, fun ht he => ?_,
    fun he i j => ?_, fun hs i j l => ?_⟩
  · rw [hC.reports.rss] at hp
    refine ⟨_, hC.reports.aic hp, ?_⟩
    rw [hC'.reports.aic (by rw [hR]; positivity), hR]
    congr 1
    simp only [aicFormula]
    rw [hlog _ hp (hn hp)]; ring
  · rw [hC.reports.rss] at hp
    rw [hC.traces.1] at ht
    refine ⟨_, hC.reports.aicc hp ht, ?_⟩
    rw [hC'.reports.aicc (by rw [hR]; positivity) ht, hR]
    congr 1
    simp only [aiccFormula]
    rw [hlog _ hp (hn hp)]; ring
  · refine ⟨_, hC.reports.rSquare ht, ?_⟩
    rw [hC'.reports.rSquare (by rw [hT]; exact mul_ne_zero a2.ne' ht), hR, hT, mul_div_mul_left _ _ a2.ne']
  · rw [hC.reports.edf] at he
    refine ⟨_, hC.reports.rSquareAdjust ht he, ?_⟩
    rw [hC'.reports.rSquareAdjust (by rw [hT]; exact mul_ne_zero a2.ne' ht) he, hR, hT, mul_div_mul_left _ _ a2.ne']
  · rw [hC.reports.edf] at he
    refine ⟨_, hC.reports.se he i j, ?_⟩
    rw [hC'.reports.se he i j, hR]
    congr 1
    rw [show a ^ 2 * residualSS x y g.betas / residualDf x C' * ∑ l, C' i j l ^ 2 =
      a ^ 2 * (residualSS x y g.betas / residualDf x C' * ∑ l, C' i j l ^ 2) by ring, Real.sqrt_mul (sq_nonneg a), Real.sqrt_sq_eq_abs]
  · rw [hC.coef hs, hC'.coef hs]

/-- **C121 (units of the covariates).** If covariate `j` is multiplied by `s j ≠ 0`, a fit that succeeded succeeds again, in any mode: coefficient `j` and
its standard error are divided by `s j` and `|s j|`, and nothing else changes. -/
theorem C121_covariates (ex ex' : Exec n) (hex : ex.Valid) (hex' : ex'.Valid) (geo : Bool) (par par' : Option (DynMat × DynMat)) (b : BandwidthWeight) (coords : DynMat)
    (hc : FitsData coords n) (dist : Fin n → Fin n → ℝ) (hd : IsMapDistance geo coords coords dist) (hb : UsableRadius b dist)
    (x : Matrix (Fin n) (Fin k) ℝ) (y : Fin n → ℝ) (sS sC : Bool) (s : Fin k → ℝ) (hs : ∀ j, s j ≠ 0) (g : GWRReport n k)
    (h : gwrRun ex ⟨geo, par⟩ b coords x y sS sC = .ok g) :
    ∃ g', gwrRun ex' ⟨geo, par'⟩ b coords (fun i j => s j * x i j) y sS sC = .ok g' ∧ SameSmoother sS g g' ∧
      (∀ i j, g'.betas i j = g.betas i j / s j) ∧ g'.diagnostic.RSS = g.diagnostic.RSS ∧
      (0 < g.diagnostic.RSS → ∃ v, g.diagnostic.AIC = .ok v ∧ g'.diagnostic.AIC = .ok v) ∧
      (0 < g.diagnostic.RSS → g.shat 0 ≠ n - 2 → ∃ v, g.diagnostic.AICc = .ok v ∧ g'.diagnostic.AICc = .ok v) ∧
      (totalSS y ≠ 0 → ∃ v, g.diagnostic.RSquare = .ok v ∧ g'.diagnostic.RSquare = .ok v) ∧
      (totalSS y ≠ 0 → g.diagnostic.EDF ≠ 1 → ∃ v, g.diagnostic.RSquareAdjust = .ok v ∧ g'.diagnostic.RSquareAdjust = .ok v) ∧
      (g.diagnostic.EDF ≠ 0 → ∀ i j, ∃ v, g.se i j = .ok v ∧ g'.se i j = .ok (v / |s j|)) ∧
      (sC = true → ∀ (i : Fin n) (j : Fin k) (l : Fin n), g'.c i j l = g.c i j l / s j) := by
  obtain ⟨w, -, hw, hw0⟩ := kernelRows hc.2 hc.2 hd hb id
  obtain ⟨f1, f2⟩ := C118_fit ex hex geo par b coords hc dist w hd hb hw x y sS sC
  have hdet : ∀ i, Determined x (w i) := by
    by_contra hno
    push Not at hno
    obtain ⟨e, he⟩ := f2 hno
    rw [he] at h; cases h
  obtain ⟨g0, C, e, -, hC⟩ := f1 hdet
  cases Res.ok.inj (h.symm.trans e)
  have hdet' : ∀ i, Determined (fun i j => s j * x i j : Matrix (Fin n) (Fin k) ℝ) (w i) := fun i =>
    wls_determined (hw0 i) (wls_covariates hs (hC.regression.coefficients i))
  obtain ⟨g', C', h', -, hC'⟩ := (C118_fit ex' hex' geo par' b coords hc dist w hd hb hw (fun i j => s j * x i j) y sS sC).1 hdet'
  have hreg : IsLocalRegression (fun i j => s j * x i j) y w (fun i j => g.betas i j / s j) fun i j l => C i j l / s j :=
    ⟨fun i => wls_covariates hs (hC.regression.coefficients i), fun i l => wls_covariates hs (hC.regression.unit i l)⟩
  obtain ⟨eB, rfl⟩ := report_unique hC'.regression hreg
  have hh : ∀ i l, hatOf (fun i j => s j * x i j) (fun i j l => C i j l / s j) i l = hatOf x C i l := fun i l => by
    simp only [hatOf]
    exact Finset.sum_congr rfl fun j _ => by have := hs j; field_simp
  have hss := sameSmoother hC hC' hh
  have hR : residualSS (fun i j => s j * x i j) y g'.betas = residualSS x y g.betas := by
    rw [eB]
    simp only [residualSS]
    refine Finset.sum_congr rfl fun i _ => ?_
    have : ∑ j, s j * x i j * (g.betas i j / s j) = ∑ j, x i j * g.betas i j := Finset.sum_congr rfl fun j _ => by have := hs j; field_simp
    rw [this]
  have hq : residualDf (fun i j => s j * x i j) (fun i j l => C i j l / s j) = residualDf x C := by simp only [residualDf, residualDfAt, hh]
  refine ⟨g', h', hss, fun i j => by rw [eB], by rw [hC'.reports.rss, hC.reports.rss, hR], fun hp => ?_, fun hp ht => ?_, fun ht => ?_, fun ht he => ?_,
    fun he i j => ?_, fun hsC i j l => ?_⟩
  · rw [hC.reports.rss] at hp
    refine ⟨_, hC.reports.aic hp, ?_⟩
    rw [hC'.reports.aic (by rw [hR]; exact hp), hR]
    simp only [hh]
  · rw [hC.reports.rss] at hp
    rw [hC.traces.1] at ht
    refine ⟨_, hC.reports.aicc hp ht, ?_⟩
    have := hC'.reports.aicc (by rw [hR]; exact hp)
    simp only [hh, hR] at this
    exact this ht
  · refine ⟨_, hC.reports.rSquare ht, ?_⟩
    rw [hC'.reports.rSquare ht, hR]
  · rw [hC.reports.edf] at he
    refine ⟨_, hC.reports.rSquareAdjust ht he, ?_⟩
    rw [hC'.reports.rSquareAdjust ht (by rw [hq]; exact he), hR, hq]
  · rw [hC.reports.edf] at he
    refine ⟨_, hC.reports.se he i j, ?_⟩
    rw [hC'.reports.se (by rw [hq]; exact he) i j, hR, hq]
    congr 1
    have : ∑ l, (C i j l / s j) ^ 2 = (∑ l, C i j l ^ 2) / s j ^ 2 := by
      rw [Finset.sum_div]; exact Finset.sum_congr rfl fun l _ => by rw [div_pow]
    rw [this, ← mul_div_assoc, Real.sqrt_div' _ (sq_nonneg _), Real.sqrt_sq_eq_abs]
  · rw [hC.coef hsC, hC'.coef hsC]

/-- **C121 (adding a known effect).** If a multiple of each covariate is added to the response, `y + Σ γ j x j`, a fit that succeeded succeeds again, in any mode:
`γ` is added to the coefficients everywhere, and everything else but the R² stays: residual sum of squares, hat matrix, degrees of freedom, Akaike
criteria and standard errors. With an intercept, adding a constant to the response (`γ = (c, 0, …)`) leaves the R² as well. -/
theorem C121_known_effect (ex ex' : Exec n) (hex : ex.Valid) (hex' : ex'.Valid) (geo : Bool) (par par' : Option (DynMat × DynMat)) (b : BandwidthWeight)
    (coords : DynMat) (hc : FitsData coords n) (dist : Fin n → Fin n → ℝ) (hd : IsMapDistance geo coords coords dist) (hb : UsableRadius b dist)
    (x : Matrix (Fin n) (Fin k) ℝ) (y : Fin n → ℝ) (sS sC : Bool) (γ : Fin k → ℝ) (g : GWRReport n k)
    (h : gwrRun ex ⟨geo, par⟩ b coords x y sS sC = .ok g) :
    ∃ g', gwrRun ex' ⟨geo, par'⟩ b coords x (fun i => y i + ∑ j, x i j * γ j) sS sC = .ok g' ∧ SameSmoother sS g g' ∧
      (∀ i j, g'.betas i j = g.betas i j + γ j) ∧ g'.diagnostic.RSS = g.diagnostic.RSS ∧
      (0 < g.diagnostic.RSS → ∃ v, g.diagnostic.AIC = .ok v ∧ g'.diagnostic.AIC = .ok v) ∧
      (0 < g.diagnostic.RSS → g.shat 0 ≠ n - 2 → ∃ v, g.diagnostic.AICc = .ok v ∧ g'.diagnostic.AICc = .ok v) ∧
      (g.diagnostic.EDF ≠ 0 → ∀ i j, ∃ v, g.se i j = .ok v ∧ g'.se i j = .ok v) ∧
      ((∃ c, ∀ i, ∑ j, x i j * γ j = c) → totalSS y ≠ 0 → ∃ v, g.diagnostic.RSquare = .ok v ∧ g'.diagnostic.RSquare = .ok v) := by
  obtain ⟨w, -, hw, hw0⟩ := kernelRows hc.2 hc.2 hd hb id
  obtain ⟨f1, f2⟩ := C118_fit ex hex geo par b coords hc dist w hd hb hw x y sS sC
  have hdet : ∀ i, Determined x (w i) := by
    by_contra hno
    push Not at hno
    obtain ⟨e, he⟩ := f2 hno
    rw [he] at h; cases h
  obtain ⟨g0, C, e, -, hC⟩ := f1 hdet
  cases Res.ok.inj (h.symm.trans e)
  obtain ⟨g', C', h', -, hC'⟩ := (C118_fit ex' hex' geo par' b coords hc dist w hd hb hw x (fun i => y i + ∑ j, x i j * γ j) sS sC).1 hdet
  have hreg : IsLocalRegression x (fun i => y i + ∑ j, x i j * γ j) w (fun i j => g.betas i j + γ j) C :=
    ⟨fun i => wls_shift γ (hC.regression.coefficients i), hC.regression.unit⟩
  obtain ⟨eB, rfl⟩ := report_unique hC'.regression hreg
  have hss := sameSmoother hC hC' fun _ _ => rfl
  have hR : residualSS x (fun i => y i + ∑ j, x i j * γ j) g'.betas = residualSS x y g.betas := by
    rw [eB]
    simp only [residualSS, mul_add, Finset.sum_add_distrib]
    exact Finset.sum_congr rfl fun i _ => by ring
  refine ⟨g', h', hss, fun i j => by rw [eB], by rw [hC'.reports.rss, hC.reports.rss, hR], fun hp => ?_, fun hp ht => ?_, fun he i j => ?_,
    fun hcon ht => ?_⟩
  · rw [hC.reports.rss] at hp
    exact ⟨_, hC.reports.aic hp, by rw [hC'.reports.aic (by rw [hR]; exact hp), hR]⟩
  · rw [hC.reports.rss] at hp
    rw [hC.traces.1] at ht
    exact ⟨_, hC.reports.aicc hp ht, by rw [hC'.reports.aicc (by rw [hR]; exact hp) ht, hR]⟩
  · rw [hC.reports.edf] at he
    exact ⟨_, hC.reports.se he i j, by rw [hC'.reports.se he i j, hR]⟩
  · obtain ⟨c, hcc⟩ := hcon
    have hn : (n : ℝ) ≠ 0 := by
      intro hz
      have : n = 0 := by exact_mod_cast hz
      subst this
      simp [totalSS] at ht
    have hT : totalSS (fun i => y i + ∑ j, x i j * γ j) = totalSS y := by
      simp only [totalSS, hcc, Finset.sum_add_distrib, Finset.sum_const, Finset.card_univ, Fintype.card_fin, nsmul_eq_mul]
      refine Finset.sum_congr rfl fun i _ => ?_
      have : (∑ i, y i + n * c) / n = (∑ i, y i) / n + c := by field_simp
      rw [this]; ring
    exact ⟨_, hC.reports.rSquare ht, by rw [hC'.reports.rSquare (by rw [hT]; exact ht), hR, hT]⟩

/-- The hypotheses are met: three points on a line, Gaussian kernel; the map in other units. -/
example (y : Fin 3 → ℝ) : ∃ g, gwrRun .serial ⟨false, none⟩ ⟨1, false, .Gaussian⟩ (lineCoords 1) exX y true true = .ok g ∧
    gwrRun .serial ⟨false, none⟩ ⟨1000, false, .Gaussian⟩ (lineCoords 1000) exX y true true = .ok { g with weight := ⟨1000, false, .Gaussian⟩ } := by
  have hu := usable_fixed (m := 3) (n := 3) one_pos .Gaussian (fun i j => |(1 : ℝ)| * |((j : ℕ) : ℝ) - (i : ℕ)|)
  have hc : ∀ D, FitsData (lineCoords D) 3 := fun _ => ⟨rfl, rfl⟩
  obtain ⟨W, -, hW, -⟩ := kernelRows (hc 1).2 (hc 1).2 (line_mapDistance 1) hu id
  obtain ⟨g, C, h1, -⟩ := (C118_fit .serial trivial false none _ (lineCoords 1) (hc 1) _ W (line_mapDistance 1) hu hW exX y true true).1 fun i =>
    exX_determined _ fun l => by
      obtain ⟨r, -, e⟩ := hW i
      rw [e]; exact Real.exp_pos _
  refine ⟨g, h1, ?_⟩
  rw [C121_map .serial false false none none ⟨1, false, .Gaussian⟩ ⟨1000, false, .Gaussian⟩ (lineCoords 1) (lineCoords 1000) (hc _) (hc _) _ _
    (line_mapDistance 1) (line_mapDistance 1000) 1000 (by norm_num) (fun i l => by simp) hu rfl rfl (by norm_num), h1]
  rfl

end Verif.Props

import Verif.Model.GWRBasicRun
import Verif.Props.RobustRun
import Verif.Props.SummaryRun
import Verif.Spec.GWRScore

/-! Whole runs of basic geographically weighted regression, serial and multithreaded, with every kind of bandwidth (C118–C121). -/

namespace Verif.Props
open Verif Verif.Model Verif.Spec Matrix Classical

variable {n k m : ℕ}

/-! ## C118: fit and prediction -/

/-- The exception of a failing loop over the locations. -/
def loopError : Exec m → Err
  | .serial => .singular
  | .omp _ => .runtime

theorem core_serial_or {x : Matrix (Fin n) (Fin k) ℝ} {y : Fin n → ℝ} {W : Fin n → Fin n → ℝ} (hW : ∀ i l, 0 ≤ W i l) (sS sC : Bool)
    {ex : Exec n} (hex : ex.Valid) :
    ((∀ i, Determined x (W i)) → ∃ a b, gwrCoreEx x y W sS sC ex = .ok a ∧ fitCoreSerial x y W 0 n sS sC NoStop = .ok (b, false) ∧
      a.betas = b.betas ∧ a.se = b.se ∧ a.shat = b.shat ∧ a.qdiag = b.qdiag ∧ (sS = true → a.s = b.s) ∧ (sC = true → a.c = b.c)) ∧
    ((∃ i, ¬ Determined x (W i)) → gwrCoreEx x y W sS sC ex = .throw (loopError ex)) := by
  obtain ⟨c1, c2⟩ := C21_fit_succeeds_iff x y W hW sS sC
  cases ex with
  | serial =>
    refine ⟨fun h => ?_, fun h => ?_⟩
    · obtain ⟨b, hb⟩ := c1.2 h
      refine ⟨b, b, ?_, hb, rfl, rfl, rfl, rfl, fun _ => rfl, fun _ => rfl⟩
      show (fitCoreSerial x y W 0 n sS sC NoStop).bind _ = _
      rw [hb]; rfl
    · show (fitCoreSerial x y W 0 n sS sC NoStop).bind _ = _
      rw [c2 h]; rfl
  | omp evs =>
    have hs : Schedule (workRange n 0 n) evs := by rw [workRange_all]; exact hex
    obtain ⟨p1, p2⟩ := C27_fit_parallel_eq_serial x y W 0 n sS sC evs hs
    refine ⟨fun h => ?_, fun h => ?_⟩
    · obtain ⟨b, hb⟩ := c1.2 h
      obtain ⟨a, e, e1, e2, e3, e4, e5, e6⟩ := p1 b hb
      refine ⟨a, b, ?_, hb, e1, e2, e3, e4, e5, e6⟩
      show (fitCoreOmp x y W 0 sS sC NoStop evs).bind _ = _
      rw [e]; rfl
    · obtain ⟨e, he⟩ := p2.1 ⟨_, c2 h⟩
      show (fitCoreOmp x y W 0 sS sC NoStop evs).bind _ = _
      have : fitCoreOmp x y W 0 sS sC NoStop evs = .throw .runtime := by
        unfold fitCoreOmp at he ⊢
        simp only at he ⊢
        by_cases hq : (ompRun (fun i => localFit x y (W i) (x i)) (fitUpdOmp 0 sS sC) NoStop evs FitAccOmp.zero).success = true
        · rw [if_pos hq] at he; cases he
        · rw [if_neg hq]
      rw [this]; rfl

/-- What a fit with spatial weights `w` reports: the local regressions, the textbook diagnostics and standard errors; the hat matrix, if it is stored;
the matrices that map responses to coefficients, if they are stored. -/
structure IsGWRReport (x : Matrix (Fin n) (Fin k) ℝ) (y : Fin n → ℝ) (w : Fin n → Fin n → ℝ) (sS sC : Bool) (g : GWRReport n k)
    (C : Fin n → Fin k → Fin n → ℝ) : Prop where
  regression : IsLocalRegression x y w g.betas C
  reports : Reports x y g.betas C g.diagnostic g.se
  traces : g.shat 0 = ∑ i, hatOf x C i i ∧ g.shat 1 = ∑ i, ∑ l, hatOf x C i l ^ 2
  qdiag : ∀ l, g.qdiag l = residualDfAt x C l
  hat : sS = true → ∀ i l : Fin n, g.s i l = hatOf x C i l
  coef : sC = true → ∀ (i : Fin n) (j : Fin k) (l : Fin n), g.c i j l = C i j l

/-- The core fit of the serial mode, with its stored matrices. -/
theorem serialFit_stored {x : Matrix (Fin n) (Fin k) ℝ} {y : Fin n → ℝ} {W : Fin n → Fin n → ℝ} (hW : ∀ i l, 0 ≤ W i l) {sS sC : Bool}
    {a : FitAcc n k} (h : fitCoreSerial x y W 0 n sS sC NoStop = .ok (a, false)) :
    ∃ C, ExplicitFit x y W a C ∧ (sS = true → ∀ i l : Fin n, a.s i l = hatOf x C i l) ∧
      (sC = true → ∀ (i : Fin n) (j : Fin k) (l : Fin n), a.c i j l = C i j l) := by
  obtain ⟨C, hC⟩ := serialFit_explicit hW h
  obtain ⟨hp, hc⟩ := fitCoreSerial_ok h
  have hl : ∀ i, localFitInv x y (W i) (x i) = .ok (fitAt x y W i) := fun i => by
    have := hc.loc i (Nat.zero_le _) i.isLt
    unfold localFitInv
    rw [invGeneral_gram _ _ (hW i)]
    exact this
  have key : ∀ i j l, (fitAt x y W i).ci j l = C i j l := fun i j l => by
    have h1 := (gwPredict_ok (hW i) (localFitInv_ci (hl i) l)).1
    exact congrFun (wls_unique h1 (hC.local_.unit i l)) j
  refine ⟨C, hC, fun hs i l => ?_, fun hs i j l => ?_⟩
  · have := hc.s hs i (Nat.zero_le _) i.isLt
    simp only [Nat.sub_zero] at this
    rw [this, localFitInv_row (hl i) l]
    exact Finset.sum_congr rfl fun j _ => by rw [key]
  · have := hc.c hs i (Nat.zero_le _) i.isLt
    simp only [Nat.sub_zero] at this
    rw [this, key]

/-- The core fit of any mode: succeeds exactly if all local regressions are determined, and stores their values. -/
theorem core_report {x : Matrix (Fin n) (Fin k) ℝ} {y : Fin n → ℝ} {W : Fin n → Fin n → ℝ} (hW : ∀ i l, 0 ≤ W i l) (sS sC : Bool)
    {ex : Exec n} (hex : ex.Valid) (b : BandwidthWeight) :
    ((∀ i, Determined x (W i)) → ∃ a C, gwrCoreEx x y W sS sC ex = .ok a ∧
      IsGWRReport x y W sS sC ⟨b, a.betas, calcDiagnostic x y a.betas a.shat, betasSE x y a, a.shat, a.qdiag, a.s, a.c⟩ C) ∧
    ((∃ i, ¬ Determined x (W i)) → gwrCoreEx x y W sS sC ex = .throw (loopError ex)) := by
  obtain ⟨c1, c2⟩ := core_serial_or (y := y) hW sS sC hex
  refine ⟨fun h => ?_, c2⟩
  obtain ⟨a, a0, ha, hs, e1, e2, e3, e4, e5, e6⟩ := c1 h
  obtain ⟨C, hC, h1, h2⟩ := serialFit_stored hW hs
  have hC' : ExplicitFit x y W a C :=
    ⟨by rw [e1]; exact hC.local_, by rw [e2]; exact hC.se, by rw [e3]; exact hC.trace, by rw [e3]; exact hC.trace2, by rw [e4]; exact hC.qdiag,
      by rw [e1]; exact hC.linear⟩
  refine ⟨a, C, ha, hC'.local_, calcDiagnostic_explicit hC', ⟨hC'.trace, hC'.trace2⟩, hC'.qdiag, fun hS i l => ?_, fun hS i j l => ?_⟩
  · show a.s i l = _
    rw [e5 hS]; exact h1 hS i l
  · show a.c i j l = _
    rw [e6 hS]; exact h2 hS i j l

theorem finish_report {x : Matrix (Fin n) (Fin k) ℝ} {y : Fin n → ℝ} {W : Fin n → Fin n → ℝ} (hW : ∀ i l, 0 ≤ W i l) {sS sC : Bool}
    {ex : Exec n} (hex : ex.Valid) {d' : CRSDistance} {b : BandwidthWeight} (hw : weightRows d' b n n = .ok W) :
    ((∀ i, Determined x (W i)) → ∃ g C, gwrFinish ex d' b x y sS sC = .ok g ∧ g.weight = b ∧ IsGWRReport x y W sS sC g C) ∧
    ((∃ i, ¬ Determined x (W i)) → gwrFinish ex d' b x y sS sC = .throw (loopError ex)) := by
  obtain ⟨c1, c2⟩ := core_report (y := y) hW sS sC hex b
  have he : summaryEscape ex (weightRows d' b n n) = .ok W := by rw [hw]; cases ex <;> rfl
  refine ⟨fun h => ?_, fun h => ?_⟩
  · obtain ⟨a, C, ha, hC⟩ := c1 h
    exact ⟨_, C, by unfold gwrFinish; rw [he, Res.bind, ha, Res.bind], rfl, hC⟩
  · unfold gwrFinish
    rw [he, Res.bind, c2 h]; rfl

/-- **C118 (fit).** For planar or geographic coordinates, every kernel and every bandwidth (fixed, or adaptive with an integer or fractional number of
neighbours), serially or in any schedule of any number of threads: a fit succeeds exactly if at every observation the observations of positive weight
determine the coefficients; otherwise it throws. If it succeeds, the coefficients are those of the regressions weighted by the kernel of the distances
between the coordinates, and the diagnostics, standard errors, hat matrix and coefficient matrices are the textbook ones of these regressions. -/
theorem C118_fit (ex : Exec n) (hex : ex.Valid) (geo : Bool) (par : Option (DynMat × DynMat)) (b : BandwidthWeight) (coords : DynMat)
    (hc : FitsData coords n) (dist w : Fin n → Fin n → ℝ) (hd : IsMapDistance geo coords coords dist) (hb : UsableRadius b dist)
    (hw : IsKernelWeight b dist w) (x : Matrix (Fin n) (Fin k) ℝ) (y : Fin n → ℝ) (sS sC : Bool) :
    ((∀ i, Determined x (w i)) → ∃ g C, gwrRun ex ⟨geo, par⟩ b coords x y sS sC = .ok g ∧ g.weight = b ∧ IsGWRReport x y w sS sC g C) ∧
    ((∃ i, ¬ Determined x (w i)) → ∃ e, gwrRun ex ⟨geo, par⟩ b coords x y sS sC = .throw e) := by
  obtain ⟨W, d', h1, -, h3, h4, h5⟩ := summary_weights (par := par) hc hd hb ex
  obtain rfl := kernelWeight_unique h3 hw
  obtain ⟨c1, c2⟩ := finish_report (x := x) (y := y) (sS := sS) (sC := sC) (fun i l => (h4 i).1 l) hex h5
  unfold gwrRun
  rw [h1, Res.bind]
  exact ⟨c1, fun h => ⟨_, c2 h⟩⟩

/-- **C118 (prediction).** At any places, serially or in parallel: prediction succeeds exactly if at every place the observations of positive weight
determine the coefficients; the coefficients are those of the regressions weighted by the kernel of the distances from the place. -/
theorem C118_predict (ex : Exec m) (hex : ex.Valid) (geo : Bool) (par : Option (DynMat × DynMat)) (b : BandwidthWeight) (locations coords : DynMat)
    (hl : FitsData locations m) (hc : FitsData coords n) (hn : 0 < n) (dist w : Fin m → Fin n → ℝ) (hd : IsMapDistance geo locations coords dist)
    (hb : UsableRadius b dist) (hw : IsKernelWeight b dist w) (x : Matrix (Fin n) (Fin k) ℝ) (y : Fin n → ℝ) :
    ((∀ i, Determined x (w i)) → ∃ B, gwrPredictRun ex ⟨geo, par⟩ b locations coords x y = .ok B ∧ ∀ i, IsWLS x y (w i) (B i)) ∧
    ((∃ i, ¬ Determined x (w i)) → ∃ e, gwrPredictRun ex ⟨geo, par⟩ b locations coords x y = .throw e) := by
  obtain ⟨W, h1, h2, h3⟩ := kernelRows hl.2 hc.2 hd hb fun _ => hn
  obtain rfl := kernelWeight_unique h2 hw
  have he : summaryEscape ex (weightRows ⟨geo, some (locations, coords)⟩ b n m) = .ok W := by rw [h1]; cases ex <;> rfl
  have hbind : bindLocations ⟨geo, par⟩ locations coords = .ok ⟨geo, some (locations, coords)⟩ := bindLocations_eq_ok.2 ⟨hl.1, hc.1, rfl⟩
  have hcase : ∀ i, (∃ r, localBeta x y (W i) = .ok r) ∨ localBeta x y (W i) = .throw .singular := fun i => by
    unfold localBeta invSympd
    by_cases h : (xtwx x (W i)).PosDef
    · rw [if_pos h]; exact .inl ⟨_, rfl⟩
    · rw [if_neg h]; exact .inr rfl
  have hser : ((∀ i, Determined x (W i)) → ∃ B, predictSerial x y W NoStop = .ok (B, false) ∧ ∀ i, IsWLS x y (W i) (B i)) ∧
      ((∃ i, ¬ Determined x (W i)) → predictSerial x y W NoStop = .throw .singular) := by
    refine ⟨fun h => ?_, fun h => ?_⟩
    · have hr : ∀ i ∈ List.finRange m, localBeta x y (W i) = .ok ((xtwx x (W i))⁻¹ *ᵥ (xtw x (W i) *ᵥ y)) := fun i _ =>
        localBeta_eq_ok.2 ⟨(gram_posDef_iff_determined x (W i) (h3 i)).2 (h i), rfl⟩
      have e : predictSerial x y W NoStop = _ := serialFor_ok _ _ 0 _ (fun _ _ => rfl) hr
      exact ⟨_, e, C21_prediction_is_weighted_least_squares x y W NoStop _ e⟩
    · obtain ⟨i, hi⟩ := h
      refine serialFor_fail hcase _ 0 _ (fun _ _ => rfl) ⟨i, List.mem_finRange i, ?_⟩
      rcases hcase i with ⟨r, hr⟩ | hr
      · exact absurd ((gram_posDef_iff_determined x (W i) (h3 i)).1 (localBeta_eq_ok.1 hr).1) hi
      · exact hr
  unfold gwrPredictRun
  rw [hbind, Res.bind, he, Res.bind]
  cases ex with
  | serial =>
    refine ⟨fun h => ?_, fun h => ⟨.singular, ?_⟩⟩
    · obtain ⟨B, e, hB⟩ := hser.1 h
      refine ⟨B, ?_, hB⟩
      show (predictSerial x y W NoStop).bind _ = _
      rw [e]; rfl
    · show (predictSerial x y W NoStop).bind _ = _
      rw [hser.2 h]; rfl
  | omp evs =>
    obtain ⟨p1, p2⟩ := C27_predict_parallel_eq_serial x y W evs hex
    refine ⟨fun h => ?_, fun h => ?_⟩
    · obtain ⟨B, e, hB⟩ := hser.1 h
      refine ⟨B, ?_, hB⟩
      show (predictOmp x y W NoStop evs).bind _ = _
      rw [p1 _ e]; rfl
    · obtain ⟨e, he⟩ := p2.1 ⟨_, hser.2 h⟩
      refine ⟨e, ?_⟩
      show (predictOmp x y W NoStop evs).bind _ = _
      rw [he]; rfl

/-! ## C119: automatic selection of the bandwidth -/

/-- Every logged call is a call of the criterion. -/
theorem evals_oracle (bw : BandwidthWeight) (l u : ℝ) (o : Oracle) (m : List (ℝ × ℝ)) :
    ∀ e ∈ (optimize bw l u o m).evals, ∃ j, o j { bw with mBandwidth := e.x } = (e.success, e.f) := by
  have h0 : ∀ e ∈ (goldenInit bw l u o m).evals, ∃ j, o j { bw with mBandwidth := e.x } = (e.success, e.f) := by
    intro e he
    simp only [goldenInit, List.mem_cons, List.not_mem_nil, or_false] at he
    rcases he with rfl | rfl
    · exact ⟨0, rfl⟩
    · exact ⟨1, rfl⟩
  have key := (goldenLoop_induct (bw := bw) (o := o) (P := fun s => ∀ e ∈ s.evals, ∃ j, o j { bw with mBandwidth := e.x } = (e.success, e.f))
    (fun s h _ => by
      unfold goldenStep
      dsimp only
      split <;>
      · intro e he
        rcases List.mem_append.1 he with he | he
        · exact h e he
        · rw [List.mem_singleton] at he; subst he; exact ⟨_, rfl⟩) (s := goldenStart bw l u o m) h0).1
  rcases optimize_cases bw l u o m with ⟨-, he⟩ | ⟨-, -, -, -, he⟩ | ⟨-, -, -, -, -, he⟩ | ⟨-, -, -, -, he⟩ <;> rw [he]
  · exact h0
  · exact h0
  · exact key
  · exact key

theorem optimize_kind (bw : BandwidthWeight) (l u : ℝ) (o : Oracle) (m : List (ℝ × ℝ)) {b : BandwidthWeight}
    (h : (optimize bw l u o m).out = .ok b) : b = { bw with mBandwidth := b.mBandwidth } := by
  rcases optimize_cases bw l u o m with ⟨-, he⟩ | ⟨-, -, -, -, he⟩ | ⟨-, -, -, -, -, he⟩ | ⟨-, -, -, -, he⟩ <;> rw [he] at h
  · cases Res.ok.inj h; rfl
  · cases h
  · cases Res.ok.inj h; rfl
  · cases Res.ok.inj h; rfl

theorem rss_residualSS (x : Matrix (Fin n) (Fin k) ℝ) (y : Fin n → ℝ) (B : Matrix (Fin n) (Fin k) ℝ) : rss x y B = residualSS x y B := by
  simp only [rss, fitted, residualSS, sq, mul_comm]

theorem wls_determined {x : Matrix (Fin n) (Fin k) ℝ} {y w : Fin n → ℝ} (hw : ∀ l, 0 ≤ w l) {b : Fin k → ℝ} (h : IsWLS x y w b) :
    Determined x w := by
  intro c hc
  by_contra hne
  have h1 := h (b + c) (fun e => hne (by simpa using e))
  have : wss x y w (b + c) = wss x y w b := by
    unfold wss
    refine Finset.sum_congr rfl fun l _ => ?_
    rcases eq_or_lt_of_le (hw l) with h0 | h0
    · rw [← h0]; ring
    · have := hc l h0
      simp only [Pi.add_apply, mul_add, Finset.sum_add_distrib, this, add_zero]
  rw [this] at h1
  exact lt_irrefl _ h1

theorem wls_exists {x : Matrix (Fin n) (Fin k) ℝ} {w : Fin n → ℝ} (hw : ∀ l, 0 ≤ w l) (h : Determined x w) (y : Fin n → ℝ) :
    ∃ b, localBeta x y w = .ok b ∧ IsWLS x y w b :=
  ⟨_, localBeta_eq_ok.2 ⟨(gram_posDef_iff_determined x w hw).2 h, rfl⟩, isWLS_of_posDef ((gram_posDef_iff_determined x w hw).2 h)⟩

theorem looWeight_nonneg {W : Fin n → Fin n → ℝ} (hW : ∀ i l, 0 ≤ W i l) (i l : Fin n) : 0 ≤ cvWeight W i l := by
  rw [cvWeight_eq]; dsimp only; split
  · exact le_rfl
  · exact hW i l

theorem cv_core {x : Matrix (Fin n) (Fin k) ℝ} {y : Fin n → ℝ} {W : Fin n → Fin n → ℝ} (hW : ∀ i l, 0 ≤ W i l) {v : ℝ}
    (h : IsLooScore x y W v) : ∃ B, fitCoreCVSerial x y W 0 n NoStop = .ok (B, false) ∧ v = residualSS x y B := by
  obtain ⟨B, hB, rfl⟩ := h
  have hr : ∀ i ∈ workRange n 0 n, localBeta x y (cvWeight W i) = .ok (B i) := fun i _ => by
    have h1 := hB i
    rw [← cvWeight_eq] at h1
    obtain ⟨b, e, hb⟩ := wls_exists (looWeight_nonneg hW i) (wls_determined (looWeight_nonneg hW i) h1) y
    rw [e, wls_unique hb h1]
  have e : fitCoreCVSerial x y W 0 n NoStop = _ := serialFor_ok (fun i => B i) _ 0 _ (fun _ _ => rfl) hr
  refine ⟨_, e, ?_⟩
  obtain ⟨h1, -⟩ := betaLoop_ok (nodup_workRange n 0 n) e
  congr 1
  funext i
  have hi : i ∈ workRange n 0 n := mem_workRange.2 ⟨Nat.zero_le _, i.isLt⟩
  exact Res.ok.inj ((hr i hi).symm.trans (h1 i hi))

theorem aic_core {x : Matrix (Fin n) (Fin k) ℝ} {y : Fin n → ℝ} {W : Fin n → Fin n → ℝ} (hW : ∀ i l, 0 ≤ W i l)
    {B : Matrix (Fin n) (Fin k) ℝ} {C : Fin n → Fin k → Fin n → ℝ} (h : IsLocalRegression x y W B C) :
    ∃ s, fitCoreSHatSerial x y W 0 n NoStop = .ok ((B, s), false) ∧ s 0 = ∑ i, hatOf x C i i := by
  have hdet : ∀ i, Determined x (W i) := fun i => wls_determined (hW i) (h.coefficients i)
  obtain ⟨b, s, e, hb, hs⟩ := aicc_core (y := y) hW hdet
  have : b = B := by funext i; exact wls_unique (hb i) (h.coefficients i)
  subst this
  refine ⟨s, e, ?_⟩
  obtain ⟨a, ha⟩ := (C21_fit_succeeds_iff x y W hW false false).1.2 hdet
  obtain ⟨C', hC'⟩ := serialFit_explicit hW ha
  have hCC : C' = C := by
    funext i j l
    exact congrFun (wls_unique (hC'.local_.unit i l) (h.unit i l)) j
  subst hCC
  rw [hs, ← hC'.trace]
  obtain ⟨-, hc⟩ := fitCoreSerial_ok ha
  rw [hc.shat, sum_workRange, Finset.sum_apply]
  exact Finset.sum_congr rfl fun i _ => (shat_leverage i).symm

/-- The value the serial criteria compute from the weights. -/
noncomputable def serialCriterion (c : Crit) (x : Matrix (Fin n) (Fin k) ℝ) (y : Fin n → ℝ) (W : Fin n → Fin n → ℝ) : ℝ :=
  match c with
  | .CV => criterionCV x y false (fitCoreCVSerial x y W 0 n NoStop)
  | .AIC => criterionAIC x y false (fitCoreSHatSerial x y W 0 n NoStop)

theorem serial_criterion (c : Crit) {x : Matrix (Fin n) (Fin k) ℝ} {y : Fin n → ℝ} {W : Fin n → Fin n → ℝ} (hW : ∀ i l, 0 ≤ W i l) :
    (∀ v, IsGWRScore c x y W v → serialCriterion c x y W = if |v| ≤ dblMax then v else dblMax) ∧
    ((¬ ∃ v, IsGWRScore c x y W v) → serialCriterion c x y W = dblMax) := by
  unfold serialCriterion
  refine ⟨fun v hv => ?_, fun hno => ?_⟩
  · cases c with
    | CV =>
      obtain ⟨B, e, rfl⟩ := cv_core hW hv
      simp only [e, criterionCV, and_self, if_true, finiteOrMax, rss_residualSS]
    | AIC =>
      obtain ⟨B, C, h1, h2, h3, rfl⟩ := hv
      obtain ⟨s, e, hs⟩ := aic_core hW h1
      have hn : (0 : ℝ) < n := by
        rcases Nat.eq_zero_or_pos n with hz | hz
        · subst hz; simp [residualSS] at h2
        · exact_mod_cast hz
      have ha : aicc x y B (s 0) = .ok (aiccFormula n (residualSS x y B) (∑ i, hatOf x C i i)) := by
        have hd : (n : ℝ) - 2 - ∑ i, hatOf x C i i ≠ 0 := fun hz => h3 (by linarith)
        rw [hs]
        simp only [aicc, rss_residualSS, fdiv, flog, hn.ne', if_false, Res.bind, not_le.2 (div_pos h2 hn), hd, aiccFormula]
      simp only [e, criterionAIC, ha, and_self, if_true, finiteOrMax]
  · cases c with
    | CV =>
      by_cases hdet : ∀ i, Determined x (cvWeight W i)
      · choose B _ hB using fun i => wls_exists (looWeight_nonneg hW i) (hdet i) y
        exact absurd ⟨_, B, fun i => by rw [← cvWeight_eq]; exact hB i, rfl⟩ hno
      · have : ∀ r, fitCoreCVSerial x y W 0 n NoStop ≠ .ok r := by
          rintro ⟨r, t⟩ hr
          have ht : t = false := serialFor_nostop _ _ _ hr
          subst ht
          obtain ⟨h1, -⟩ := betaLoop_ok (nodup_workRange n 0 n) hr
          exact hdet fun i => (gram_posDef_iff_determined x _ (looWeight_nonneg hW i)).1
            (localBeta_eq_ok.1 (h1 i (mem_workRange.2 ⟨Nat.zero_le _, i.isLt⟩))).1
        simp only
        unfold criterionCV
        split
        · rename_i h; exact absurd h (this _)
        · rfl
    | AIC =>
      simp only
      unfold criterionAIC
      split
      · rename_i B s t he
        have ht : t = false := serialFor_nostop _ _ _ he
        subst ht
        split
        · rename_i v hv
          exfalso
          apply hno
          have hdet : ∀ i, Determined x (W i) := fun i => by
            obtain ⟨r, hr⟩ := serialFor_complete _ _ _ _ he i (mem_workRange.2 ⟨Nat.zero_le _, i.isLt⟩)
            exact (gram_posDef_iff_determined x _ (hW i)).1 (localFit_eq_ok.1 hr).1
          obtain ⟨a, ha⟩ := (C21_fit_succeeds_iff x y W hW false false).1.2 hdet
          obtain ⟨C, hC⟩ := serialFit_explicit hW ha
          obtain ⟨s', e', hs'⟩ := aic_core hW hC.local_
          have := Res.ok.inj (he.symm.trans e')
          simp only [Prod.mk.injEq, and_true] at this
          obtain ⟨rfl, rfl⟩ := this
          refine ⟨v, a.betas, C, hC.local_, ?_, ?_, ?_⟩
          · unfold aicc fdiv flog at hv
            by_cases h0 : (n : ℝ) = 0
            · simp [h0, Res.bind] at hv
            by_cases h1 : rss x y a.betas / n ≤ 0
            · simp [h0, h1, Res.bind] at hv
            rw [rss_residualSS] at h1
            by_contra hneg
            exact h1 (div_nonpos_of_nonpos_of_nonneg (not_lt.1 hneg) (Nat.cast_nonneg n))
          · intro hz
            unfold aicc fdiv flog at hv
            by_cases h0 : (n : ℝ) = 0
            · simp [h0, Res.bind] at hv
            by_cases h1 : rss x y a.betas / n ≤ 0
            · simp [h0, h1, Res.bind] at hv
            have h2 : (n : ℝ) - 2 - s 0 = 0 := by rw [hs', hz]; ring
            simp [h0, h1, h2, Res.bind] at hv
          · rw [← hs']; exact aicc_formula hv
        · rfl
      · rfl

theorem criterion_core (c : Crit) {x : Matrix (Fin n) (Fin k) ℝ} {y : Fin n → ℝ} {W : Fin n → Fin n → ℝ} (hW : ∀ i l, 0 ≤ W i l)
    {d' : CRSDistance} {b : BandwidthWeight} (hw : weightRows d' b n n = .ok W) {ex : Exec n} (hex : ex.Valid) :
    (∀ v, IsGWRScore c x y W v → gwrCriterionEx c d' x y b ex = if |v| ≤ dblMax then v else dblMax) ∧
    (ex = .serial → (¬ ∃ v, IsGWRScore c x y W v) → gwrCriterionEx c d' x y b ex = dblMax) := by
  have hser : gwrCriterionEx c d' x y b .serial = serialCriterion c x y W := by
    show gwrCriterion c d' x y b = _
    unfold gwrCriterion serialCriterion
    rw [hw]; rfl
  have hpar : ∀ v, IsGWRScore c x y W v → gwrCriterionEx c d' x y b ex = gwrCriterionEx c d' x y b .serial := by
    intro v hv
    cases ex with
    | serial => rfl
    | omp evs =>
      have hs : Schedule (workRange n 0 n) evs := by rw [workRange_all]; exact hex
      obtain ⟨q1, q2⟩ := C28_criteria_equal_partial x y W evs hs false
      rw [hser]
      show gwrCriterionOmp c d' x y evs b = _
      rw [gwrCriterionOmp_rows c hw]
      cases c with
      | CV =>
        obtain ⟨B, e, -⟩ := cv_core hW hv
        exact q1 ⟨_, e⟩
      | AIC =>
        obtain ⟨B, C, h1, -⟩ := hv
        obtain ⟨s, e, -⟩ := aic_core hW h1
        exact q2 ⟨_, e⟩
  obtain ⟨c1, c2⟩ := serial_criterion c (x := x) (y := y) hW
  refine ⟨fun v hv => ?_, fun he hno => ?_⟩
  · rw [hpar v hv, hser]; exact c1 v hv
  · subst he
    rw [hser]; exact c2 hno

/-- **C119 (criterion).** In both modes, for planar or geographic coordinates and every kind of bandwidth: the value that the bandwidth search compares is
the leave-one-out score or the corrected Akaike criterion of the regressions weighted by the kernel of the distances, where that is defined and a
double; beyond the range of a double it is `DBL_MAX`. Serially it is also `DBL_MAX` where the criterion is not defined. (In parallel mode it is then an
arbitrary number: C28.) -/
theorem C119_criterion (c : Crit) (ex : Exec n) (hex : ex.Valid) (geo : Bool) (b : BandwidthWeight) (coords : DynMat) (hc : FitsData coords n)
    (dist w : Fin n → Fin n → ℝ) (hd : IsMapDistance geo coords coords dist) (hb : UsableRadius b dist) (hw : IsKernelWeight b dist w)
    (x : Matrix (Fin n) (Fin k) ℝ) (y : Fin n → ℝ) :
    (∀ v, IsGWRScore c x y w v → gwrCriterionEx c ⟨geo, some (coords, coords)⟩ x y b ex = if |v| ≤ dblMax then v else dblMax) ∧
    (ex = .serial → (¬ ∃ v, IsGWRScore c x y w v) → gwrCriterionEx c ⟨geo, some (coords, coords)⟩ x y b ex = dblMax) := by
  obtain ⟨W, h1, h2, h3⟩ := kernelRows hc.2 hc.2 hd hb id
  obtain rfl := kernelWeight_unique h2 hw
  exact criterion_core c h3 h1 hex

/-- What is said of a fit after a bandwidth search `r`: the kernel and the kind of bandwidth are the configured ones; the bandwidth is one the search
tried, and none of those tried has a smaller value; the values compared are the criteria of the tried bandwidths, as far as these are defined; and
everything reported belongs to the regressions with the selected bandwidth. -/
def IsSearchedFit (c : Crit) (serial : Prop) (b0 : BandwidthWeight) (dist : Fin n → Fin n → ℝ) (x : Matrix (Fin n) (Fin k) ℝ) (y : Fin n → ℝ)
    (sS sC : Bool) (r : SearchResult) (g : GWRReport n k) : Prop :=
    g.weight.mKernel = b0.mKernel ∧ g.weight.mAdaptive = b0.mAdaptive ∧
    (∃ e ∈ r.evals, e.x = g.weight.mBandwidth ∧ ∀ e' ∈ r.evals, e.f ≤ e'.f) ∧
    (∀ e ∈ r.evals, UsableRadius { b0 with mBandwidth := e.x } dist → ∀ w, IsKernelWeight { b0 with mBandwidth := e.x } dist w →
      (∀ v, IsGWRScore c x y w v → |v| ≤ dblMax → e.f = v) ∧ (serial → (¬ ∃ v, IsGWRScore c x y w v) → e.f = dblMax)) ∧
    (UsableRadius g.weight dist → ∀ w, IsKernelWeight g.weight dist w → ∃ C, IsGWRReport x y w sS sC g C)

theorem auto_core (c : Crit) {sched : ℕ → Exec n} (hs : ∀ j, (sched j).Valid) {ex : Exec n} (hex : ex.Valid) {geo : Bool}
    {b0 : BandwidthWeight} {lower upper : Option ℝ} {coords : DynMat} (hc : FitsData coords n)
    {dist : Fin n → Fin n → ℝ} (hd : IsMapDistance geo coords coords dist) {x : Matrix (Fin n) (Fin k) ℝ} {y : Fin n → ℝ} {sS sC : Bool}
    {r' : SearchResult} {b : BandwidthWeight} {g' : GWRReport n k} (hr : gwrSearchEx c sched ⟨geo, some (coords, coords)⟩ b0 lower upper x y = .ok r')
    (ho : r'.out = .ok b) (hg : gwrFinish ex ⟨geo, some (coords, coords)⟩ b x y sS sC = .ok g') :
    IsSearchedFit c (∀ j, sched j = .serial) b0 dist x y sS sC r' g' := by
  unfold gwrSearchEx at hr
  obtain ⟨u, -, hr⟩ := Res.bind_eq_ok'.1 hr
  cases Res.ok.inj hr
  have hk := optimize_kind _ _ _ _ _ ho
  have hev := evals_oracle b0 (lower.getD (if b0.mAdaptive then 20 else 0)) u
    (fun j b => (true, gwrCriterionEx c ⟨geo, some (coords, coords)⟩ x y b (sched j))) []
  have hgw : g'.weight = b := by
    unfold gwrFinish at hg
    obtain ⟨W, -, hg⟩ := Res.bind_eq_ok'.1 hg
    obtain ⟨a, -, hg⟩ := Res.bind_eq_ok'.1 hg
    cases Res.ok.inj hg; rfl
  unfold IsSearchedFit
  rw [hgw]
  refine ⟨by rw [hk], by rw [hk], ?_, fun e he hu w hw => ?_, fun hu w hw => ?_⟩
  · refine C14_returns_best_evaluated _ _ _ _ _ _ ho fun e he => ?_
    obtain ⟨j, hj⟩ := hev e he
    exact (Prod.mk.inj hj).1.symm
  · obtain ⟨j, hj⟩ := hev e he
    obtain ⟨c1, c2⟩ := C119_criterion c (sched j) (hs j) geo _ coords hc dist w hd hu hw x y
    rw [← (Prod.mk.inj hj).2]
    exact ⟨fun v hv hle => by rw [c1 v hv, if_pos hle], fun hser hno => c2 (hser j) hno⟩
  · obtain ⟨W, h1, h2, h3⟩ := kernelRows hc.2 hc.2 hd hu id
    obtain rfl := kernelWeight_unique h2 hw
    obtain ⟨c1, c2⟩ := finish_report (x := x) (y := y) (sS := sS) (sC := sC) h3 hex h1
    by_cases hdet : ∀ i, Determined x (W i)
    · obtain ⟨g2, C, e, -, hC⟩ := c1 hdet
      cases Res.ok.inj (hg.symm.trans e)
      exact ⟨C, hC⟩
    · push Not at hdet
      rw [c2 hdet] at hg; cases hg

/-- **C119 (run).** A completed fit with automatic bandwidth selection, in any mode, between any bounds: the kernel and the kind of bandwidth are the
configured ones; the bandwidth is one the search tried, and none of those tried has a smaller value; the values compared are the leave-one-out scores or
the corrected Akaike criteria of the tried bandwidths; and everything reported belongs to the regressions with the selected bandwidth. -/
theorem C119_auto_fit (c : Crit) (sched : ℕ → Exec n) (hs : ∀ j, (sched j).Valid) (ex : Exec n) (hex : ex.Valid) (geo : Bool)
    (par : Option (DynMat × DynMat)) (b0 : BandwidthWeight) (lower upper : Option ℝ) (coords : DynMat) (hc : FitsData coords n)
    (dist : Fin n → Fin n → ℝ) (hd : IsMapDistance geo coords coords dist) (x : Matrix (Fin n) (Fin k) ℝ) (y : Fin n → ℝ) (sS sC : Bool)
    (r : SearchResult) (g : GWRReport n k) (h : gwrAutoRun c sched ex ⟨geo, par⟩ b0 lower upper coords x y sS sC = .ok (r, g)) :
    IsSearchedFit c (∀ j, sched j = .serial) b0 dist x y sS sC r g := by
  unfold gwrAutoRun at h
  obtain ⟨d', hb, h⟩ := Res.bind_eq_ok'.1 h
  obtain ⟨-, -, rfl⟩ := bindLocations_eq_ok.1 hb
  obtain ⟨r', hr, h⟩ := Res.bind_eq_ok'.1 h
  obtain ⟨b, ho, h⟩ := Res.bind_eq_ok'.1 h
  obtain ⟨g', hg, h⟩ := Res.bind_eq_ok'.1 h
  simp only [Res.ok.injEq, Prod.mk.injEq] at h
  obtain ⟨rfl, rfl⟩ := h
  exact auto_core c hs hex hc hd hr ho hg

theorem golden_stops (bw : BandwidthWeight) (l u : ℝ) (o : Oracle) (hb : bw.mAdaptive = false)
    (h : ¬ (|goldenR * (u - l)| > 1e-4 ∧ |(o 1 { bw with mBandwidth := u - goldenR * (u - l) }).2 -
      (o 0 { bw with mBandwidth := l + goldenR * (u - l) }).2| > 1e-4)) (b : BandwidthWeight) (ho : ∀ j b, (o j b).1 = true)
    (hout : (optimize bw l u o []).out = .ok b) :
    (optimize bw l u o []).evals.map Eval.x = [l + goldenR * (u - l), u - goldenR * (u - l)] ∧
    (b.mBandwidth = l + goldenR * (u - l) ∨ b.mBandwidth = u - goldenR * (u - l)) := by
  have hx1 : (goldenInit bw l u o []).x1 = l + goldenR * (u - l) := by simp [goldenInit, hb]
  have hx2 : (goldenInit bw l u o []).x2 = u - goldenR * (u - l) := by simp [goldenInit, hb]
  have hev : (goldenInit bw l u o []).evals.map Eval.x = [l + goldenR * (u - l), u - goldenR * (u - l)] := by simp [goldenInit, hb]
  have hloop : goldenLoop bw o (goldenStart bw l u o []) = goldenStart bw l u o [] := by
    rw [goldenLoop, if_neg]
    rintro ⟨-, -, h1, h2, -⟩
    refine h ⟨?_, ?_⟩
    · simpa [goldenStart, goldenInit] using h1
    · simpa [goldenStart, goldenInit, hb] using h2
  rcases optimize_cases bw l u o [] with ⟨h', he⟩ | ⟨-, -, -, -, he⟩ | ⟨-, -, -, -, -, he⟩ | ⟨-, -, -, h', he⟩
  · exact absurd ⟨ho _ _, ho _ _⟩ h'
  · rw [he] at hout; cases hout
  · rw [he] at hout ⊢
    rw [hloop] at hout ⊢
    refine ⟨hev, ?_⟩
    cases Res.ok.inj hout
    simp only [GS.xopt]
    split
    · left; exact hx1
    · right; exact hx2
  · rw [hloop] at h'
    exact absurd ⟨ho _ _, ho _ _⟩ h'

/-- **C119 (map unit), refuted.** The selected bandwidth should not depend on the unit of the map beyond being expressed in it. But the search works with
an absolute tolerance: if the golden part of the largest distance is at most 0.0001 (a region of 15 metres with coordinates in kilometres or degrees),
then, whatever the data, the criterion, the kernel and the mode, exactly two bandwidths are tried and one of the two is returned. -/
theorem C119_small_map (c : Crit) (sched : ℕ → Exec n) (ex : Exec n) (par : Option (DynMat × DynMat)) (kernel : KernelType) (bw : ℝ)
    (coords : DynMat) (hc : FitsData coords n) (hn : 0 < n)
    (hsmall : ∀ i j : Fin n, goldenR * plane (coords.val i) (coords.val j) ≤ 1e-4)
    (x : Matrix (Fin n) (Fin k) ℝ) (y : Fin n → ℝ) (sS sC : Bool) (r : SearchResult) (g : GWRReport n k)
    (h : gwrAutoRun c sched ex ⟨false, par⟩ ⟨bw, false, kernel⟩ none none coords x y sS sC = .ok (r, g)) :
    ∃ M, (∀ i j : Fin n, plane (coords.val i) (coords.val j) ≤ M) ∧ (∃ i j : Fin n, plane (coords.val i) (coords.val j) = M) ∧
      r.evals.map Eval.x = [goldenR * M, M - goldenR * M] ∧ (g.weight.mBandwidth = goldenR * M ∨ g.weight.mBandwidth = M - goldenR * M) := by
  obtain ⟨g1, g2⟩ := goldenR_bounds
  have hmax : ∀ i j : Fin n, plane (coords.val i) (coords.val j) ≤ dblMax := fun i j => by
    have h0 : 0 ≤ plane (coords.val i) (coords.val j) := Real.sqrt_nonneg _
    have := hsmall i j
    nlinarith [hundred_lt_dblMax]
  obtain ⟨M, h1, h2, h3⟩ := (C96_default_bounds c kernel bw coords hn hc.2 hmax x y).2
  have hM : (⟨false, some (coords, coords)⟩ : CRSDistance).maxDistance = .ok M := by
    obtain ⟨M', m0, hM', -, g1, ⟨i, l, hl, hml⟩, -⟩ := C08_max_min_sharp coords coords (by have := hc.2; omega) (by have := hc.2; omega)
      (fun i hi j hj => by rw [euclid_eq_plane]; exact hmax ⟨i, hc.2 ▸ hi⟩ ⟨j, hc.2 ▸ hj⟩)
    have row : ∀ i : ℕ, i < n → (⟨false, some (coords, coords)⟩ : CRSDistance).distance i =
        .ok ((List.range n).map fun j => plane (coords.val i) (coords.val j)) := fun i hi => by
      simp only [CRSDistance.distance]
      rw [if_pos (by have := hc.2; omega), crsDistRow_planar, hc.2]
      simp only [euclid_eq_plane]
    have hle : M ≤ M' := by
      obtain ⟨i, j, rfl⟩ := h2
      exact (g1 i _ (row i i.isLt) _ (List.mem_map.2 ⟨j, by simp, rfl⟩)).2
    have hge : M' ≤ M := by
      have hi : i < n := by
        by_contra hi
        simp only [CRSDistance.distance] at hl
        rw [if_neg (by have := hc.2; omega)] at hl
        cases hl
      rw [row i hi] at hl
      rw [← Res.ok.inj hl, List.mem_map] at hml
      obtain ⟨j, hj, e⟩ := hml
      rw [← e]; exact h1 ⟨i, hi⟩ ⟨j, by simpa using hj⟩
    rw [hM', le_antisymm hle hge]
  refine ⟨M, h1, h2, ?_⟩
  unfold gwrAutoRun at h
  obtain ⟨d', hb, h⟩ := Res.bind_eq_ok'.1 h
  obtain ⟨-, -, rfl⟩ := bindLocations_eq_ok.1 hb
  obtain ⟨r', hr, h⟩ := Res.bind_eq_ok'.1 h
  obtain ⟨b, ho, h⟩ := Res.bind_eq_ok'.1 h
  obtain ⟨g', hg, h⟩ := Res.bind_eq_ok'.1 h
  simp only [Res.ok.injEq, Prod.mk.injEq] at h
  obtain ⟨rfl, rfl⟩ := h
  unfold gwrSearchEx gwrUpper at hr
  simp only [Bool.false_eq_true, if_false, Option.getD_none] at hr
  rw [hM, Res.bind] at hr
  cases Res.ok.inj hr
  have hgw : g'.weight = b := by
    unfold gwrFinish at hg
    obtain ⟨W, -, hg⟩ := Res.bind_eq_ok'.1 hg
    obtain ⟨a, -, hg⟩ := Res.bind_eq_ok'.1 hg
    cases Res.ok.inj hg; rfl
  have hM0 : 0 ≤ M := by
    obtain ⟨i, j, rfl⟩ := h2
    exact Real.sqrt_nonneg _
  have hle : goldenR * M ≤ 1e-4 := by
    obtain ⟨i, j, rfl⟩ := h2
    exact hsmall i j
  obtain ⟨g1, g2⟩ := goldenR_bounds
  have := golden_stops ⟨bw, false, kernel⟩ 0 M _ rfl (fun hcon => by
    have := hcon.1
    rw [sub_zero, abs_of_nonneg (mul_nonneg (by linarith) hM0)] at this
    linarith) b (fun _ _ => rfl) ho
  rw [hgw]
  simpa using this

theorem looScore_scale {x : Matrix (Fin n) (Fin k) ℝ} {y : Fin n → ℝ} {w : Fin n → Fin n → ℝ} {v : ℝ} (c : ℝ) (hw : ∀ i l, 0 ≤ w i l)
    (h : IsLooScore x y w v) : IsLooScore x (fun l => c * y l) w (c ^ 2 * v) := by
  obtain ⟨B, hB, rfl⟩ := h
  refine ⟨fun i j => c * B i j, fun i => ?_, ?_⟩
  · have hdet := wls_determined (fun l => by split; exacts [le_rfl, hw i l]) (hB i)
    obtain ⟨b, e, hb⟩ := wls_exists (fun l => by split; exacts [le_rfl, hw i l]) hdet (fun l => c * y l)
    obtain ⟨b', e', hb'⟩ := wls_exists (fun l => by split; exacts [le_rfl, hw i l]) hdet y
    have hbb : b = fun j => c * B i j := by
      rw [wls_unique (hB i) hb']
      have h1 := (localBeta_eq_ok.1 e).2
      have h2 := (localBeta_eq_ok.1 e').2
      rw [h1, h2]
      have : (fun l => c * y l) = c • y := rfl
      rw [this, mulVec_smul, mulVec_smul]; rfl
    show IsWLS x (fun l => c * y l) _ (fun j => c * B i j)
    rw [← hbb]; exact hb
  · simp only [residualSS, Finset.mul_sum]
    refine Finset.sum_congr rfl fun i _ => ?_
    have : ∑ j, x i j * (c * B i j) = c * ∑ j, x i j * B i j := by
      rw [Finset.mul_sum]; exact Finset.sum_congr rfl fun j _ => by ring
    rw [this]; ring

/-- **C119 (unit of the response), refuted.** Nor should it depend on the unit of the response. But with the cross-validation criterion, for any data on
which the two first bandwidths have leave-one-out scores, there is a unit so large that the search stops after these two: as soon as their scores, in
that unit, differ by no more than 0.0001. -/
theorem C119_small_response (sched : ℕ → Exec n) (hs : ∀ j, (sched j).Valid) (ex : Exec n) (geo : Bool) (par : Option (DynMat × DynMat))
    (kernel : KernelType) (bw l u : ℝ) (hl : 0 ≤ l) (hlu : l < u) (coords : DynMat) (hc : FitsData coords n)
    (dist w1 w2 : Fin n → Fin n → ℝ) (hd : IsMapDistance geo coords coords dist)
    (hw1 : IsKernelWeight ⟨l + goldenR * (u - l), false, kernel⟩ dist w1) (hw2 : IsKernelWeight ⟨u - goldenR * (u - l), false, kernel⟩ dist w2)
    (x : Matrix (Fin n) (Fin k) ℝ) (y : Fin n → ℝ) (v1 v2 : ℝ) (h1 : IsLooScore x y w1 v1) (h2 : IsLooScore x y w2 v2)
    (c : ℝ) (hc1 : |c ^ 2 * v1| ≤ dblMax) (hc2 : |c ^ 2 * v2| ≤ dblMax) (hsmall : c ^ 2 * |v2 - v1| ≤ 1e-4) (sS sC : Bool) (r : SearchResult)
    (g : GWRReport n k)
    (h : gwrAutoRun .CV sched ex ⟨geo, par⟩ ⟨bw, false, kernel⟩ (some l) (some u) coords x (fun i => c * y i) sS sC = .ok (r, g)) :
    r.evals.map Eval.x = [l + goldenR * (u - l), u - goldenR * (u - l)] ∧
    (g.weight.mBandwidth = l + goldenR * (u - l) ∨ g.weight.mBandwidth = u - goldenR * (u - l)) := by
  obtain ⟨g1, g2⟩ := goldenR_bounds
  have p1 : 0 < l + goldenR * (u - l) := by nlinarith
  have p2 : 0 < u - goldenR * (u - l) := by nlinarith
  have u1 := usable_fixed p1 kernel dist
  have u2 := usable_fixed p2 kernel dist
  unfold gwrAutoRun at h
  obtain ⟨d', hb, h⟩ := Res.bind_eq_ok'.1 h
  obtain ⟨-, -, rfl⟩ := bindLocations_eq_ok.1 hb
  obtain ⟨r', hr, h⟩ := Res.bind_eq_ok'.1 h
  obtain ⟨b, ho, h⟩ := Res.bind_eq_ok'.1 h
  obtain ⟨g', hg, h⟩ := Res.bind_eq_ok'.1 h
  simp only [Res.ok.injEq, Prod.mk.injEq] at h
  obtain ⟨rfl, rfl⟩ := h
  unfold gwrSearchEx gwrUpper at hr
  simp only [Option.getD_some] at hr
  rw [Res.bind] at hr
  cases Res.ok.inj hr
  have hgw : g'.weight = b := by
    unfold gwrFinish at hg
    obtain ⟨W, -, hg⟩ := Res.bind_eq_ok'.1 hg
    obtain ⟨a, -, hg⟩ := Res.bind_eq_ok'.1 hg
    cases Res.ok.inj hg; rfl
  have k1 := (C119_criterion .CV (sched 0) (hs 0) geo _ coords hc dist w1 hd u1 hw1 x (fun i => c * y i)).1 _
    (looScore_scale c (kernelWeight_nonneg u1 hw1) h1)
  have k2 := (C119_criterion .CV (sched 1) (hs 1) geo _ coords hc dist w2 hd u2 hw2 x (fun i => c * y i)).1 _
    (looScore_scale c (kernelWeight_nonneg u2 hw2) h2)
  rw [if_pos hc1] at k1
  rw [if_pos hc2] at k2
  rw [hgw]
  refine golden_stops ⟨bw, false, kernel⟩ l u _ rfl (fun hcon => ?_) b (fun _ _ => rfl) ho
  have := hcon.2
  dsimp only at this
  rw [k1, k2, ← mul_sub, abs_mul, abs_of_nonneg (sq_nonneg c)] at this
  linarith

/-! ## C120: automatic selection of variables -/

/-- **C120 (criterion).** In both modes, for planar or geographic coordinates and both kinds of bandwidth: if the regressions on a set of variables (after
the intercept, if there is one), with the bandwidth replaced by `DBL_MAX`, are determined, the value by which the selection compares the set is their
corrected Akaike criterion. Serially, it is `DBL_MAX` if they are not. -/
theorem C120_criterion (ex : Exec n) (hex : ex.Valid) (geo : Bool) (b : BandwidthWeight) (coords : DynMat) (hc : FitsData coords n)
    (dist w : Fin n → Fin n → ℝ) (hd : IsMapDistance geo coords coords dist) (hb : UsableRadius { b with mBandwidth := dblMax } dist)
    (hw : IsKernelWeight { b with mBandwidth := dblMax } dist w) (x : Matrix (Fin n) (Fin k) ℝ) (y : Fin n → ℝ) (hasIntercept : Bool) (vars : List ℕ)
    (v : ℝ) (h : gwrVarsCriterionEx ex ⟨geo, some (coords, coords)⟩ b x y hasIntercept vars = .ok v) :
    ∃ (k' : ℕ) (X : Matrix (Fin n) (Fin k') ℝ), Columns x (modelColumns hasIntercept vars) X ∧
      ((∀ i, Determined X (w i)) → ∃ B C, IsLocalRegression X y w B C ∧ v = aiccFormula n (residualSS X y B) (∑ i, hatOf X C i i)) ∧
      (ex = .serial → (∃ i, ¬ Determined X (w i)) → v = dblMax) := by
  obtain ⟨W, h1, h2, h3⟩ := kernelRows hc.2 hc.2 hd hb id
  obtain rfl := kernelWeight_unique h2 hw
  have hform : ∀ {k' : ℕ} {X : Matrix (Fin n) (Fin k') ℝ}, (∀ i, Determined X (W i)) →
      ∃ B C s, IsLocalRegression X y W B C ∧ fitCoreSHatSerial X y W 0 n NoStop = .ok ((B, s), false) ∧ s 0 = ∑ i, hatOf X C i i := by
    intro k' X hdet
    obtain ⟨a, ha⟩ := (C21_fit_succeeds_iff X y W h3 false false).1.2 hdet
    obtain ⟨C, hC⟩ := serialFit_explicit h3 ha
    obtain ⟨s, e, hs⟩ := aic_core h3 hC.local_
    exact ⟨a.betas, C, s, hC.local_, e, hs⟩
  cases ex with
  | serial =>
    change gwrVarsCriterion _ _ _ _ _ _ = _ at h
    unfold gwrVarsCriterion at h
    obtain ⟨X, hX, h⟩ := Res.bind_eq_ok'.1 h
    refine ⟨_, X, (pickCols_ok hX).1, fun hdet => ?_, fun _ hno => ?_⟩
    · obtain ⟨B, C, s, hr, e, hs⟩ := hform hdet
      rw [h1] at h
      change (match fitCoreSHatSerial X y W 0 n NoStop with | .ok r => _ | _ => _) = _ at h
      rw [e] at h
      exact ⟨B, C, hr, by rw [← hs]; exact aicc_formula h⟩
    · rw [h1] at h
      change (match fitCoreSHatSerial X y W 0 n NoStop with | .ok r => _ | _ => _) = _ at h
      obtain ⟨i, hi⟩ := hno
      have : fitCoreSHatSerial X y W 0 n NoStop = .throw .singular := by
        refine serialFor_fail (fun i => localFit_cases X y (W i) (X i)) _ 0 _ (fun _ _ => rfl) ⟨i, mem_workRange.2 ⟨Nat.zero_le _, i.isLt⟩, ?_⟩
        rcases localFit_cases X y (W i) (X i) with ⟨r, hr⟩ | hr
        · exact absurd ((gram_posDef_iff_determined X (W i) (h3 i)).1 (localFit_eq_ok.1 hr).1) hi
        · exact hr
      rw [this] at h
      exact (Res.ok.inj h).symm
  | omp evs =>
    unfold gwrVarsCriterionEx at h
    obtain ⟨X, hX, h⟩ := Res.bind_eq_ok'.1 h
    refine ⟨_, X, (pickCols_ok hX).1, fun hdet => ?_, fun hh => by cases hh⟩
    obtain ⟨B, C, s, hr, e, hs⟩ := hform hdet
    rw [h1] at h
    have hsch : Schedule (workRange n 0 n) evs := by rw [workRange_all]; exact hex
    obtain ⟨r, hr1, h⟩ := Res.bind_eq_ok'.1 h
    have hpar : fitCoreSHatOmp X y W NoStop evs = .ok ((B, s), false) := ((coreOmp_eq_serial X y W evs hsch).2 ⟨_, e⟩).trans e
    have : r = ((B, s), false) := Res.ok.inj (hr1.symm.trans hpar)
    subst this
    exact ⟨B, C, hr, by rw [← hs]; exact aicc_formula h⟩

/-- The selection step of a run of basic regression, in any mode: a greedy forward search over all columns but the intercept by the corrected Akaike
criterion with bandwidth `DBL_MAX` (where it is defined; serially `DBL_MAX` where it is not); the reported list contains exactly the visited sets; the
selected variables are those of the last entry of the list that improves on the entry before it by at least the threshold, and the regression
continues with the intercept and these columns. -/
def IsGWRSelection (serial : Prop) (thr : ℝ) (x : Matrix (Fin n) (Fin k) ℝ) (y : Fin n → ℝ) (w : Fin n → Fin n → ℝ) (hasIntercept : Bool)
    (s : Selected n) : Prop :=
  let first := if hasIntercept = true then 1 else 0
  ∃ path visited, GreedySearch (k - first) path visited ∧
    (∀ m ∈ visited, ∃ (k' : ℕ) (X : Matrix (Fin n) (Fin k') ℝ), Columns x (modelColumns hasIntercept (m.1.map fun i => i + first)) X ∧
      ((∀ i, Determined X (w i)) → ∃ B C, IsLocalRegression X y w B C ∧ m.2 = aiccFormula n (residualSS X y B) (∑ i, hatOf X C i i)) ∧
      (serial → (∃ i, ¬ Determined X (w i)) → m.2 = dblMax)) ∧
    s.criteria.Perm (visited.map fun m => (m.1.map fun i => i + first, m.2)) ∧
    s.criteria.Pairwise (fun a b => a.1.length < b.1.length ∨ (a.1.length = b.1.length ∧ b.2 ≤ a.2)) ∧
    (∃ c, LastGap thr s.criteria (s.vars, c)) ∧
    s.vars.Nodup ∧ s.vars ≠ [] ∧ (∀ v ∈ s.vars, first ≤ v ∧ v < k) ∧
    Columns x (modelColumns hasIntercept s.vars) s.x

theorem selection_core {srt : List FModel → List FModel} (hsrt : IsStdSort srt) {thr : ℝ} {sched : List ℕ → Exec n} (hs : ∀ v, (sched v).Valid)
    {geo : Bool} {b : BandwidthWeight} {coords : DynMat} (hc : FitsData coords n) {dist w : Fin n → Fin n → ℝ} (hd : IsMapDistance geo coords coords dist)
    (hb : UsableRadius { b with mBandwidth := dblMax } dist) (hw : IsKernelWeight { b with mBandwidth := dblMax } dist w)
    {x : Matrix (Fin n) (Fin k) ℝ} {y : Fin n → ℝ} {hasIntercept : Bool} {s : Selected n}
    (h : gwrSelectVarsEx srt thr sched ⟨geo, some (coords, coords)⟩ b x y hasIntercept = .ok s) :
    IsGWRSelection (∀ v, sched v = .serial) thr x y w hasIntercept s := by
  obtain ⟨path, visited, h1, h2, h3⟩ := selectVars_spec hsrt h
  refine ⟨path, visited, h1, fun m hm => ?_, h3⟩
  obtain ⟨k', X, c1, c2, c3⟩ := C120_criterion (sched _) (hs _) geo b coords hc dist w hd hb hw x y hasIntercept _ _ (h2 m hm)
  exact ⟨k', X, c1, c2, fun hser => c3 (hser _)⟩

/-- **C120 (run).** A completed fit with automatic selection of variables and a given bandwidth, in any mode: the selection is as above, and everything
reported belongs to the regressions on the selected columns with the configured bandwidth. -/
theorem C120_fit (srt : List FModel → List FModel) (hsrt : IsStdSort srt) (thr : ℝ) (sched : List ℕ → Exec n) (hs : ∀ v, (sched v).Valid)
    (ex : Exec n) (hex : ex.Valid) (geo : Bool) (par : Option (DynMat × DynMat)) (b : BandwidthWeight) (coords : DynMat) (hc : FitsData coords n)
    (dist w0 w : Fin n → Fin n → ℝ) (hd : IsMapDistance geo coords coords dist) (hb0 : UsableRadius { b with mBandwidth := dblMax } dist)
    (hw0 : IsKernelWeight { b with mBandwidth := dblMax } dist w0) (hb : UsableRadius b dist) (hw : IsKernelWeight b dist w)
    (x : Matrix (Fin n) (Fin k) ℝ) (y : Fin n → ℝ) (hasIntercept sS sC : Bool) (s : Selected n) (g : GWRReport n s.cols.length)
    (h : gwrVarRun srt thr sched ex ⟨geo, par⟩ b coords x y hasIntercept sS sC = .ok ⟨s, g⟩) :
    IsGWRSelection (∀ v, sched v = .serial) thr x y w0 hasIntercept s ∧ g.weight = b ∧ ∃ C, IsGWRReport s.x y w sS sC g C := by
  unfold gwrVarRun at h
  obtain ⟨d', hb', h⟩ := Res.bind_eq_ok'.1 h
  obtain ⟨-, -, rfl⟩ := bindLocations_eq_ok.1 hb'
  obtain ⟨s', hs', h⟩ := Res.bind_eq_ok'.1 h
  obtain ⟨g', hg, h⟩ := Res.bind_eq_ok'.1 h
  obtain ⟨rfl, e2⟩ := Sigma.mk.inj (Res.ok.inj h)
  cases eq_of_heq e2
  refine ⟨selection_core hsrt hs hc hd hb0 hw0 hs', ?_⟩
  obtain ⟨W, h1, h2, h3⟩ := kernelRows hc.2 hc.2 hd hb id
  obtain rfl := kernelWeight_unique h2 hw
  obtain ⟨c1, c2⟩ := finish_report (x := s'.x) (y := y) (sS := sS) (sC := sC) h3 hex h1
  by_cases hdet : ∀ i, Determined s'.x (W i)
  · obtain ⟨g2, C, e, e2, hC⟩ := c1 hdet
    cases Res.ok.inj (hg.symm.trans e)
    exact ⟨e2, C, hC⟩
  · push Not at hdet
    rw [c2 hdet] at hg; cases hg

/-- **C120 (run, both selections).** With automatic bandwidth selection as well, the bandwidth search runs on the selected columns, and everything
reported belongs to the regressions on these columns with the selected bandwidth. -/
theorem C120_auto_fit (srt : List FModel → List FModel) (hsrt : IsStdSort srt) (thr : ℝ) (sched : List ℕ → Exec n) (hs : ∀ v, (sched v).Valid)
    (c : Crit) (schedB : ℕ → Exec n) (hsB : ∀ j, (schedB j).Valid) (ex : Exec n) (hex : ex.Valid) (geo : Bool) (par : Option (DynMat × DynMat))
    (b0 : BandwidthWeight) (lower upper : Option ℝ) (coords : DynMat) (hc : FitsData coords n) (dist w0 : Fin n → Fin n → ℝ)
    (hd : IsMapDistance geo coords coords dist) (hb0 : UsableRadius { b0 with mBandwidth := dblMax } dist)
    (hw0 : IsKernelWeight { b0 with mBandwidth := dblMax } dist w0) (x : Matrix (Fin n) (Fin k) ℝ) (y : Fin n → ℝ) (hasIntercept sS sC : Bool)
    (s : Selected n) (r : SearchResult) (g : GWRReport n s.cols.length)
    (h : gwrVarAutoRun srt thr sched c schedB ex ⟨geo, par⟩ b0 lower upper coords x y hasIntercept sS sC = .ok ⟨s, (r, g)⟩) :
    IsGWRSelection (∀ v, sched v = .serial) thr x y w0 hasIntercept s ∧
    IsSearchedFit c (∀ j, schedB j = .serial) b0 dist s.x y sS sC r g := by
  unfold gwrVarAutoRun at h
  obtain ⟨d', hb', h⟩ := Res.bind_eq_ok'.1 h
  obtain ⟨-, -, rfl⟩ := bindLocations_eq_ok.1 hb'
  obtain ⟨s', hs', h⟩ := Res.bind_eq_ok'.1 h
  obtain ⟨r', hr, h⟩ := Res.bind_eq_ok'.1 h
  obtain ⟨b, ho, h⟩ := Res.bind_eq_ok'.1 h
  obtain ⟨g', hg, h⟩ := Res.bind_eq_ok'.1 h
  obtain ⟨rfl, e2⟩ := Sigma.mk.inj (Res.ok.inj h)
  cases eq_of_heq e2
  exact ⟨selection_core hsrt hs hc hd hb0 hw0 hs', auto_core c hsB hex hc hd hr ho hg⟩

/-- Six observations: the intercept, a covariate, and a column of zeros. -/
def zeroColX : Matrix (Fin 6) (Fin 3) ℝ := !![1, 1, 0; 1, -1, 0; 1, 0, 0; 1, 0, 0; 1, 0, 0; 1, 0, 0]

theorem two_selectVars {srt : List FModel → List FModel} (hsrt : IsStdSort srt) {crit : List ℕ → Res ℝ} {v1 v2 v3 : ℝ} (h1 : crit [1] = .ok v1)
    (h2 : crit [2] = .ok v2) (h3 : crit [1, 2] = .ok v3) (h4 : crit [2, 1] = .ok v3) (hlt : 3 ≤ |v1 - v2|) (hv : min v1 v2 - v3 < 3)
    (x : Matrix (Fin n) (Fin 3) ℝ) :
    ∃ s, selectVars crit srt 3 x true = .ok s ∧ s.vars = [if v1 < v2 then 1 else 2] := by
  set o : VOracle := fun _ vs => (true, match crit vs with
          | .ok v => v | _ => 0) with ho
  have hc : candidates 3 true = [1, 2] := by decide
  have o1 : ∀ q, o q [1] = (true, v1) := fun q => by simp only [ho, h1]
  have o2 : ∀ q, o q [2] = (true, v2) := fun q => by simp only [ho, h2]
  have o12 : ∀ q, o q [1, 2] = (true, v3) := fun q => by simp only [ho, h3]
  have o21 : ∀ q, o q [2, 1] = (true, v3) := fun q => by simp only [ho, h4]
  obtain ⟨hp, hord⟩ := hsrt [([0], v1), ([1], v2)]
  have fin : ∀ (P Q : FModel) (L : List ℕ) (v : ℕ), (v = 1 ∨ v = 2) → convertIndex [1, 2] Q.1 = [v] →
      stages o [1, 2] 2 ⟨[], List.range 2, [], true⟩ = .ok ⟨L, [], [([0], v1), ([1], v2), (L, v3)], true⟩ →
      (∃ w, crit (convertIndex [1, 2] L) = .ok w) →
      srt [([0], v1), ([1], v2)] = [P, Q] → 3 ≤ P.2 - Q.2 → Q.2 - v3 < 3 →
      ∃ s, selectVars crit srt 3 x true = .ok s ∧ s.vars = [v] := by
    intro P Q L v hv hQ hst hL hpq hd1 hd2
    have hp1 : srt [(L, v3)] = [(L, v3)] := List.perm_singleton.1 (hsrt [(L, v3)]).1
    have hsort : sortSections srt 2 [([0], v1), ([1], v2), (L, v3)] = .ok [P, Q, (L, v3)] := by
      simp [sortSections, Res.bind, hpq, hp1]
    have hsel : select 3 [P, Q, (L, v3)] = .ok Q := by
      have e1 : ¬ (3 : ℝ) ≤ Q.2 - v3 := by linarith
      simp [select, selectLoop, hd1, e1]
    have hf : forwardOptimize srt [1, 2] 3 o = .ok ⟨.ok [v], [([0], v1), ([1], v2), (L, v3)], some [P, Q, (L, v3)], true⟩ := by
      unfold forwardOptimize
      simp only [List.length_cons, List.length_nil]
      rw [hst]
      simp only [Res.bind, if_true]
      rw [hsort]
      simp only [hsel, hQ]
    obtain ⟨X, hX⟩ : ∃ X, pickCols x (index2uvec [v] true) = .ok X := by
      unfold pickCols
      rw [dif_pos]
      · exact ⟨_, rfl⟩
      · rcases hv with rfl | rfl <;> simp [index2uvec]
    have hall : ∀ m ∈ [(([0], v1) : FModel), ([1], v2), (L, v3)], ∃ v, crit (convertIndex [1, 2] m.1) = .ok v := by
      intro m hm
      simp only [List.mem_cons, List.not_mem_nil, or_false] at hm
      rcases hm with rfl | rfl | rfl
      · exact ⟨_, h1⟩
      · exact ⟨_, h2⟩
      · exact hL
    refine ⟨⟨[v], indepVarsCriterion [1, 2] [P, Q, (L, v3)], index2uvec [v] true, X⟩, ?_, rfl⟩
    unfold selectVars
    rw [hc]
    change (forwardOptimize srt [1, 2] 3 o).bind _ = _
    rw [hf]
    change (if _ then _ else _) = _
    rw [if_pos hall]
    exact (pick_finish (if_pos (by simp)) hX).trans (by simp)
  have hl := hp.length_eq
  match hm : srt [([0], v1), ([1], v2)], hl with
  | [p, q], _ =>
    rw [hm] at hp hord
    have hqp : q.2 ≤ p.2 := by simpa using hord
    have hcase : (p = ([0], v1) ∧ q = ([1], v2)) ∨ (p = ([1], v2) ∧ q = ([0], v1)) := by
      have g1 := hp.mem_iff.1 (show p ∈ [p, q] by simp)
      have g2 := hp.mem_iff.1 (show q ∈ [p, q] by simp)
      have hnd : [p, q].Nodup := hp.nodup_iff.2 (by simp)
      simp only [List.nodup_cons, List.mem_singleton, List.not_mem_nil, not_false_eq_true, List.nodup_nil, and_true] at hnd
      simp only [List.mem_cons, List.not_mem_nil, or_false] at g1 g2
      rcases g1 with rfl | rfl <;> rcases g2 with rfl | rfl <;> simp_all
    by_cases h12 : v1 < v2
    · rw [if_pos h12]
      rcases hcase with ⟨rfl, rfl⟩ | ⟨rfl, rfl⟩
      · exact absurd hqp (not_le.2 h12)
      · refine fin _ _ [0, 1] 1 (Or.inl rfl) (by simp [convertIndex]) ?_ ⟨v3, by simpa [convertIndex] using h3⟩ hm ?_ ?_
        · simp [stages, stage, stageLoop, List.range_succ, convertIndex, indexMin, Res.bind, o1, o2, o12, not_lt.2 h12.le]
        · rw [abs_of_neg (by linarith)] at hlt; simpa using by linarith
        · rw [min_eq_left h12.le] at hv; exact hv
    · rw [if_neg h12]
      have h21 : v2 < v1 := by
        rcases lt_or_eq_of_le (not_lt.1 h12) with h | h
        · exact h
        · rw [h] at hlt; norm_num at hlt
      rcases hcase with ⟨rfl, rfl⟩ | ⟨rfl, rfl⟩
      · refine fin _ _ [1, 0] 2 (Or.inr rfl) (by simp [convertIndex]) ?_ ⟨v3, by simpa [convertIndex] using h4⟩ hm ?_ ?_
        · simp [stages, stage, stageLoop, List.range_succ, convertIndex, indexMin, Res.bind, o1, o2, o21, h21]
        · rw [abs_of_pos (by linarith)] at hlt; exact hlt
        · rw [min_eq_right h21.le] at hv; exact hv
      · exact absurd hqp (not_le.2 h21)

theorem sel_rows {bw : ℝ} (hb : 10 < bw) : weightRows ⟨false, some (selCoords, selCoords)⟩ ⟨bw, false, .Boxcar⟩ 6 6 = .ok fun _ _ => 1 := by
  refine (weights_fixed (by linarith)).2 fun i => ⟨i.isLt, rfl, ?_⟩
  funext l; exact (selPlane hb i l).symm

theorem zeroCol_not_determined {k' : ℕ} {X : Matrix (Fin 6) (Fin k') ℝ} (j : Fin k') (hj : ∀ i, X i j = 0) (w : Fin 6 → ℝ) : ¬ Determined X w := by
  intro h
  have := congrFun (h (Pi.single j 1) fun l _ => by simp [Pi.single_apply, hj]) j
  simp at this

theorem zeroCol_parallel {k' : ℕ} {X : Matrix (Fin 6) (Fin k') ℝ} (j : Fin k') (hj : ∀ i, X i j = 0) {T : ℕ} (evs : List (OmpEv (Fin 6) (Fin T))) :
    (fitCoreSHatOmp X selY (fun _ _ => 1) NoStop evs).bind (fun r => aicc X selY r.1.1 (r.1.2 0)) = .ok (aiccFormula 6 2 0) := by
  have hsh : ∀ i r, localFit X selY (fun _ => 1) (X i) ≠ .ok r := fun i r h =>
    zeroCol_not_determined j hj _ ((gram_posDef_iff_determined X _ (fun _ => zero_le_one)).1 (localFit_eq_ok.1 h).1)
  obtain ⟨h1, -⟩ := omp_all_fail (g := fun i => localFit X selY (fun _ => 1) (X i)) (upd := shatUpdOmp (T := T))
    (stop := NoStop) hsh evs ⟨(0, 0), true, fun _ => false, 0, false⟩
  have hr : rss X selY 0 = 2 := by norm_num [rss, fitted, selY, Fin.sum_univ_succ]
  simp only [fitCoreSHatOmp, ompRun, Res.bind]
  rw [h1]
  simp [aicc, hr, fdiv, flog, Res.bind, aiccFormula]
  norm_num

theorem zeroCol_has {vars : List ℕ} {k' : ℕ} {X : Matrix (Fin 6) (Fin k') ℝ} (h2 : 2 ∈ vars) (hX : Columns zeroColX (modelColumns true vars) X) :
    ∃ j, ∀ i, X i j = 0 := by
  obtain ⟨hl, hc⟩ := hX
  have hm : 2 ∈ modelColumns true vars := by simp [modelColumns, h2]
  obtain ⟨q, hq, e⟩ := List.getElem_of_mem hm
  refine ⟨⟨q, hl ▸ hq⟩, fun i => ?_⟩
  obtain ⟨c, e1, e2⟩ := hc ⟨q, hl ▸ hq⟩
  rw [e2 i]
  have : c = 2 := by
    have e3 : (modelColumns true vars)[q]? = some 2 := by rw [List.getElem?_eq_getElem hq, e]
    exact Fin.ext (Option.some.inj (e1.symm.trans e3))
  rw [this]
  fin_cases i <;> simp [zeroColX]

theorem zeroCol_pick {vars : List ℕ} (hv : ∀ c ∈ vars, c < 3) : ∃ X, pickCols zeroColX (index2uvec vars true) = .ok X := by
  unfold pickCols
  rw [dif_pos]
  · exact ⟨_, rfl⟩
  · intro c hc
    simp only [index2uvec, if_true, List.mem_cons] at hc
    rcases hc with rfl | hc
    · norm_num
    · exact hv c hc

theorem zeroCol_eq (i : Fin 6) (c : Fin 3) (hc : c ≠ 2) : zeroColX i c = selX i c := by
  fin_cases c
  · fin_cases i <;> simp [zeroColX, selX]
  · fin_cases i <;> simp [zeroColX, selX]
  · exact absurd rfl hc

theorem zeroCol_core1 : ∃ X, pickCols zeroColX (index2uvec [1] true) = .ok X ∧ ∃ r, fitCoreSHatSerial X selY (fun _ _ => 1) 0 6 NoStop = .ok r ∧
    aicc X selY r.1.1 (r.1.2 0) = .ok (aiccFormula 6 2 2) := by
  obtain ⟨X, hX, h⟩ := sel_core1
  refine ⟨X, ?_, h⟩
  rw [← hX]
  unfold pickCols
  rw [dif_pos (by simp [index2uvec]), dif_pos (by simp [index2uvec])]
  congr 1
  ext i j
  refine zeroCol_eq i _ fun h => ?_
  have h2 : (index2uvec [1] true)[j.val] = 2 := congrArg Fin.val h
  have hm : (index2uvec [1] true)[j.val] ∈ index2uvec [1] true := List.getElem_mem _
  rw [h2] at hm
  simp [index2uvec] at hm

theorem zeroCol_bad {vars : List ℕ} (hv : ∀ c ∈ vars, c < 3) (h2 : 2 ∈ vars) :
    gwrVarsCriterionEx .serial ⟨false, some (selCoords, selCoords)⟩ ⟨11, false, .Boxcar⟩ zeroColX selY true vars = .ok dblMax ∧
    ∀ {T : ℕ} (evs : List (OmpEv (Fin 6) (Fin T))), gwrVarsCriterionEx (.omp evs) ⟨false, some (selCoords, selCoords)⟩ ⟨11, false, .Boxcar⟩ zeroColX selY
      true vars = .ok (aiccFormula 6 2 0) := by
  obtain ⟨X, hX⟩ := zeroCol_pick hv
  obtain ⟨j, hj⟩ := zeroCol_has h2 (pickCols_ok hX).1
  have hW := sel_rows (bw := dblMax) (by linarith [hundred_lt_dblMax])
  refine ⟨?_, fun evs => ?_⟩
  · unfold gwrVarsCriterionEx gwrVarsCriterion
    rw [hX]
    simp only [Res.bind, hW]
    have : fitCoreSHatSerial X selY (fun _ _ => 1) 0 6 NoStop = .throw .singular := by
      refine serialFor_fail (fun i => localFit_cases X selY _ (X i)) _ 0 _ (fun _ _ => rfl) ⟨0, mem_workRange.2 ⟨by simp, by simp⟩, ?_⟩
      rcases localFit_cases X selY (fun _ => 1) (X 0) with ⟨r, hr⟩ | hr
      · exact absurd ((gram_posDef_iff_determined X _ fun _ => zero_le_one).1 (localFit_eq_ok.1 hr).1) (zeroCol_not_determined j hj _)
      · exact hr
    rw [show (fun _ : ℕ => false) = NoStop from rfl, this]
  · unfold gwrVarsCriterionEx
    rw [hX]
    simp only [Res.bind, hW]
    exact zeroCol_parallel j hj evs

theorem zeroCol_good {ex : Exec 6} (hex : ex.Valid) :
    gwrVarsCriterionEx ex ⟨false, some (selCoords, selCoords)⟩ ⟨11, false, .Boxcar⟩ zeroColX selY true [1] = .ok (aiccFormula 6 2 2) := by
  obtain ⟨X, hX, r, hr, ha⟩ := zeroCol_core1
  have hW := sel_rows (bw := dblMax) (by linarith [hundred_lt_dblMax])
  cases ex with
  | serial =>
    unfold gwrVarsCriterionEx gwrVarsCriterion
    rw [hX]
    simp only [Res.bind, hW]
    rw [show (fun _ : ℕ => false) = NoStop from rfl, hr]
    exact ha
  | omp evs =>
    have hsch : Schedule (workRange 6 0 6) evs := by rw [workRange_all]; exact hex
    unfold gwrVarsCriterionEx
    rw [hX]
    simp only [Res.bind, hW]
    rw [show (fun _ : ℕ => false) = NoStop from rfl, (coreOmp_eq_serial X selY _ evs hsch).2 ⟨r, hr⟩, hr]
    exact ha

theorem aicc_gap : aiccFormula 6 2 2 - aiccFormula 6 2 0 = 15 := by
  simp only [aiccFormula]; norm_num

theorem aicc_small : aiccFormula 6 2 2 < 90 := by
  have h1 : Real.log (2 * Real.pi) ≤ 2 * Real.pi - 1 := Real.log_le_sub_one_of_pos (by positivity)
  have h2 : Real.log (2 / 6) ≤ 2 / 6 - 1 := Real.log_le_sub_one_of_pos (by norm_num)
  have h3 := Real.pi_lt_four
  simp only [aiccFormula]
  norm_num at h2 ⊢
  linarith

/-- **C120 (parallel selection), refuted.** On data with an intercept, a covariate and a column of zeros, the serial selection chooses the covariate and
the fit succeeds. In parallel mode, in every schedule, the regressions that involve the column of zeros fail silently and are scored as if they were
models without any parameter: the column of zeros is selected, and the fit throws. -/
theorem C120_parallel_selects_zeros (srt : List FModel → List FModel) (hsrt : IsStdSort srt) (sS sC : Bool) :
    (∃ s g, gwrVarRun srt 3 (fun _ => .serial) .serial ⟨false, none⟩ ⟨11, false, .Boxcar⟩ selCoords zeroColX selY true sS sC = .ok ⟨s, g⟩ ∧
      s.vars = [1]) ∧
    ∀ {T : ℕ} (sched : List ℕ → List (OmpEv (Fin 6) (Fin T))) (_ : ∀ v, (Exec.omp (sched v)).Valid) (ex : Exec 6) (_ : ex.Valid),
      (∃ s, gwrSelectVarsEx srt 3 (fun v => .omp (sched v)) ⟨false, some (selCoords, selCoords)⟩ ⟨11, false, .Boxcar⟩ zeroColX selY true = .ok s ∧
        s.vars = [2]) ∧
      ∃ e, gwrVarRun srt 3 (fun v => .omp (sched v)) ex ⟨false, none⟩ ⟨11, false, .Boxcar⟩ selCoords zeroColX selY true sS sC = .throw e := by
  have hb : bindLocations ⟨false, none⟩ selCoords selCoords = .ok ⟨false, some (selCoords, selCoords)⟩ :=
    bindLocations_eq_ok.2 ⟨rfl, rfl, rfl⟩
  have hW := sel_rows (bw := 11) (by norm_num)
  have h12 : ∀ c ∈ [1, 2], c < 3 := by decide
  have h21 : ∀ c ∈ [2, 1], c < 3 := by decide
  have h2 : ∀ c ∈ [2], c < 3 := by decide
  have hgap := aicc_gap
  refine ⟨?_, fun {T} sched hs ex hex => ?_⟩
  · have hbig : aiccFormula 6 2 2 + 3 ≤ dblMax := by
      have := aicc_small
      linarith [hundred_lt_dblMax]
    obtain ⟨s, h, hv⟩ := two_selectVars hsrt (crit := fun vars => gwrVarsCriterionEx .serial ⟨false, some (selCoords, selCoords)⟩
      ⟨11, false, .Boxcar⟩ zeroColX selY true vars) (zeroCol_good trivial) (zeroCol_bad h2 (by simp)).1 (zeroCol_bad h12 (by simp)).1
      (zeroCol_bad h21 (by simp)).1 (by rw [abs_sub_comm, abs_of_nonneg (by linarith)]; linarith)
      (by rw [min_eq_left (by linarith)]; linarith) zeroColX
    rw [if_pos (by linarith)] at hv
    obtain ⟨-, -, -, -, -, -, -, -, -, -, hcol⟩ := selectVars_spec hsrt h
    have hdet : Determined s.x fun _ => 1 := by
      obtain ⟨hl, hc⟩ := hcol
      rw [hv] at hl hc
      have hc' : Columns selX [0, 1] s.x := by
        refine ⟨hl, fun j => ?_⟩
        obtain ⟨c, e1, e2⟩ := hc j
        refine ⟨c, e1, fun i => (e2 i).trans ?_⟩
        have : c = 0 ∨ c = 1 := by
          have hj : j.val < 2 := by
            have h1 := j.isLt
            have h2 := hl
            simp [modelColumns] at h2
            omega
          have : j.val = 0 ∨ j.val = 1 := by omega
          rcases this with h0 | h0 <;> rw [h0] at e1 <;> simp [modelColumns] at e1
          · left; exact Fin.ext e1.symm
          · right; exact Fin.ext e1.symm
        exact zeroCol_eq i c (by rcases this with rfl | rfl <;> decide)
      exact sel_determined (Or.inl rfl) hc'
    obtain ⟨g, C, hg, -, -⟩ := (finish_report (x := s.x) (y := selY) (sS := sS) (sC := sC) (ex := .serial) (W := fun _ _ => 1)
      (fun _ _ => zero_le_one) trivial hW).1 fun _ => hdet
    have hsel : gwrSelectVarsEx srt 3 (fun _ => .serial) ⟨false, some (selCoords, selCoords)⟩ ⟨11, false, .Boxcar⟩ zeroColX selY true = .ok s := h
    refine ⟨s, g, ?_, hv⟩
    unfold gwrVarRun
    rw [hb]
    simp only [Res.bind, hsel, hg]
  · obtain ⟨s, h, hv⟩ := two_selectVars hsrt (crit := fun vars => gwrVarsCriterionEx (.omp (sched vars)) ⟨false, some (selCoords, selCoords)⟩
      ⟨11, false, .Boxcar⟩ zeroColX selY true vars) (zeroCol_good (hs _)) ((zeroCol_bad h2 (by simp)).2 _) ((zeroCol_bad h12 (by simp)).2 _)
      ((zeroCol_bad h21 (by simp)).2 _) (by rw [hgap]; norm_num) (by rw [min_eq_right (by linarith)]; linarith) zeroColX
    rw [if_neg (by linarith)] at hv
    have hsel : gwrSelectVarsEx srt 3 (fun v => .omp (sched v)) ⟨false, some (selCoords, selCoords)⟩ ⟨11, false, .Boxcar⟩ zeroColX selY true = .ok s := h
    refine ⟨⟨s, hsel, hv⟩, ?_⟩
    obtain ⟨-, -, -, -, -, -, -, -, -, -, hcol⟩ := selectVars_spec hsrt h
    obtain ⟨j, hj⟩ := zeroCol_has (by rw [hv]; simp) hcol
    have hf := (finish_report (x := s.x) (y := selY) (sS := sS) (sC := sC) (ex := ex) (W := fun _ _ => 1)
      (fun _ _ => zero_le_one) hex hW).2 ⟨0, zeroCol_not_determined j hj _⟩
    refine ⟨loopError ex, ?_⟩
    unfold gwrVarRun
    rw [hb]
    simp only [Res.bind, hsel, hf]

/-! ## Instances -/

theorem wls_exact {x : Matrix (Fin n) (Fin k) ℝ} {w : Fin n → ℝ} (hw : ∀ l, 0 ≤ w l) (h : Determined x w) (β : Fin k → ℝ) : IsWLS x (x *ᵥ β) w β := by
  obtain ⟨b, e, hb⟩ := wls_exists hw h (x *ᵥ β)
  obtain ⟨hp, e⟩ := localBeta_eq_ok.1 e
  rw [← xtwx_mulVec, inv_mul_gram hp] at e
  rw [e] at hb; exact hb

/-- On a line of three points with the Gaussian kernel every fit succeeds, for fixed and adaptive bandwidths, serially and in parallel. -/
example (y : Fin 3 → ℝ) (b : BandwidthWeight) (hb : b = ⟨1, false, .Gaussian⟩ ∨ b = ⟨5 / 2, true, .Gaussian⟩) (ex : Exec 3)
    (hx : ex = .serial ∨ ex = .omp (seqEvents (fun _ => (0 : Fin 2)) (List.finRange 3))) :
    ∃ w g C, gwrRun ex ⟨false, none⟩ b (lineCoords 1) exX y true true = .ok g ∧ IsGWRReport exX y w true true g C := by
  have hex : ex.Valid := by
    rcases hx with rfl | rfl
    · trivial
    · exact seqEvents_schedule _ _
  have hu : UsableRadius (m := 3) (n := 3) b (fun i j => |(1 : ℝ)| * |((j : ℕ) : ℝ) - (i : ℕ)|) := by
    rcases hb with rfl | rfl
    · exact usable_fixed one_pos _ _
    · refine usable_distinct (by norm_num) (by norm_num) (by norm_num) fun i l hne => ?_
      have : ((l : ℕ) : ℝ) - (i : ℕ) ≠ 0 := sub_ne_zero.2 fun h => hne (Fin.ext (by exact_mod_cast h.symm))
      simpa using this
  have hc : FitsData (lineCoords 1) 3 := ⟨rfl, rfl⟩
  obtain ⟨W, -, hW, -⟩ := kernelRows hc.2 hc.2 (line_mapDistance 1) hu id
  have hdet : ∀ i, Determined exX (W i) := fun i => exX_determined _ fun l => by
    obtain ⟨r, hr, e⟩ := hW i
    rw [e]
    have hk : b.mKernel = .Gaussian := by rcases hb with rfl | rfl <;> rfl
    rw [hk]
    exact Real.exp_pos _
  obtain ⟨g, C, h1, -, h2⟩ := (C118_fit ex hex false none b (lineCoords 1) hc _ W (line_mapDistance 1) hu hW exX y true true).1 hdet
  exact ⟨W, g, C, h1, h2⟩

theorem gauss_loo {bw : ℝ} {dist w : Fin 3 → Fin 3 → ℝ} (hw : IsKernelWeight ⟨bw, false, .Gaussian⟩ dist w) (β : Fin 2 → ℝ) :
    IsLooScore exX (exX *ᵥ β) w 0 := by
  have hpos : ∀ i l, 0 < w i l := fun i l => by
    obtain ⟨r, -, e⟩ := hw i
    rw [e]; exact Real.exp_pos _
  refine ⟨fun _ => β, fun i => wls_exact (fun l => by split; exacts [le_rfl, (hpos i l).le]) (fun b hb => ?_) β, ?_⟩
  · have hp : ∀ l, l ≠ i → ∑ j, exX l j * b j = 0 := fun l hl => hb l (by rw [if_neg hl]; exact hpos i l)
    have key : b 0 = 0 ∧ b 1 = 0 := by
      fin_cases i
      · have h1 := hp 1 (by decide); have h2 := hp 2 (by decide)
        simp [exX, Fin.sum_univ_two] at h1 h2
        constructor <;> linarith
      · have h1 := hp 0 (by decide); have h2 := hp 2 (by decide)
        simp [exX, Fin.sum_univ_two] at h1 h2
        constructor <;> linarith
      · have h1 := hp 0 (by decide); have h2 := hp 1 (by decide)
        simp [exX, Fin.sum_univ_two] at h1 h2
        constructor <;> linarith
    funext j
    fin_cases j
    · exact key.1
    · exact key.2
  · simp [residualSS, mulVec, dotProduct]

/-- Automatic selection of the bandwidth on that line succeeds in every mode and schedule. -/
theorem ex_autoRun {D l u : ℝ} (lower upper : Option ℝ) (hlow : lower.getD 0 = l)
    (hup : gwrUpper ⟨false, some (lineCoords D, lineCoords D)⟩ ⟨1, false, .Gaussian⟩ 3 upper = .ok u) (hl : 0 ≤ l) (hlu : l < u)
    (sched : ℕ → Exec 3) (hs : ∀ j, (sched j).Valid) (ex : Exec 3) (hex : ex.Valid) (β : Fin 2 → ℝ) (sS sC : Bool) :
    ∃ r g, gwrAutoRun .CV sched ex ⟨false, none⟩ ⟨1, false, .Gaussian⟩ lower upper (lineCoords D) exX (exX *ᵥ β) sS sC = .ok (r, g) ∧
      g.weight = ⟨g.weight.mBandwidth, false, .Gaussian⟩ ∧ 0 < g.weight.mBandwidth ∧ l < g.weight.mBandwidth := by
  have hc : FitsData (lineCoords D) 3 := ⟨rfl, rfl⟩
  have hval : ∀ j bw, 0 < bw → gwrCriterionEx .CV ⟨false, some (lineCoords D, lineCoords D)⟩ exX (exX *ᵥ β) ⟨bw, false, .Gaussian⟩ (sched j) = 0 := by
    intro j bw hbw
    have hu := usable_fixed (m := 3) (n := 3) hbw .Gaussian (fun i j => |D| * |((j : ℕ) : ℝ) - (i : ℕ)|)
    obtain ⟨W, -, hW, -⟩ := kernelRows hc.2 hc.2 (line_mapDistance D) hu id
    rw [(C119_criterion .CV (sched j) (hs j) false _ _ hc _ W (line_mapDistance D) hu hW exX (exX *ᵥ β)).1 0 (gauss_loo hW β), abs_zero, if_pos]
    linarith [hundred_lt_dblMax]
  obtain ⟨g1, g2⟩ := goldenR_bounds
  have q1 : l < l + goldenR * (u - l) := by nlinarith
  have q2 : l < u - goldenR * (u - l) := by nlinarith
  have p1 : 0 < l + goldenR * (u - l) := by linarith
  have p2 : 0 < u - goldenR * (u - l) := by linarith
  set o : Oracle := fun j b => (true, gwrCriterionEx .CV ⟨false, some (lineCoords D, lineCoords D)⟩ exX (exX *ᵥ β) b (sched j)) with ho
  obtain ⟨b, hout⟩ : ∃ b, (optimize ⟨1, false, .Gaussian⟩ l u o []).out = .ok b := by
    rcases optimize_cases ⟨1, false, .Gaussian⟩ l u o [] with ⟨-, he⟩ | ⟨-, -, hf, -, he⟩ | ⟨-, -, -, -, -, he⟩ | ⟨-, -, -, -, he⟩
    · exact ⟨_, by rw [he]⟩
    · have : (goldenInit ⟨1, false, .Gaussian⟩ l u o []).f1 = 0 := by
        have := hval 0 _ p1
        simpa [goldenInit, ho] using this
      rw [this] at hf
      linarith [hundred_lt_dblMax]
    · exact ⟨_, by rw [he]⟩
    · exact ⟨_, by rw [he]⟩
  have hbw' : l < b.mBandwidth ∧ b = { b with mAdaptive := false, mKernel := .Gaussian } := by
    have := golden_stops ⟨1, false, .Gaussian⟩ l u o rfl (fun hcon => by
      have h2 := hcon.2
      simp only [ho] at h2
      rw [hval 1 _ p2, hval 0 _ p1] at h2
      norm_num at h2) b (fun _ _ => rfl) hout
    refine ⟨?_, ?_⟩
    · rcases this.2 with h | h <;> rw [h]
      · exact q1
      · exact q2
    · rw [optimize_kind _ _ _ _ _ hout]
  have hbw : 0 < b.mBandwidth ∧ b = { b with mAdaptive := false, mKernel := .Gaussian } := ⟨by linarith [hbw'.1], hbw'.2⟩
  have hu := usable_fixed (m := 3) (n := 3) hbw.1 .Gaussian (fun i j => |D| * |((j : ℕ) : ℝ) - (i : ℕ)|)
  obtain ⟨W, hr, hW, h0⟩ := kernelRows hc.2 hc.2 (line_mapDistance D) hu id
  have hdet : ∀ i, Determined exX (W i) := fun i => exX_determined _ fun l => by
    obtain ⟨r, -, e⟩ := hW i
    rw [e]; exact Real.exp_pos _
  obtain ⟨g, -, hg, hgw, -⟩ := (finish_report (x := exX) (y := exX *ᵥ β) (sS := sS) (sC := sC) (ex := ex) h0 hex hr).1 hdet
  refine ⟨optimize ⟨1, false, .Gaussian⟩ l u o [], g, ?_, by rw [hgw], by rw [hgw]; exact hbw.1, by rw [hgw]; exact hbw'.1⟩
  unfold gwrAutoRun
  rw [show bindLocations ⟨false, none⟩ (lineCoords D) (lineCoords D) = .ok ⟨false, some (lineCoords D, lineCoords D)⟩ from
    bindLocations_eq_ok.2 ⟨rfl, rfl, rfl⟩]
  have hsr : gwrSearchEx .CV sched ⟨false, some (lineCoords D, lineCoords D)⟩ ⟨1, false, .Gaussian⟩ lower upper exX (exX *ᵥ β) =
      .ok (optimize ⟨1, false, .Gaussian⟩ l u o []) := by
    unfold gwrSearchEx
    rw [hup]
    simp only [Res.bind, Bool.false_eq_true, if_false, hlow]
    rfl
  rw [← hbw.2] at hg
  simp only [Res.bind, hsr, hout, hg]

example : ∃ r g, gwrAutoRun .CV (fun _ => .serial) .serial ⟨false, none⟩ ⟨1, false, .Gaussian⟩ (some 1) (some 5) (lineCoords 1) exX
    (fun i => 7 * (exX *ᵥ ![2, 3]) i) true true = .ok (r, g) := by
  have : (fun i => 7 * (exX *ᵥ ![2, 3]) i) = exX *ᵥ ((7 : ℝ) • ![2, 3]) := by rw [mulVec_smul]; rfl
  rw [this]
  obtain ⟨r, g, h, -⟩ := ex_autoRun (D := 1) (some 1) (some 5) rfl rfl (by norm_num) (by norm_num) (fun _ => .serial) (fun _ => trivial) .serial trivial
    ((7 : ℝ) • ![2, 3]) true true
  exact ⟨r, g, h⟩

/-- A map whose points are 0.00001 apart. -/
example : ∃ r g M, gwrAutoRun .CV (fun _ => .serial) .serial ⟨false, none⟩ ⟨1, false, .Gaussian⟩ none none (lineCoords 1e-5) exX (exX *ᵥ ![2, 3])
    true true = .ok (r, g) ∧ r.evals.map Eval.x = [goldenR * M, M - goldenR * M] := by
  have hp : ∀ i j : ℕ, plane ((lineCoords 1e-5).val i) ((lineCoords 1e-5).val j) = 1e-5 * |(j : ℝ) - i| := fun i j => by
    rw [← euclid_eq_plane, line_dist, abs_of_pos (by norm_num)]
  have hle : ∀ i j : ℕ, i < 3 → j < 3 → plane ((lineCoords 1e-5).val i) ((lineCoords 1e-5).val j) ≤ 2e-5 := fun i j hi hj => by
    rw [hp]
    have h1 : |(j : ℝ) - i| ≤ 2 := by
      have hi : (i : ℝ) ≤ 2 := by exact_mod_cast Nat.lt_succ_iff.1 hi
      have hj : (j : ℝ) ≤ 2 := by exact_mod_cast Nat.lt_succ_iff.1 hj
      have hi0 : (0 : ℝ) ≤ i := Nat.cast_nonneg _
      have hj0 : (0 : ℝ) ≤ j := Nat.cast_nonneg _
      rw [abs_le]; constructor <;> linarith
    linarith
  have hc : FitsData (lineCoords 1e-5) 3 := ⟨rfl, rfl⟩
  obtain ⟨M, _, hM, -, h1, -⟩ := C08_max_min_sharp (lineCoords 1e-5) (lineCoords 1e-5) (by decide) (by decide) fun i hi j hj => by
    rw [euclid_eq_plane]
    linarith [hle i j hi hj, hundred_lt_dblMax]
  have hpos : 0 < M := by
    have := (h1 0 _ (by simp only [CRSDistance.distance]; rw [if_pos (by decide), crsDistRow_planar]) (euclid ((lineCoords 1e-5).val 0)
      ((lineCoords 1e-5).val 1)) (List.mem_map.2 ⟨1, by simp [lineCoords], rfl⟩)).2
    rw [euclid_eq_plane, hp] at this
    norm_num at this
    linarith
  obtain ⟨r, g, h, -⟩ := ex_autoRun (D := 1e-5) (l := 0) (u := M) none none rfl (by simp [gwrUpper, hM]) le_rfl hpos (fun _ => .serial)
    (fun _ => trivial) .serial trivial ![2, 3] true true
  obtain ⟨M, -, -, h2, -⟩ := C119_small_map .CV _ _ none .Gaussian 1 (lineCoords 1e-5) hc (by norm_num) (fun i j => by
    have := hle i j i.isLt j.isLt
    have h0 : 0 ≤ plane ((lineCoords 1e-5).val i) ((lineCoords 1e-5).val j) := Real.sqrt_nonneg _
    obtain ⟨g1, g2⟩ := goldenR_bounds
    nlinarith) exX (exX *ᵥ ![2, 3]) true true r g h
  exact ⟨r, g, M, h, h2⟩

end Verif.Props

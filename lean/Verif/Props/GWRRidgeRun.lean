import Verif.Model.GWRRidgeRun
import Verif.Lemmas.SingularValues
import Verif.Props.GWRLocalCollinearity
import Verif.Props.GWRSelect

/-! Whole runs of local ridge regression (C103). -/

namespace Verif.Props
open Verif Verif.Model Verif.Spec Matrix Classical

variable {n k m : ℕ}

/-- What is assumed of Armadillo's singular value decomposition: it returns the extreme singular values. -/
def ExactSV (sv : Matrix (Fin n) (Fin k) ℝ → ℝ × ℝ) : Prop := ∀ a, IsLargestSV a (sv a).1 ∧ IsSmallestSV a (sv a).2

theorem exactSV_exists (hk : 0 < k) : ∃ sv : Matrix (Fin n) (Fin k) ℝ → ℝ × ℝ, ExactSV sv := by
  choose s hs using fun a : Matrix (Fin n) (Fin k) ℝ => (Lemmas.exists_extreme a hk).1
  choose t ht using fun a : Matrix (Fin n) (Fin k) ℝ => (Lemmas.exists_extreme a hk).2
  exact ⟨fun a => (s a, t a), fun a => ⟨hs a, ht a⟩⟩

theorem lcrScaled_unit {x : Matrix (Fin n) (Fin k) ℝ} {w : Fin n → ℝ} {a} (h : lcrScaled x w = .ok a) : a = unitColumns x w := by
  unfold lcrScaled at h
  by_cases hc : ∃ j, ∑ l, lcrWeighted x w l j * lcrWeighted x w l j = 0
  · rw [if_pos hc] at h; cases h
  · rw [if_neg hc] at h
    rw [← Res.ok.inj h]
    ext l j
    simp only [of_apply, unitColumns, lcrWeighted, sq, mul_comm]

theorem lcrBeta_ridge {sv : Matrix (Fin n) (Fin k) ℝ → ℝ × ℝ} (hsv : ExactSV sv) {cfg : LcrCfg} (hl : 0 ≤ cfg.lambda)
    (ht : 1 < cfg.thresh) {x : Matrix (Fin n) (Fin k) ℝ} {y w : Fin n → ℝ} {b : Fin k → ℝ} (h : lcrBeta sv cfg x y w = .ok b) :
    IsLocalRidge cfg.lambda cfg.adjust cfg.thresh x y w b := by
  unfold lcrBeta at h
  by_cases hk : k < 2
  · rw [if_pos hk] at h; cases h
  rw [if_neg hk] at h
  rw [Res.bind_eq_ok'] at h
  obtain ⟨a, ha, h⟩ := h
  by_cases hn : n < k
  · rw [if_pos hn] at h; cases h
  rw [if_neg hn] at h
  rw [Res.bind_eq_ok'] at h
  obtain ⟨lam, hlam, h⟩ := h
  obtain ⟨h1, h2⟩ := hsv a
  obtain ⟨hA, hB⟩ := C38_lambda (by omega) ha h1 h2 ht cfg.lambda cfg.adjust
  have hp : RidgeParameter cfg.lambda cfg.adjust cfg.thresh (sv a).1 (sv a).2 lam ∧ 0 ≤ lam := by
    by_cases hc : cfg.adjust = true ∧ cfg.thresh * (sv a).2 < (sv a).1
    · obtain ⟨lam', e, hpos, heq, -⟩ := hA hc.1 hc.2
      rw [hlam] at e
      cases Res.ok.inj e
      exact ⟨Or.inl ⟨hc.1, hc.2, by linarith [h2.1], heq⟩, hpos.le⟩
    · have e := hB (by
        by_cases h0 : cfg.adjust = true
        · right; push Not at hc; exact hc h0
        · left; simpa using h0)
      rw [hlam] at e
      cases Res.ok.inj e
      exact ⟨Or.inr ⟨hc, rfl⟩, hl⟩
  rw [lcrScaled_unit ha] at h1 h2 hp
  obtain ⟨s, hs0, hs1, hmin⟩ := C70_ridge x y w hp.2 h
  exact ⟨_, _, lam, s, h1, h2, hp.1, hs0, fun j hj => (hs1 j hj).2, hmin⟩

theorem lcrFit_ok {sv : Matrix (Fin n) (Fin k) ℝ → ℝ × ℝ} {cfg : LcrCfg} {x : Matrix (Fin n) (Fin k) ℝ} {y : Fin n → ℝ}
    {W : Fin n → Fin n → ℝ} {r : LcrResult n k} (h : lcrFit (lcrFitSerial sv cfg x y W NoStop) x y 0 = .ok r) :
    (∀ i, lcrBeta sv cfg x y (W i) = .ok (r.betas i)) ∧
      ∃ H : Fin n → Fin n → ℝ, (∀ i, lcrHatRow x (W i) i = .ok (H i)) ∧
        r.diagnostic = some (lcrDiagnostic x y r.betas ![∑ i, H i i, ∑ i, ∑ l, H i l ^ 2]) := by
  unfold lcrFit at h
  rw [Res.bind_eq_ok'] at h
  obtain ⟨⟨q, t⟩, hq, h⟩ := h
  have ht : t = false := serialFor_nostop _ _ _ hq
  subst ht
  simp only [Bool.false_eq_true, if_false] at h
  have hr := (Res.ok.inj h).symm
  subst hr
  refine ⟨fun i => C73_predict_rows sv cfg x y W (C73_predict_eq_fit sv cfg x y W 0 hq) i, ?_⟩
  have hok := serialFor_complete _ _ _ _ hq
  choose f hf using fun i => hok i (List.mem_finRange i)
  have hfold := serialFor_eq_fold _ _ _ _ hq f fun i _ => hf i
  refine ⟨fun i => (f i).2, fun i => ?_, ?_⟩
  · obtain ⟨b, -, h2⟩ := Res.bind_eq_ok'.1 (hf i)
    obtain ⟨hh, h3, h4⟩ := Res.bind_eq_ok'.1 h2
    rw [h3]
    exact congrArg Res.ok (congrArg Prod.snd (Res.ok.inj h4))
  · have key : ∀ (l : List (Fin n)) (s : Matrix (Fin n) (Fin k) ℝ × (Fin 2 → ℝ)),
        (l.foldl (fun s i => (setRow i (f i).1 s.1, s.2 + lcrTraces i (f i).2)) s).2 =
          s.2 + (l.map fun i => lcrTraces i (f i).2).sum := by
      intro l
      induction l with
      | nil => intro s; simp
      | cons i l ih => intro s; rw [List.foldl_cons, ih, List.map_cons, List.sum_cons, add_assoc]
    have e : q.2 = ![∑ i, (f i).2 i, ∑ i, ∑ l, (f i).2 l ^ 2] := by
      rw [hfold, key]
      have : ((List.finRange n).map fun i => lcrTraces i (f i).2).sum = ∑ i, lcrTraces i (f i).2 := by
        rw [← List.ofFn_eq_map, List.sum_ofFn]
      rw [this]
      funext c
      fin_cases c <;> simp [lcrTraces, Finset.sum_apply, sq]
    rw [← e]

/-- **C103 (coefficients).** With a fixed bandwidth and planar coordinates, a successful fit returns at every location the local ridge estimate for
the kernel weights of the distances between the coordinates. `ExactSV` says that the singular value decomposition is exact. -/
theorem C103_fit_is_local_ridge (sv : Matrix (Fin n) (Fin k) ℝ → ℝ × ℝ) (hsv : ExactSV sv) (cfg : LcrCfg) (hl : 0 ≤ cfg.lambda)
    (ht : 1 < cfg.thresh) (p : Option (DynMat × DynMat)) (kernel : KernelType) (bw : ℝ) (hb : 0 < bw) (coords : DynMat)
    (x : Matrix (Fin n) (Fin k) ℝ) (y : Fin n → ℝ) (r : LcrResult n k)
    (h : lcrRun sv cfg ⟨false, p⟩ ⟨bw, false, kernel⟩ coords x y = .ok r) (i : Fin n) :
    IsLocalRidge cfg.lambda cfg.adjust cfg.thresh x y
      (fun l => kernelFormula kernel bw (plane (coords.val i) (coords.val l))) (r.betas i) := by
  unfold lcrRun at h
  rw [Res.bind_eq_ok'] at h
  obtain ⟨d', hd, h⟩ := h
  rw [Res.bind_eq_ok'] at h
  obtain ⟨W, hW, h⟩ := h
  obtain ⟨-, -, rfl⟩ := bindLocations_eq_ok.1 hd
  have := lcrBeta_ridge hsv hl ht ((lcrFit_ok h).1 i)
  rwa [((weights_fixed hb).1 hW i).2.2] at this

/-- **C103 (coefficients, adaptive bandwidth).** The same when the bandwidth is the distance to the `q`-th nearest observation, if no such distance
is zero. -/
theorem C103_adaptive_fit_is_local_ridge (sv : Matrix (Fin n) (Fin k) ℝ → ℝ × ℝ) (hsv : ExactSV sv) (cfg : LcrCfg) (hl : 0 ≤ cfg.lambda)
    (ht : 1 < cfg.thresh) (p : Option (DynMat × DynMat)) (kernel : KernelType) (q : ℕ) (h1 : 1 ≤ q) (h2 : q < n) (h3 : q < 2147483648)
    (coords : DynMat) (x : Matrix (Fin n) (Fin k) ℝ) (y : Fin n → ℝ)
    (hr : ∀ (i : Fin n) (r : ℝ), IsKthSmallest (fun l : Fin n => plane (coords.val i) (coords.val l)) q r → 0 < r) (r : LcrResult n k)
    (h : lcrRun sv cfg ⟨false, p⟩ ⟨q, true, kernel⟩ coords x y = .ok r) (i : Fin n) :
    ∃ rad, IsKthSmallest (fun l : Fin n => plane (coords.val i) (coords.val l)) q rad ∧
      IsLocalRidge cfg.lambda cfg.adjust cfg.thresh x y
        (fun l => kernelFormula kernel rad (plane (coords.val i) (coords.val l))) (r.betas i) := by
  unfold lcrRun at h
  rw [Res.bind_eq_ok'] at h
  obtain ⟨d', hd, h⟩ := h
  rw [Res.bind_eq_ok'] at h
  obtain ⟨W, hW, h⟩ := h
  obtain ⟨-, -, rfl⟩ := bindLocations_eq_ok.1 hd
  obtain ⟨rad, hrad, e⟩ := weights_adaptive h1 h2 h3 hr hW i
  have := lcrBeta_ridge hsv hl ht ((lcrFit_ok h).1 i)
  rw [e] at this
  exact ⟨rad, hrad, this⟩

/-- **C103 (coefficients, automatic bandwidth).** The same for the bandwidth that a fit with automatic selection reports. -/
theorem C103_auto_fit_is_local_ridge (sv : Matrix (Fin n) (Fin k) ℝ → ℝ × ℝ) (hsv : ExactSV sv) (cfg : LcrCfg) (hl : 0 ≤ cfg.lambda)
    (ht : 1 < cfg.thresh) (p : Option (DynMat × DynMat)) (b0 b : BandwidthWeight) (coords : DynMat)
    (x : Matrix (Fin n) (Fin k) ℝ) (y : Fin n → ℝ) (r : LcrResult n k) (hf : b.mAdaptive = false) (hb : 0 < b.mBandwidth)
    (h : lcrAutoRun sv cfg ⟨false, p⟩ b0 coords x y = .ok (b, r)) (i : Fin n) :
    IsLocalRidge cfg.lambda cfg.adjust cfg.thresh x y
      (fun l => kernelFormula b.mKernel b.mBandwidth (plane (coords.val i) (coords.val l))) (r.betas i) := by
  unfold lcrAutoRun at h
  rw [Res.bind_eq_ok'] at h
  obtain ⟨d', hd, h⟩ := h
  rw [Res.bind_eq_ok'] at h
  obtain ⟨sr, -, h⟩ := h
  rw [Res.bind_eq_ok'] at h
  obtain ⟨b', -, h⟩ := h
  rw [Res.bind_eq_ok'] at h
  obtain ⟨W, hW, h⟩ := h
  rw [Res.bind_eq_ok'] at h
  obtain ⟨f, hf', h⟩ := h
  obtain ⟨-, -, rfl⟩ := bindLocations_eq_ok.1 hd
  obtain ⟨rfl, rfl⟩ := Prod.mk.inj (Res.ok.inj h)
  have := lcrBeta_ridge hsv hl ht ((lcrFit_ok hf').1 i)
  obtain ⟨bw, ad, ker⟩ := b'
  cases hf
  rwa [((weights_fixed hb).1 hW i).2.2] at this

theorem cvWeight_fixed (W : Fin n → Fin n → ℝ) (i : Fin n) {f : Fin n → ℝ} (h : W i = f) :
    cvWeight W i = fun l => if l = i then 0 else f l := by
  funext l
  simp [cvWeight, Function.update_apply, h]

/-- **C103 (bandwidth choice).** With a fixed-bandwidth kernel, a fit with automatic selection keeps the kernel, its bandwidth is one of the bandwidths
it evaluated, all of them between 0 and the largest distance between observations, and none of them has a smaller cross-validation score. The score of a bandwidth is the sum of
squared errors of the local ridge estimates at the observations, each computed with the observation's own weight set to zero, and the largest double
if that is smaller. -/
theorem C103_bandwidth_choice (sv : Matrix (Fin n) (Fin k) ℝ → ℝ × ℝ) (hsv : ExactSV sv) (cfg : LcrCfg) (hl : 0 ≤ cfg.lambda)
    (ht : 1 < cfg.thresh) (p : Option (DynMat × DynMat)) (kernel : KernelType) (bw0 : ℝ) (b : BandwidthWeight) (coords : DynMat)
    (hn : coords.nRows ≠ 0) (x : Matrix (Fin n) (Fin k) ℝ) (y : Fin n → ℝ) (r : LcrResult n k)
    (h : lcrAutoRun sv cfg ⟨false, p⟩ ⟨bw0, false, kernel⟩ coords x y = .ok (b, r)) :
    b.mAdaptive = false ∧ b.mKernel = kernel ∧ ∃ tried : List (ℝ × ℝ), 2 ≤ tried.length ∧
      (∃ v, (b.mBandwidth, v) ∈ tried ∧ ∀ q ∈ tried, v ≤ q.2) ∧
      (∃ i j, i < coords.nRows ∧ j < coords.nRows ∧
        ∀ q ∈ tried, 0 ≤ q.1 ∧ q.1 ≤ plane (coords.val i) (coords.val j)) ∧
      ∀ q ∈ tried, 0 < q.1 → ∃ B : Fin n → Fin k → ℝ,
        (∀ i, IsLocalRidge cfg.lambda cfg.adjust cfg.thresh x y
          (fun l => if l = i then 0 else kernelFormula kernel q.1 (plane (coords.val i) (coords.val l))) (B i)) ∧
        q.2 = min (∑ i, (y i - ∑ j, x i j * B i j) ^ 2) dblMax := by
  unfold lcrAutoRun at h
  rw [Res.bind_eq_ok'] at h
  obtain ⟨d', hd, h⟩ := h
  rw [Res.bind_eq_ok'] at h
  obtain ⟨sr, hs, h⟩ := h
  rw [Res.bind_eq_ok'] at h
  obtain ⟨b', hb', h⟩ := h
  rw [Res.bind_eq_ok'] at h
  obtain ⟨W, -, h⟩ := h
  rw [Res.bind_eq_ok'] at h
  obtain ⟨f, -, h⟩ := h
  obtain ⟨-, hc2, rfl⟩ := bindLocations_eq_ok.1 hd
  obtain ⟨rfl, rfl⟩ := Prod.mk.inj (Res.ok.inj h)
  unfold lcrSelectBandwidth at hs
  simp only [Bool.false_eq_true, if_false] at hs
  rw [Res.bind_eq_ok'] at hs
  obtain ⟨M, hM, hs⟩ := hs
  have hM0 : 0 ≤ M := (maxLoop_spec hM).1
  have hMat : ∃ i j, i < coords.nRows ∧ j < coords.nRows ∧ M ≤ plane (coords.val i) (coords.val j) := by
    rcases (maxLoop_spec hM).2.2 with e | ⟨i, hi, l, hl', hm⟩
    · exact ⟨0, 0, by omega, by omega, by rw [e]; exact Real.sqrt_nonneg _⟩
    · rw [crsDistRow_planar] at hl'
      rw [← Res.ok.inj hl', List.mem_map] at hm
      obtain ⟨j, hj, e⟩ := hm
      exact ⟨i, j, List.mem_range.1 hi, List.mem_range.1 hj, by rw [← e, euclid_eq_plane]⟩
  by_cases hc : ∀ e ∈ (optimize ⟨bw0, false, kernel⟩ 0 M
      (fun _ b => (true, lcrScore sv cfg ⟨false, some (coords, coords)⟩ x y b)) []).evals,
      ∃ v, lcrCriterion sv cfg ⟨false, some (coords, coords)⟩ x y ⟨e.x, false, kernel⟩ = .ok v
  · rw [if_pos hc] at hs
    have hs' := (Res.ok.inj hs).symm
    subst hs'
    have hev := optimize_evals ⟨bw0, false, kernel⟩ 0 M
      (fun b => lcrScore sv cfg ⟨false, some (coords, coords)⟩ x y b) []
    obtain ⟨e, he, hx, hmin⟩ := C14_returns_best_evaluated _ _ _ _ _ _ hb' fun e he => (hev e he).1
    obtain ⟨hk1, hk2⟩ := C17_kernel_kind_kept _ _ _ _ _ _ hb'
    have hin := (C15_fixed_within_bounds ⟨bw0, false, kernel⟩ rfl 0 M hM0
      (fun _ b => (true, lcrScore sv cfg ⟨false, some (coords, coords)⟩ x y b)) []).1
    obtain ⟨i, j, hi, hj, hij⟩ := hMat
    refine ⟨hk2, hk1, (optimize ⟨bw0, false, kernel⟩ 0 M
      (fun _ b => (true, lcrScore sv cfg ⟨false, some (coords, coords)⟩ x y b)) []).evals.map
        fun e => (e.x, e.f), ?_, ⟨e.f, List.mem_map.2 ⟨e, he, by rw [hx]⟩, ?_⟩, ⟨i, j, hi, hj, ?_⟩, ?_⟩
    · rw [List.length_map]; exact (C16_call_bound _ _ _ _ _).1
    · rintro q hq
      obtain ⟨e', he', rfl⟩ := List.mem_map.1 hq
      exact hmin e' he'
    · rintro q hq
      obtain ⟨e', he', rfl⟩ := List.mem_map.1 hq
      exact ⟨(hin e' he').1, (hin e' he').2.trans hij⟩
    · rintro q hq hpos
      obtain ⟨e', he', rfl⟩ := List.mem_map.1 hq
      obtain ⟨v, hv⟩ := hc e' he'
      have hfe := (hev e' he').2
      simp only [lcrScore, hv] at hfe
      unfold lcrCriterion at hv
      rw [Res.bind_eq_ok'] at hv
      obtain ⟨W', hW', hv⟩ := hv
      obtain ⟨B, hB, hsc⟩ := C73_score sv cfg x y W' hv
      refine ⟨B, fun i => ?_, by rw [← hsc]; exact hfe⟩
      have := lcrBeta_ridge hsv hl ht (hB i)
      rwa [cvWeight_fixed W' i ((weights_fixed hpos).1 hW' i).2.2] at this
  · rw [if_neg hc] at hs; cases hs

/-- **C103 (prediction).** A successful prediction returns at every requested location the local ridge estimate for the kernel weights of the
distances from that location to the observations. -/
theorem C103_prediction_is_local_ridge (sv : Matrix (Fin n) (Fin k) ℝ → ℝ × ℝ) (hsv : ExactSV sv) (cfg : LcrCfg) (hl : 0 ≤ cfg.lambda)
    (ht : 1 < cfg.thresh) (p : Option (DynMat × DynMat)) (kernel : KernelType) (bw : ℝ) (hb : 0 < bw) (locations coords : DynMat)
    (x : Matrix (Fin n) (Fin k) ℝ) (y : Fin n → ℝ) (B : Matrix (Fin m) (Fin k) ℝ) (t : Bool)
    (h : lcrPredictRun sv cfg ⟨false, p⟩ ⟨bw, false, kernel⟩ locations coords m x y = .ok (B, t)) (i : Fin m) :
    IsLocalRidge cfg.lambda cfg.adjust cfg.thresh x y
      (fun l => kernelFormula kernel bw (plane (locations.val i) (coords.val l))) (B i) := by
  unfold lcrPredictRun at h
  rw [Res.bind_eq_ok'] at h
  obtain ⟨d', hd, h⟩ := h
  rw [Res.bind_eq_ok'] at h
  obtain ⟨W, hW, h⟩ := h
  obtain ⟨-, -, rfl⟩ := bindLocations_eq_ok.1 hd
  have ht' : t = false := serialFor_nostop _ _ _ h
  subst ht'
  have := lcrBeta_ridge hsv hl ht (C73_predict_rows sv cfg x y W h i)
  rwa [((weights_fixed hb).1 hW i).2.2] at this

theorem kernel_at_zero (kernel : KernelType) {bw : ℝ} (hb : 0 < bw) (p : ℕ → ℝ) : kernelFormula kernel bw (plane p p) = 1 := by
  have : plane p p = 0 := by simp [plane]
  rw [this]
  cases kernel <;> simp [kernelFormula, hb]

theorem fdiv_ok {a b v : ℝ} (h : fdiv a b = .ok v) : v = a / b := by
  unfold fdiv at h
  by_cases hb : b = 0
  · rw [if_pos hb] at h; cases h
  · rw [if_neg hb] at h; exact (Res.ok.inj h).symm

theorem lcrLog {a b v : ℝ} (h : ((fdiv a b).bind fun s2 => flog (2 * Real.pi * s2)) = .ok v) : v = Real.log (2 * Real.pi * (a / b)) := by
  obtain ⟨q, hq, h1⟩ := Res.bind_eq_ok'.1 h
  rw [fdiv_ok hq] at h1
  unfold flog at h1
  by_cases hb : 2 * Real.pi * (a / b) ≤ 0
  · rw [if_pos hb] at h1; cases h1
  · rw [if_neg hb] at h1; exact (Res.ok.inj h1).symm

/-- **C103 (diagnostics).** The diagnostics of a successful fit: RSS of the reported coefficients, effective parameters from the two traces of the
hat matrix of the *unpenalised* weighted least squares fits (not of the ridge fits), and AIC, AICc, R² and adjusted R² by these formulas. -/
theorem C103_diagnostics (sv : Matrix (Fin n) (Fin k) ℝ → ℝ × ℝ) (cfg : LcrCfg) (p : Option (DynMat × DynMat))
    (kernel : KernelType) (bw : ℝ) (hb : 0 < bw) (coords : DynMat) (x : Matrix (Fin n) (Fin k) ℝ) (y : Fin n → ℝ) (r : LcrResult n k)
    (h : lcrRun sv cfg ⟨false, p⟩ ⟨bw, false, kernel⟩ coords x y = .ok r) :
    let S := fun i l : Fin n => hatEntry x (fun l => kernelFormula kernel bw (plane (coords.val i) (coords.val l))) i l
    ∃ d, r.diagnostic = some d ∧ d.RSS = residualSS x y r.betas ∧ d.ENP = 2 * ∑ i, S i i - ∑ i, ∑ l, S i l ^ 2 ∧ d.EDF = n - d.ENP ∧
      (∀ v, d.AIC = .ok v → v = n * (Real.log (2 * Real.pi * (d.RSS / d.EDF)) + 1) + 2 * (d.ENP + 1)) ∧
      (∀ v, d.AICc = .ok v → v = n * Real.log (2 * Real.pi * (d.RSS / d.EDF)) + n * ((1 + d.ENP / n) / (1 - (d.ENP + 2) / n))) ∧
      (∀ v, d.RSquare = .ok v → v = 1 - d.RSS / ∑ i, (y i - (∑ i, y i) / n) ^ 2) ∧
      (∀ v, d.RSquareAdjust = .ok v → v = 1 - d.RSS / (∑ i, (y i - (∑ i, y i) / n) ^ 2) * (n - 1) / d.EDF) := by
  intro S
  unfold lcrRun at h
  rw [Res.bind_eq_ok'] at h
  obtain ⟨d', hd, h⟩ := h
  rw [Res.bind_eq_ok'] at h
  obtain ⟨W, hW, h⟩ := h
  obtain ⟨-, -, rfl⟩ := bindLocations_eq_ok.1 hd
  obtain ⟨-, H, hH, e⟩ := lcrFit_ok h
  have hS : ∀ i l, H i l = S i l := by
    intro i l
    have := (lcrHatRow_ok (hH i)).2 l
    rw [((weights_fixed hb).1 hW i).2.2] at this
    rw [this]
    beta_reduce
    rw [kernel_at_zero kernel hb, one_mul]
    rfl
  refine ⟨_, e, ?_, ?_, ?_, ?_, ?_, ?_, ?_⟩
  · simp only [lcrDiagnostic, rss, fitted, residualSS, sq, mul_comm]
  · simp [lcrDiagnostic, hS]
  · simp [lcrDiagnostic]
  · intro v hv
    obtain ⟨l, hl, hv⟩ := Res.bind_eq_ok'.1 hv
    rw [lcrLog hl] at hv
    rw [← Res.ok.inj hv]; rfl
  · intro v hv
    obtain ⟨l, hl, h1⟩ := Res.bind_eq_ok'.1 hv
    obtain ⟨q1, hq1, h2⟩ := Res.bind_eq_ok'.1 h1
    obtain ⟨q2, hq2, h3⟩ := Res.bind_eq_ok'.1 h2
    obtain ⟨q, hq, h4⟩ := Res.bind_eq_ok'.1 h3
    rw [← Res.ok.inj h4, lcrLog hl, fdiv_ok hq, fdiv_ok hq1, fdiv_ok hq2]; rfl
  · intro v hv
    obtain ⟨q, hq, h1⟩ := Res.bind_eq_ok'.1 hv
    rw [← Res.ok.inj h1, fdiv_ok hq]
    simp only [lcrDiagnostic, meanVec, sq]
  · intro v hv
    obtain ⟨q, hq, h1⟩ := Res.bind_eq_ok'.1 hv
    obtain ⟨q', hq', h2⟩ := Res.bind_eq_ok'.1 hq
    obtain ⟨q3, hq3, h3⟩ := Res.bind_eq_ok'.1 h1
    rw [← Res.ok.inj h3, fdiv_ok hq3, ← Res.ok.inj h2, fdiv_ok hq']
    simp only [lcrDiagnostic, meanVec, sq, sub_sub_cancel]

/-- A run to which C103 applies: three points on a line, ridge parameter 1. -/
example : ∃ sv : Matrix (Fin 3) (Fin 2) ℝ → ℝ × ℝ, ExactSV sv ∧
    ∃ r, lcrRun sv ⟨1, false, 30⟩ ⟨false, none⟩ ⟨1, false, .Gaussian⟩ (lineCoords 2) exX (fun l => (l.val : ℝ) ^ 2) = .ok r ∧
      ∀ i : Fin 3, IsLocalRidge 1 false 30 exX (fun l => (l.val : ℝ) ^ 2)
        (fun l => kernelFormula .Gaussian 1 (plane ((lineCoords 2).val i) ((lineCoords 2).val l))) (r.betas i) := by
  obtain ⟨sv, hsv⟩ := exactSV_exists (n := 3) (k := 2) two_pos
  refine ⟨sv, hsv, ?_⟩
  have hW : weightRows ⟨false, some (lineCoords 2, lineCoords 2)⟩ ⟨1, false, .Gaussian⟩ 3 3 =
      .ok (fun i l : Fin 3 => kernelFormula .Gaussian 1 (plane ((lineCoords 2).val i) ((lineCoords 2).val l))) :=
    (weights_fixed one_pos).2 fun i => ⟨i.isLt, rfl, rfl⟩
  obtain ⟨q, hq⟩ := ex_lcr_pos sv 1 one_pos
    (fun i l : Fin 3 => kernelFormula .Gaussian 1 (plane ((lineCoords 2).val i) ((lineCoords 2).val l)))
    (fun i l => Real.exp_pos _)
  obtain ⟨r, hr⟩ : ∃ r, lcrRun sv ⟨1, false, 30⟩ ⟨false, none⟩ ⟨1, false, .Gaussian⟩ (lineCoords 2) exX (fun l => (l.val : ℝ) ^ 2) = .ok r := by
    unfold lcrRun
    rw [bindLocations_eq_ok.2 ⟨rfl, rfl, rfl⟩, Res.bind]
    simp only
    rw [hW]
    simp only [Res.bind, lcrFit]
    rw [show (fun _ : ℕ => false) = NoStop from rfl, hq]
    exact ⟨_, rfl⟩
  exact ⟨r, hr, C103_fit_is_local_ridge sv hsv ⟨1, false, 30⟩ zero_le_one (by norm_num) none .Gaussian 1 one_pos _ _ _ r hr⟩

end Verif.Props

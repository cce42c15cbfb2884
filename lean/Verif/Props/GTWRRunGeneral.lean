import Verif.Props.GTWRRun
import Verif.Props.RobustRunGeneral

/-! # C104 for every kind of bandwidth, geographic coordinates, any mode -/

namespace Verif.Props
open Verif Verif.Model Verif.Spec Matrix Classical

variable {n k m : ℕ}

/-- A space-time distance made from a distance on the map, planar or geographic, and one in time. -/
structure STConfig (geo : Bool) (d : CRSSTDistance) : Prop where
  spatial : ∃ s, d.mSpatial = some s ∧ s.mGeographic = geo
  temporal : ∃ t, d.mTemporal = some t

theorem stConfig_lambda {geo : Bool} {d : CRSSTDistance} (h : STConfig geo d) (l : ℝ) : STConfig geo { d with mLambda := l } :=
  ⟨h.spatial, h.temporal⟩

/-- The distances of a space-time setting. -/
theorem st_distance_any {geo : Bool} {d : CRSSTDistance} (hd : STConfig geo d) {coords : DynMat} (hc : FitsData coords n) {τ : Fin n → ℝ}
    {dist : Fin n → Fin n → ℝ} (h : IsSpaceTimeDistance geo coords τ d.mLambda (stFactor d) dist) :
    ∃ d', gtwrBind d coords (List.ofFn τ) = .ok d' ∧ ∀ i : Fin n, d'.distance i = .ok (List.ofFn (dist i)) := by
  obtain ⟨⟨s, hs, hg⟩, ⟨t, ht⟩⟩ := hd
  obtain ⟨h2, hn⟩ := hc
  obtain ⟨sd, hm, hdist⟩ := h
  rw [mapDistance_calc] at hm
  refine ⟨_, gtwrBind_eq hs ht h2 (by rw [hn, List.length_ofFn]), fun i => ?_⟩
  have hrow : crsDistRow geo coords coords i = .ok (List.ofFn fun j : Fin n => sd i j) := by
    unfold crsDistRow
    rw [mapRes_eq_ok, List.forall₂_iff_get]
    refine ⟨by simp [hn], fun j h1 h2 => ?_⟩
    have hj : j < n := by simpa using h2
    simpa using hm i ⟨j, hj⟩
  have he : (10 : ℝ) ^ (-16 : ℤ) = 1e-16 := by norm_num
  by_cases h1 : |d.mLambda - 1| < 1e-16
  · simp only [CRSSTDistance.distance, stDistance, CRSDistance.distance, hg, hn, i.isLt, if_true, hrow, Res.bind, if_pos h1,
      OneDimDistance.distance, dif_pos, List.length_ofFn, List.length_map, ne_eq, not_true_eq_false, if_false]
    congr 1
    apply List.ext_getElem
    · simp
    · intro j h3 h4
      have hj : j < n := by simpa using h4
      simp only [List.getElem_zipWith, List.getElem_ofFn, List.getElem_map, stCombine, hdist, he, not_le.2 h1, and_false, if_false,
        stFactor, abs_sub_comm (τ i)]
      rw [if_neg (not_lt.2 (abs_nonneg _))]
      rfl
  · simp only [CRSSTDistance.distance, stDistance, CRSDistance.distance, hg, hn, i.isLt, if_true, hrow, Res.bind, if_neg h1,
      OneDimDistance.noAbsdistance, dif_pos, List.length_ofFn, List.length_map, ne_eq, not_true_eq_false, if_false]
    congr 1
    apply List.ext_getElem
    · simp
    · intro j h3 h4
      have hj : j < n := by simpa using h4
      simp only [List.getElem_zipWith, List.getElem_ofFn, List.getElem_map, stCombine, hdist, he, not_lt.1 h1, and_true, futureSentinel, sub_neg,
        stFactor]
      by_cases hlt : τ i < τ ⟨j, hj⟩
      · rw [if_pos hlt, if_pos hlt]; norm_num
      · rw [if_neg hlt, if_neg hlt, abs_of_nonneg (by linarith)]
        rfl

/-- The weights of a space-time setting are the kernel weights of the space-time distances. -/
theorem stRows {geo : Bool} {d d' : CRSSTDistance} (hd : STConfig geo d) {coords : DynMat} (hc : FitsData coords n) {τ : Fin n → ℝ}
    {dist : Fin n → Fin n → ℝ} (h : IsSpaceTimeDistance geo coords τ d.mLambda (stFactor d) dist)
    (hd' : gtwrBind d coords (List.ofFn τ) = .ok d') {b : BandwidthWeight} (hb : UsableRadius b dist) :
    ∃ W, stWeightRows d' b n n = .ok W ∧ IsKernelWeight b dist W ∧ ∀ i l, 0 ≤ W i l := by
  obtain ⟨d1, h1, h2⟩ := st_distance_any hd hc h
  cases Res.ok.inj (hd'.symm.trans h1)
  choose r hr using fun i => radius_exists (b := b) (v := dist i) (Fin.pos i) fun ha => (hb.1 ha).1
  refine ⟨fun i l => kernelFormula b.mKernel (r i) (dist i l), Res.tabulate_eq_ok.2 fun i => ?_,
    fun i => ⟨r i, hr i, fun l => rfl⟩, fun i l => kernelFormula_nonneg _ (hb.2 i _ (hr i)) _⟩
  unfold stWeightVector
  rw [h2, Res.bind, rowToVec_ofFn, Res.bind]
  exact weight_of_radius (fun ha => (hb.1 ha).2) (hr i) (hb.2 i _ (hr i))

theorem gtwrFinish_report {x : Matrix (Fin n) (Fin k) ℝ} {y : Fin n → ℝ} {W : Fin n → Fin n → ℝ} (hW : ∀ i l, 0 ≤ W i l) {sS : Bool}
    {ex : Exec n} (hex : ex.Valid) {d' : CRSSTDistance} {b : BandwidthWeight} (hw : stWeightRows d' b n n = .ok W) :
    ((∀ i, Determined x (W i)) → ∃ g C, gtwrFinish ex d' b x y sS = .ok g ∧ g.weight = b ∧ IsGWRReport x y W sS false g C) ∧
    ((∃ i, ¬ Determined x (W i)) → gtwrFinish ex d' b x y sS = .throw (loopError ex)) := by
  obtain ⟨c1, c2⟩ := core_report (y := y) hW sS false hex b
  have he : summaryEscape ex (stWeightRows d' b n n) = .ok W := by rw [hw]; cases ex <;> rfl
  refine ⟨fun h => ?_, fun h => ?_⟩
  · obtain ⟨a, C, ha, hC⟩ := c1 h
    exact ⟨_, C, by unfold gtwrFinish; rw [he, Res.bind, ha, Res.bind], rfl, hC⟩
  · unfold gtwrFinish
    rw [he, Res.bind, c2 h]; rfl

/-- **C104 (fit, every kind of bandwidth).** For planar or geographic coordinates, every kernel, every bandwidth (fixed, or adaptive with an integer or
fractional number of neighbours) and every λ, serially or in any schedule of any number of threads: a fit without automatic choices succeeds exactly if at
every observation the observations of positive weight determine the coefficients; otherwise it throws. If it succeeds, it reports the λ that was set, and
the coefficients are those of the regressions weighted by the kernel of the space-time distances; the diagnostics, standard errors and hat matrix are the
textbook ones of these regressions. -/
theorem C104_any_fit (ex : Exec n) (hex : ex.Valid) (geo : Bool) (d : CRSSTDistance) (hd : STConfig geo d) (b : BandwidthWeight) (coords : DynMat)
    (hc : FitsData coords n) (τ : Fin n → ℝ) (dist w : Fin n → Fin n → ℝ)
    (h : IsSpaceTimeDistance geo coords τ d.mLambda (stFactor d) dist) (hb : UsableRadius b dist) (hw : IsKernelWeight b dist w)
    (x : Matrix (Fin n) (Fin k) ℝ) (y : Fin n → ℝ) (sS : Bool) :
    ((∀ i, Determined x (w i)) → ∃ g C, gtwrRunEx none false ex d b coords (List.ofFn τ) x y sS = .ok (d.mLambda, g) ∧ g.weight = b ∧
      IsGWRReport x y w sS false g C) ∧
    ((∃ i, ¬ Determined x (w i)) → ∃ e, gtwrRunEx none false ex d b coords (List.ofFn τ) x y sS = .throw e) := by
  obtain ⟨d', hd', -⟩ := st_distance_any hd hc h
  obtain ⟨W, h1, h2, h3⟩ := stRows hd hc h hd' hb
  obtain rfl := kernelWeight_unique h2 hw
  obtain ⟨c1, c2⟩ := gtwrFinish_report (x := x) (y := y) (sS := sS) h3 hex h1
  have e : gtwrRunEx none false ex d b coords (List.ofFn τ) x y sS = (gtwrFinish ex d' b x y sS).bind fun g => .ok (d.mLambda, g) := by
    unfold gtwrRunEx gtwrFinishLambda gtwrLambda
    simp only [hd', Res.bind, Bool.false_eq_true, if_false]
  rw [e]
  refine ⟨fun hdet => ?_, fun hdet => ⟨_, by rw [c2 hdet]; rfl⟩⟩
  obtain ⟨g, C, hg, hgw, hC⟩ := c1 hdet
  exact ⟨g, C, by rw [hg]; rfl, hgw, hC⟩

/-- What a completed run says: the kernel and the kind of the bandwidth are the configured ones; a bandwidth that is not selected is the configured one; a
selected one has the smallest score of those tried, the scores being computed with the λ set before the run; a λ that is not selected is the configured
one, a selected one lies in [0,1]; and everything reported belongs to the regressions with the reported bandwidth and λ. -/
structure IsGTWRRun (crit : Option Crit) (autoLambda : Bool) (geo : Bool) (l0 c : ℝ) (b0 : BandwidthWeight) (coords : DynMat) (τ : Fin n → ℝ)
    (x : Matrix (Fin n) (Fin k) ℝ) (y : Fin n → ℝ) (sS : Bool) (l : ℝ) (g : GWRReport n k) : Prop where
  kernel : g.weight.mKernel = b0.mKernel
  kind : g.weight.mAdaptive = b0.mAdaptive
  bandwidth : crit = none → g.weight.mBandwidth = b0.mBandwidth
  search : ∀ cr, crit = some cr → ∀ dist, IsSpaceTimeDistance geo coords τ l0 c dist →
    ∃ tried, IsBandwidthSearch cr b0 dist x y g.weight.mBandwidth tried
  lambda : if autoLambda = true then 0 ≤ l ∧ l ≤ 1 else l = l0
  fit : ∀ dist, IsSpaceTimeDistance geo coords τ l c dist → UsableRadius g.weight dist → ∀ w, IsKernelWeight g.weight dist w →
    ∃ C, IsGWRReport x y w sS false g C

theorem st_search {geo : Bool} {d d' : CRSSTDistance} (hd : STConfig geo d) {coords : DynMat} (hc : FitsData coords n) {τ : Fin n → ℝ}
    {dist : Fin n → Fin n → ℝ} (h : IsSpaceTimeDistance geo coords τ d.mLambda (stFactor d) dist)
    (hd' : gtwrBind d coords (List.ofFn τ) = .ok d') {c : Crit} {b0 b : BandwidthWeight} {x : Matrix (Fin n) (Fin k) ℝ} {y : Fin n → ℝ}
    {r : SearchResult} (hr : gtwrSelectBandwidth c d' b0 x y = .ok r) (ho : r.out = .ok b) :
    ∃ tried, IsBandwidthSearch c b0 dist x y b.mBandwidth tried := by
  unfold gtwrSelectBandwidth at hr
  obtain ⟨lu, -, hr⟩ := Res.bind_eq_ok'.1 hr
  simp only at hr
  split at hr
  swap
  · cases hr
  cases Res.ok.inj hr
  refine ⟨(optimize b0 lu.1 lu.2 (fun _ b => (true, gtwrScore c d' x y b)) []).evals.map fun e => (e.x, e.f), ?_, ?_, ?_⟩
  · rw [List.length_map]; exact (C16_call_bound _ _ _ _ _).1
  · have hev := optimize_evals b0 lu.1 lu.2 (gtwrScore c d' x y) []
    obtain ⟨e, he, hx, hmin⟩ := C14_returns_best_evaluated _ _ _ _ _ _ ho fun e he => (hev e he).1
    refine ⟨e.f, List.mem_map.2 ⟨e, he, by rw [hx]⟩, fun q hq => ?_⟩
    obtain ⟨e', he', rfl⟩ := List.mem_map.1 hq
    exact hmin e' he'
  · intro q hq hu w hw
    obtain ⟨e, he, rfl⟩ := List.mem_map.1 hq
    have hf := (optimize_evals b0 lu.1 lu.2 (gtwrScore c d' x y) [] e he).2
    obtain ⟨W, h1, h2, h3⟩ := stRows hd hc h hd' hu
    obtain rfl := kernelWeight_unique h2 hw
    have hs : gtwrScore c d' x y { b0 with mBandwidth := e.x } = serialCriterion c x y W := by
      unfold gtwrScore gtwrCriterion serialCriterion
      rw [h1]
      cases c <;> rfl
    obtain ⟨c1, c2⟩ := serial_criterion c (x := x) (y := y) h3
    show (∀ v, _ → _ → e.f = v) ∧ (_ → e.f = dblMax)
    rw [hf, hs]
    exact ⟨fun v hv hle => by rw [c1 v hv, if_pos hle], c2⟩

theorem gtwrLambda_range {d : CRSSTDistance} {b : BandwidthWeight} {coords : DynMat} {times : List ℝ} {x : Matrix (Fin n) (Fin k) ℝ} {y : Fin n → ℝ}
    {l : ℝ} (h : gtwrLambda true d b coords times x y = .ok l) : 0 ≤ l ∧ l ≤ 1 := by
  unfold gtwrLambda at h
  rw [if_pos rfl] at h
  obtain ⟨⟨l', s⟩, hs, h⟩ := Res.bind_eq_ok'.1 h
  cases Res.ok.inj h
  exact (C44_lambda_in_range _ _ _ hs).1

/-- The parts of a completed run. -/
theorem gtwrRunEx_ok {crit : Option Crit} {autoLambda : Bool} {ex : Exec n} {d : CRSSTDistance} {b0 : BandwidthWeight} {coords : DynMat}
    {times : List ℝ} {x : Matrix (Fin n) (Fin k) ℝ} {y : Fin n → ℝ} {sS : Bool} {l : ℝ} {g : GWRReport n k}
    (h : gtwrRunEx crit autoLambda ex d b0 coords times x y sS = .ok (l, g)) :
    ∃ d' d2 b, gtwrBind d coords times = .ok d' ∧
      (match crit with
        | none => Res.ok b0
        | some c => (gtwrSelectBandwidth c d' b0 x y).bind fun r => r.out) = .ok b ∧
      gtwrLambda autoLambda d b coords times x y = .ok l ∧ (autoLambda = true → 0 ≤ l ∧ l ≤ 1) ∧ (autoLambda = false → l = d.mLambda) ∧
      gtwrBind { d with mLambda := l } coords times = .ok d2 ∧ gtwrFinish ex d2 b x y sS = .ok g ∧ g.weight = b := by
  unfold gtwrRunEx at h
  obtain ⟨d', hd', h⟩ := Res.bind_eq_ok'.1 h
  obtain ⟨b, hb, h⟩ := Res.bind_eq_ok'.1 h
  unfold gtwrFinishLambda at h
  obtain ⟨l', hl, h⟩ := Res.bind_eq_ok'.1 h
  have key : ∀ d1, ((gtwrBind d1 coords times).bind fun d2 => (gtwrFinish ex d2 b x y sS).bind fun g => .ok (l', g)) = .ok (l, g) →
      l' = l ∧ ∃ d2, gtwrBind d1 coords times = .ok d2 ∧ gtwrFinish ex d2 b x y sS = .ok g ∧ g.weight = b := by
    intro d1 h
    obtain ⟨d2, hd2, h⟩ := Res.bind_eq_ok'.1 h
    obtain ⟨g', hg, h⟩ := Res.bind_eq_ok'.1 h
    obtain ⟨rfl, rfl⟩ := Prod.mk.inj (Res.ok.inj h)
    refine ⟨rfl, d2, hd2, hg, ?_⟩
    unfold gtwrFinish at hg
    obtain ⟨W, -, hg⟩ := Res.bind_eq_ok'.1 hg
    obtain ⟨a, -, hg⟩ := Res.bind_eq_ok'.1 hg
    cases Res.ok.inj hg; rfl
  cases autoLambda with
  | true =>
    have hr := gtwrLambda_range hl
    simp only [if_true, (C12_setLambda d l').1 hr] at h
    obtain ⟨rfl, d2, h1, h2, h3⟩ := key _ h
    exact ⟨d', d2, b, hd', hb, hl, fun _ => hr, fun h => (by cases h), h1, h2, h3⟩
  | false =>
    simp only [Bool.false_eq_true, if_false] at h
    obtain ⟨rfl, d2, h1, h2, h3⟩ := key _ h
    have e : d.mLambda = l' := by
      unfold gtwrLambda at hl
      rw [if_neg (by simp)] at hl
      exact Res.ok.inj hl
    subst e
    exact ⟨d', d2, b, hd', hb, hl, fun h => (by cases h), fun _ => rfl, h1, h2, h3⟩

/-- **C104 (run, every kind of bandwidth).** A completed run of space-time regression in any mode, with planar or geographic coordinates and any choice of
automatic selections, says what `IsGTWRRun` lists. -/
theorem C104_any_run (crit : Option Crit) (autoLambda : Bool) (ex : Exec n) (hex : ex.Valid) (geo : Bool) (d : CRSSTDistance) (hd : STConfig geo d)
    (b0 : BandwidthWeight) (coords : DynMat) (hc : FitsData coords n) (τ : Fin n → ℝ) (x : Matrix (Fin n) (Fin k) ℝ) (y : Fin n → ℝ) (sS : Bool)
    (l : ℝ) (g : GWRReport n k) (h : gtwrRunEx crit autoLambda ex d b0 coords (List.ofFn τ) x y sS = .ok (l, g)) :
    IsGTWRRun crit autoLambda geo d.mLambda (stFactor d) b0 coords τ x y sS l g := by
  obtain ⟨d', d2, b, hd', hsel, hl, hl1, hl2, hd2, hg, rfl⟩ := gtwrRunEx_ok h
  have hkind : g.weight = { b0 with mBandwidth := g.weight.mBandwidth } ∧ (crit = none → g.weight = b0) := by
    cases crit with
    | none =>
      have := Res.ok.inj hsel
      rw [← this]
      exact ⟨rfl, fun _ => rfl⟩
    | some c =>
      obtain ⟨sr, hsr, hout⟩ := Res.bind_eq_ok'.1 hsel
      unfold gtwrSelectBandwidth at hsr
      obtain ⟨lu, -, hsr⟩ := Res.bind_eq_ok'.1 hsr
      simp only at hsr
      split at hsr
      · cases Res.ok.inj hsr
        exact ⟨optimize_kind _ _ _ _ _ hout, fun h => by cases h⟩
      · cases hsr
  refine ⟨by rw [hkind.1], by rw [hkind.1], fun h => by rw [hkind.2 h], fun cr hcr dist hdist => ?_, ?_, fun dist hdist hu w hw => ?_⟩
  · subst hcr
    obtain ⟨sr, hsr, hout⟩ := Res.bind_eq_ok'.1 hsel
    exact st_search hd hc hdist hd' hsr hout
  · cases autoLambda with
    | true => exact hl1 rfl
    | false => exact hl2 rfl
  · obtain ⟨W, h1, h2, h3⟩ := stRows (stConfig_lambda hd l) hc hdist hd2 hu
    obtain rfl := kernelWeight_unique h2 hw
    obtain ⟨c1, c2⟩ := gtwrFinish_report (x := x) (y := y) (sS := sS) h3 hex h1
    by_cases hdet : ∀ i, Determined x (W i)
    · obtain ⟨g2, C, e, -, hC⟩ := c1 hdet
      cases Res.ok.inj (hg.symm.trans e)
      exact ⟨C, hC⟩
    · push Not at hdet
      rw [c2 hdet] at hg; cases hg

/-- `f` is R² of the space-time regressions with the bandwidth `b`, as a function of λ in [0,1]. -/
def IsRSquareOfLambda (geo : Bool) (c : ℝ) (b : BandwidthWeight) (coords : DynMat) (τ : Fin n → ℝ) (x : Matrix (Fin n) (Fin k) ℝ) (y : Fin n → ℝ)
    (f : ℝ → ℝ) : Prop :=
  ∀ l, 0 ≤ l ∧ l ≤ 1 → ∃ (dist w : Fin n → Fin n → ℝ) (B : Matrix (Fin n) (Fin k) ℝ), IsSpaceTimeDistance geo coords τ l c dist ∧ UsableRadius b dist ∧
    IsKernelWeight b dist w ∧ (∀ i, IsWLS x y (w i) (B i)) ∧ f l = 1 - residualSS x y B / totalSS y

theorem rsquare_any {geo : Bool} {d : CRSSTDistance} (hd : STConfig geo d) {b : BandwidthWeight} {coords : DynMat} (hc : FitsData coords n)
    {τ : Fin n → ℝ} {x : Matrix (Fin n) (Fin k) ℝ} {y : Fin n → ℝ} (hy : totalSS y ≠ 0) {f : ℝ → ℝ}
    (hf : IsRSquareOfLambda geo (stFactor d) b coords τ x y f) (l : ℝ) (hl : 0 ≤ l ∧ l ≤ 1) :
    rsquareByLambda d b coords (List.ofFn τ) x y NoStop l = .ok (false, some (f l)) := by
  obtain ⟨dist, w, B, hdist, hu, hw, hB, hfl⟩ := hf l hl
  obtain ⟨d', hd', -⟩ := st_distance_any (stConfig_lambda hd l) hc hdist
  obtain ⟨W, h1, h2, h3⟩ := stRows (stConfig_lambda hd l) hc hdist hd' hu
  obtain rfl := kernelWeight_unique h2 hw
  have hr : ∀ i ∈ List.finRange n, localBeta x y (W i) = .ok (B i) := fun i _ => by
    obtain ⟨b, e, hb⟩ := wls_exists (h3 i) (wls_determined (h3 i) (hB i)) y
    rw [e, wls_unique hb (hB i)]
  have e : predictSerial x y W NoStop = _ := serialFor_ok (fun i => B i) _ 0 _ (fun _ _ => rfl) hr
  obtain ⟨P, hP⟩ : ∃ P, predictSerial x y W NoStop = .ok (P, false) := ⟨_, e⟩
  have hPB : P = B := by
    funext i
    exact wls_unique (C21_prediction_is_weighted_least_squares x y W NoStop P hP i) (hB i)
  subst hPB
  unfold rsquareByLambda
  rw [(C12_setLambda d l).1 hl]
  simp only [hd', Res.bind, h1, hP, Bool.false_eq_true, if_false, totalSS_eq, fdiv, hy, rss_residualSS, hfl]
  rfl

/-- **C104 (selected λ, every kind of bandwidth).** If λ is selected, the response is not constant and R² of the regressions with the reported bandwidth
has, as a function of λ in [0,1], a single peak `m`: the reported λ is within half of `0.618^j` of the peak, where `j` is the number of rounds of the
search: 100, or fewer if R² at the ends of a bracket around the peak agrees up to 1e-12. -/
theorem C104_any_lambda (crit : Option Crit) (ex : Exec n) (geo : Bool) (d : CRSSTDistance) (hd : STConfig geo d) (b0 : BandwidthWeight)
    (coords : DynMat) (hc : FitsData coords n) (τ : Fin n → ℝ) (x : Matrix (Fin n) (Fin k) ℝ) (y : Fin n → ℝ) (hy : totalSS y ≠ 0) (sS : Bool)
    (l : ℝ) (g : GWRReport n k) (h : gtwrRunEx crit true ex d b0 coords (List.ofFn τ) x y sS = .ok (l, g)) (f : ℝ → ℝ)
    (hf : IsRSquareOfLambda geo (stFactor d) g.weight coords τ x y f) (m : ℝ) (hm : UnimodalAt f m) :
    ∃ (j : ℕ) (lo hi : ℝ), j ≤ 100 ∧ lo ≤ m ∧ m ≤ hi ∧ |l - m| ≤ ((√5 - 1) / 2) ^ j / 2 ∧ (j = 100 ∨ |f lo - f hi| < 1e-12) := by
  obtain ⟨d', d2, b, hd', hsel, hl, -, -, -, hg, rfl⟩ := gtwrRunEx_ok h
  unfold gtwrLambda at hl
  rw [if_pos rfl] at hl
  obtain ⟨⟨l', s⟩, hs, hl⟩ := Res.bind_eq_ok'.1 hl
  cases Res.ok.inj hl
  rw [lambda_congr (R' := fun _ l => .ok (false, some (f l))) fun j l hl => rsquare_any hd hc hy hf l hl] at hs
  obtain ⟨h1, h2, h3, h4⟩ := C74_single_peak_partial f m hm l' s hs
  obtain ⟨-, -, h5, h6, -⟩ := C44_lambda_in_range _ _ _ hs
  exact ⟨s.evals.length - 4, s.a, s.b, by omega, h1, h2, h3, h4.imp (fun h => by omega) id⟩

/-! ## A run with both selections -/

/-- If R² does not depend on λ, the search stops at once. -/
theorem lambda_const (v : ℝ) : ∃ s, lambdaAutoSelection (fun _ _ => .ok (false, some v)) = .ok (1 / 2, s) := by
  refine ⟨⟨0, 1, (1 - lambdaRatio) * 1, lambdaRatio * 1, some v, some v, some v, some v, true, [0, 1, (1 - lambdaRatio) * 1, lambdaRatio * 1]⟩, ?_⟩
  unfold lambdaAutoSelection lambdaInit
  simp only [Res.bind]
  rw [show lambdaLoop (fun _ _ => Res.ok (false, some v)) 100 = lambdaLoop (fun _ _ => Res.ok (false, some v)) (99 + 1) from rfl, lambdaLoop, if_neg]
  · simp
  · rintro ⟨-, h⟩
    have h : |v - v| ≥ 1e-12 := h
    norm_num at h


/-- Distances of three points on a line, observed at times 0, 1, 2. -/
noncomputable def lineST (l : ℝ) (i j : Fin 3) : ℝ :=
  if (![0, 1, 2] : Fin 3 → ℝ) i < ![0, 1, 2] j ∧ 10 ^ (-16 : ℤ) ≤ |l - 1| then 10 ^ 13
  else l * (|(1 : ℝ)| * |((j : ℕ) : ℝ) - (i : ℕ)|) + (1 - l) * |(![0, 1, 2] : Fin 3 → ℝ) i - ![0, 1, 2] j| +
    2 * √(l * (1 - l) * (|(1 : ℝ)| * |((j : ℕ) : ℝ) - (i : ℕ)|) * |(![0, 1, 2] : Fin 3 → ℝ) i - ![0, 1, 2] j|) * 1

theorem lineST_spec (l : ℝ) : IsSpaceTimeDistance false (lineCoords 1) ![0, 1, 2] l 1 (lineST l) := ⟨_, line_mapDistance 1, fun _ _ => rfl⟩

theorem exST_config (l : ℝ) : STConfig false (exST l) := ⟨⟨_, rfl, rfl⟩, ⟨_, rfl⟩⟩

/-- Three points on a line observed at times 0, 1, 2, an exact linear response, the Gaussian kernel: the run that selects bandwidth and λ succeeds in
every mode, and R² as a function of λ is 1. -/
theorem ex_gtwrRun (ex : Exec 3) (hex : ex.Valid) (sS : Bool) :
    ∃ l g, gtwrRunEx (some .CV) true ex (exST (1 / 2)) ⟨1, false, .Gaussian⟩ (lineCoords 1) (List.ofFn ![0, 1, 2]) exX (exX *ᵥ ![2, 3]) sS = .ok (l, g) ∧
      IsRSquareOfLambda false 1 g.weight (lineCoords 1) ![0, 1, 2] exX (exX *ᵥ ![2, 3]) fun _ => 1 := by
  have hc : FitsData (lineCoords 1) 3 := ⟨rfl, rfl⟩
  have hR : ∀ bw : ℝ, 0 < bw → IsRSquareOfLambda false 1 ⟨bw, false, .Gaussian⟩ (lineCoords 1) ![0, 1, 2] exX (exX *ᵥ ![2, 3]) fun _ => 1 := by
    intro bw hbw l hl
    have hu := usable_fixed (m := 3) (n := 3) hbw .Gaussian (lineST l)
    obtain ⟨d', hd', -⟩ := st_distance_any (exST_config l) hc (lineST_spec l)
    obtain ⟨W, -, hW, h0⟩ := stRows (exST_config l) hc (lineST_spec l) hd' hu
    refine ⟨lineST l, W, fun _ => ![2, 3], lineST_spec l, hu, hW, fun i => ?_, ?_⟩
    · refine wls_exact (h0 i) (exX_determined _ fun l => ?_) _
      obtain ⟨r, -, e⟩ := hW i
      rw [e]; exact Real.exp_pos _
    · simp [residualSS, mulVec, dotProduct]
  obtain ⟨d', hd', -⟩ := st_distance_any (exST_config (1 / 2)) hc (lineST_spec (1 / 2))
  have hval : ∀ bw : ℝ, 0 < bw → gtwrCriterion .CV d' exX (exX *ᵥ ![2, 3]) ⟨bw, false, .Gaussian⟩ = .ok 0 := by
    intro bw hbw
    have hu := usable_fixed (m := 3) (n := 3) hbw .Gaussian (lineST (1 / 2))
    obtain ⟨W, h1, hW, h0⟩ := stRows (exST_config (1 / 2)) hc (lineST_spec (1 / 2)) hd' hu
    have h2 := (serial_criterion .CV (x := exX) (y := exX *ᵥ ![2, 3]) h0).1 0 (gauss_loo hW ![2, 3])
    rw [abs_zero, if_pos (by linarith [hundred_lt_dblMax])] at h2
    unfold gtwrCriterion
    rw [h1]
    exact congrArg Res.ok h2
  obtain ⟨d1, e1, hb⟩ := C78_search_range_is_sentinel (n := 3) (exST (1 / 2)) (lineCoords 1) (exST_data _ (Or.inr (by norm_num)) _ rfl rfl)
    (by show (1 / 2 : ℝ) ≠ 1; norm_num) ![0, 1, 2] 0 1 (by simp) (fun i j _ => by
      have e2 : (exST (1 / 2)).mLambda = 1 / 2 := rfl
      have e3 : stFactor (exST (1 / 2)) = 1 := rfl
      rw [e2, e3, line_dist]
      unfold stElem
      rw [if_neg (by norm_num)]
      split
      · exact le_rfl
      · rename_i hle
        have hi : ((i : ℕ) : ℝ) ≤ 2 := by exact_mod_cast Nat.lt_succ_iff.1 i.isLt
        have hj : ((j : ℕ) : ℝ) ≤ 2 := by exact_mod_cast Nat.lt_succ_iff.1 j.isLt
        have hi0 : (0 : ℝ) ≤ (i : ℕ) := Nat.cast_nonneg _
        have hj0 : (0 : ℝ) ≤ (j : ℕ) := Nat.cast_nonneg _
        have hτ : ∀ i : Fin 3, 0 ≤ (![0, 1, 2] : Fin 3 → ℝ) i ∧ (![0, 1, 2] : Fin 3 → ℝ) i ≤ 2 := fun i => by fin_cases i <;> simp
        have hA : |((j : ℕ) : ℝ) - (i : ℕ)| ≤ 2 := abs_le.2 ⟨by linarith, by linarith⟩
        have hA0 := abs_nonneg (((j : ℕ) : ℝ) - (i : ℕ))
        have ht := hτ i
        have ht' := hτ j
        have hq : √(1 / 2 * (1 - 1 / 2) * (|(1 : ℝ)| * |((j : ℕ) : ℝ) - (i : ℕ)|) * ((![0, 1, 2] : Fin 3 → ℝ) i - ![0, 1, 2] j)) ≤ 1 := by
          rw [abs_one]
          exact Real.sqrt_le_iff.2 ⟨by norm_num, by nlinarith⟩
        rw [abs_one] at hq ⊢
        linarith) ⟨1, false, .Gaussian⟩ rfl
  cases Res.ok.inj (hd'.symm.trans e1)
  obtain ⟨g1, g2⟩ := goldenR_bounds
  have p1 : (0 : ℝ) < 0 + goldenR * (10000000000000 - 0) := by nlinarith
  have p2 : (0 : ℝ) < 10000000000000 - goldenR * (10000000000000 - 0) := by nlinarith
  have hsc : ∀ bw : ℝ, 0 < bw → gtwrScore .CV d' exX (exX *ᵥ ![2, 3]) ⟨bw, false, .Gaussian⟩ = 0 := fun bw hbw => by
    unfold gtwrScore; rw [hval bw hbw]
  set o : Oracle := fun _ b => (true, gtwrScore .CV d' exX (exX *ᵥ ![2, 3]) b) with ho
  obtain ⟨b, hout⟩ : ∃ b, (optimize ⟨1, false, .Gaussian⟩ 0 10000000000000 o []).out = .ok b := by
    rcases optimize_cases ⟨1, false, .Gaussian⟩ 0 10000000000000 o [] with ⟨-, he⟩ | ⟨-, -, hf, -, he⟩ | ⟨-, -, -, -, -, he⟩ | ⟨-, -, -, -, he⟩
    · exact ⟨_, by rw [he]⟩
    · have : (goldenInit ⟨1, false, .Gaussian⟩ 0 10000000000000 o []).f1 = 0 := by
        have := hsc _ p1
        simpa [goldenInit, ho] using this
      rw [this] at hf
      linarith [hundred_lt_dblMax]
    · exact ⟨_, by rw [he]⟩
    · exact ⟨_, by rw [he]⟩
  have hgs := golden_stops ⟨1, false, .Gaussian⟩ 0 10000000000000 o rfl (fun hcon => by
      have h2 := hcon.2
      simp only [ho] at h2
      rw [hsc _ p2, hsc _ p1] at h2
      norm_num at h2) b (fun _ _ => rfl) hout
  have hbw : 0 < b.mBandwidth := by
    rcases hgs.2 with h | h <;> rw [h]
    · exact p1
    · exact p2
  have hbk : b = ⟨b.mBandwidth, false, .Gaussian⟩ := optimize_kind _ _ _ _ _ hout
  have hsel : gtwrSelectBandwidth .CV d' ⟨1, false, .Gaussian⟩ exX (exX *ᵥ ![2, 3]) = .ok (optimize ⟨1, false, .Gaussian⟩ 0 10000000000000 o []) := by
    unfold gtwrSelectBandwidth
    rw [hb]
    simp only [Res.bind]
    rw [if_pos]
    intro e he
    have : e.x ∈ (optimize ⟨1, false, .Gaussian⟩ 0 10000000000000 o []).evals.map Eval.x := List.mem_map.2 ⟨e, he, rfl⟩
    rw [hgs.1] at this
    simp only [List.mem_cons, List.not_mem_nil, or_false] at this
    rcases this with h | h <;> rw [h]
    · exact ⟨0, hval _ p1⟩
    · exact ⟨0, hval _ p2⟩
  have hy : totalSS (exX *ᵥ ![2, 3]) ≠ 0 := by
    have e : exX *ᵥ ![2, 3] = ![2, 5, 8] := by
      ext i; fin_cases i <;> simp [exX, mulVec, dotProduct, Fin.sum_univ_two] <;> norm_num
    rw [e]
    simp only [totalSS, Fin.sum_univ_three, cons_val_zero, cons_val_one, cons_val_two, head_cons, tail_cons]
    norm_num
  obtain ⟨s, hlam⟩ : ∃ s, lambdaAutoSelection (fun _ l => rsquareByLambda (exST (1 / 2)) b (lineCoords 1) (List.ofFn ![0, 1, 2]) exX (exX *ᵥ ![2, 3])
      NoStop l) = .ok (1 / 2, s) := by
    rw [lambda_congr (R' := fun _ _ => .ok (false, some 1)) fun j l hl =>
      rsquare_any (exST_config (1 / 2)) hc hy (f := fun _ => 1) (by rw [hbk]; exact hR _ hbw) l hl]
    exact lambda_const 1
  have hu := usable_fixed (m := 3) (n := 3) hbw .Gaussian (lineST (1 / 2))
  obtain ⟨W, h1, hW, h0⟩ := stRows (exST_config (1 / 2)) hc (lineST_spec (1 / 2)) hd' hu
  rw [← hbk] at h1
  have hdet : ∀ i, Determined exX (W i) := fun i => exX_determined _ fun l => by
    obtain ⟨r, -, e⟩ := hW i
    rw [e]; exact Real.exp_pos _
  obtain ⟨g, -, hg, hgw, -⟩ := (gtwrFinish_report (x := exX) (y := exX *ᵥ ![2, 3]) (sS := sS) (ex := ex) h0 hex h1).1 hdet
  refine ⟨1 / 2, g, ?_, by rw [hgw, hbk]; exact hR _ hbw⟩
  have hset : (exST (1 / 2)).setLambda (1 / 2) = (exST (1 / 2), .ok ()) := (C12_setLambda (exST (1 / 2)) (1 / 2)).1 (by norm_num)
  have hl : gtwrLambda true (exST (1 / 2)) b (lineCoords 1) (List.ofFn ![0, 1, 2]) exX (exX *ᵥ ![2, 3]) = .ok (1 / 2) := by
    unfold gtwrLambda
    rw [if_pos rfl]
    exact Res.bind_eq_ok'.2 ⟨_, hlam, rfl⟩
  unfold gtwrRunEx gtwrFinishLambda
  simp only [hd', Res.bind, hsel, hout, hl, if_true, hset, hg]

/-! ## A run whose R² has a single peak -/

/-- The search ends if R² can be computed for every λ. -/
theorem lambda_total {R : ℕ → ℝ → Res (Bool × Option ℝ)} (h : ∀ j l, ∃ r, R j l = .ok r) : ∃ r, lambdaAutoSelection R = .ok r := by
  have hstep : ∀ s, ∃ s', lambdaStep R s = .ok s' := by
    intro s
    unfold lambdaStep
    split
    · obtain ⟨r, hr⟩ := h s.evals.length (s.a + (1 - lambdaRatio) * (s.q - s.a))
      simp only [hr, Res.bind]
      exact ⟨_, rfl⟩
    · obtain ⟨r, hr⟩ := h s.evals.length (s.p + lambdaRatio * (s.b - s.p))
      simp only [hr, Res.bind]
      exact ⟨_, rfl⟩
  have hloop : ∀ fuel s, ∃ s', lambdaLoop R fuel s = .ok s' := by
    intro fuel
    induction fuel with
    | zero => exact fun s => ⟨s, rfl⟩
    | succ fuel ih =>
      intro s
      rw [lambdaLoop]
      split
      · obtain ⟨s', hs'⟩ := hstep s
        rw [hs', Res.bind]
        exact ih s'
      · exact ⟨s, rfl⟩
  obtain ⟨ra, ha⟩ := h 0 0
  obtain ⟨rb, hb⟩ := h 1 1
  obtain ⟨rp, hp⟩ := h 2 ((1 - lambdaRatio) * 1)
  obtain ⟨rq, hq⟩ := h 3 (lambdaRatio * 1)
  unfold lambdaAutoSelection lambdaInit
  simp only [ha, hb, hp, hq, Res.bind]
  obtain ⟨s', hs'⟩ := hloop 100 ⟨0, 1, (1 - lambdaRatio) * 1, lambdaRatio * 1, ra.2, rb.2, rp.2, rq.2, !ra.1 && !rb.1 && !rp.1 && !rq.1,
    [0, 1, (1 - lambdaRatio) * 1, lambdaRatio * 1]⟩
  rw [hs']
  exact ⟨_, rfl⟩

/-- Two points at distance 1. -/
def unitPair : DynMat := ⟨2, 2, fun i c => if c = 0 then i else 0⟩

theorem unitPair_distance : IsMapDistance (m := 2) (n := 2) false unitPair unitPair fun i j => |((i : ℕ) : ℝ) - (j : ℕ)| := by
  unfold IsMapDistance
  rw [if_neg (by simp)]
  intro i j
  simp [plane, unitPair, Real.sqrt_sq_eq_abs, abs_sub_comm]

/-- R² of two observations at distance 1 and the same time, as a function of λ. -/
noncomputable def pairR2 (l : ℝ) : ℝ := 1 - 4 * (Real.exp (-(l ^ 2) / 2) / (1 + Real.exp (-(l ^ 2) / 2))) ^ 2

theorem pairR2_peak : UnimodalAt pairR2 1 := by
  refine ⟨by norm_num, le_rfl, fun a ha b hb hab => ?_, fun a ha b hb hab => by linarith [ha.1, hb.2]⟩
  unfold pairR2
  have h1 : Real.exp (-(b ^ 2) / 2) < Real.exp (-(a ^ 2) / 2) := Real.exp_lt_exp.2 (by nlinarith [ha.1])
  have h2 := Real.exp_pos (-(b ^ 2) / 2)
  have h3 : Real.exp (-(b ^ 2) / 2) / (1 + Real.exp (-(b ^ 2) / 2)) < Real.exp (-(a ^ 2) / 2) / (1 + Real.exp (-(a ^ 2) / 2)) := by
    rw [div_lt_div_iff₀ (by linarith) (by linarith)]
    nlinarith
  have h4 : 0 < Real.exp (-(b ^ 2) / 2) / (1 + Real.exp (-(b ^ 2) / 2)) := by positivity
  nlinarith

theorem pair_st (l : ℝ) : IsSpaceTimeDistance (n := 2) false unitPair (fun _ => 0) l 1 fun i j => l * |((i : ℕ) : ℝ) - (j : ℕ)| :=
  ⟨_, unitPair_distance, fun i j => by simp⟩

theorem unitPair_rsquare : IsRSquareOfLambda false 1 ⟨1, false, .Gaussian⟩ unitPair (fun _ => 0) (ones 2) ![0, 1] pairR2 := by
  intro l _
  set w : Fin 2 → Fin 2 → ℝ := fun i j => kernelFormula .Gaussian 1 (l * |((i : ℕ) : ℝ) - (j : ℕ)|) with hw
  have hpos : ∀ i j, 0 < w i j := fun i j => Real.exp_pos _
  refine ⟨_, w, fun i _ => (∑ j, w i j * ![0, 1] j) / ∑ j, w i j, pair_st l, usable_fixed (m := 2) (n := 2) one_pos .Gaussian _,
    fun i => ⟨1, by simp [IsRadius], fun _ => rfl⟩, fun i => ?_, ?_⟩
  · obtain ⟨b, hb, hb'⟩ := wls_exists (fun j => (hpos i j).le) (ones_det (fun j => (hpos i j).le) ⟨0, hpos i 0⟩) ![0, 1]
    rw [ones_beta (fun j => (hpos i j).le) ⟨0, hpos i 0⟩] at hb
    rw [← Res.ok.inj hb] at hb'
    exact hb'
  · have e0 : w 0 0 = 1 ∧ w 1 1 = 1 ∧ w 0 1 = Real.exp (-(l ^ 2) / 2) ∧ w 1 0 = Real.exp (-(l ^ 2) / 2) := by
      simp only [hw, kernelFormula]
      refine ⟨?_, ?_, ?_, ?_⟩ <;> simp
    obtain ⟨a, b, c, d⟩ := e0
    have hp := Real.exp_pos (-(l ^ 2) / 2)
    simp only [pairR2, residualSS, totalSS, ones, Fin.sum_univ_two, Fin.sum_univ_one, a, b, c, d, cons_val_zero, cons_val_one]
    set u := Real.exp (-(l ^ 2) / 2)
    have : (1 : ℝ) + u ≠ 0 := by linarith
    have : u + (1 : ℝ) ≠ 0 := by linarith
    push_cast
    field_simp
    ring

/-- Two observations at distance 1 and the same time, an intercept, the Gaussian kernel: R² increases with λ, and the run that selects λ succeeds. -/
theorem ex_lambdaRun : UnimodalAt pairR2 1 ∧ totalSS ![0, 1] ≠ 0 ∧
    ∃ l g, gtwrRunEx none true .serial (exST (1 / 2)) ⟨1, false, .Gaussian⟩ unitPair (List.ofFn fun _ : Fin 2 => 0) (ones 2) ![0, 1] true = .ok (l, g) ∧
      IsRSquareOfLambda false 1 g.weight unitPair (fun _ => 0) (ones 2) ![0, 1] pairR2 := by
  have hc : FitsData unitPair 2 := ⟨rfl, rfl⟩
  have hy : totalSS (![0, 1] : Fin 2 → ℝ) ≠ 0 := by
    simp only [totalSS, Fin.sum_univ_two, cons_val_zero, cons_val_one]; norm_num
  obtain ⟨⟨l, s⟩, hs⟩ := lambda_total (R := fun _ l => .ok (false, some (pairR2 l))) fun _ _ => ⟨_, rfl⟩
  rw [← lambda_congr (R := fun _ l => rsquareByLambda (exST (1 / 2)) ⟨1, false, .Gaussian⟩ unitPair (List.ofFn fun _ : Fin 2 => 0) (ones 2) ![0, 1]
    NoStop l) fun j l hl => rsquare_any (exST_config (1 / 2)) hc hy unitPair_rsquare l hl] at hs
  have hr := (C44_lambda_in_range _ _ _ hs).1
  obtain ⟨d', hd', -⟩ := st_distance_any (exST_config l) hc (pair_st l)
  obtain ⟨W, h1, hW, h0⟩ := stRows (exST_config l) hc (pair_st l) hd' (usable_fixed (m := 2) (n := 2) one_pos .Gaussian _)
  have hdet : ∀ i, Determined (ones 2) (W i) := fun i => ones_det (h0 i) ⟨0, by
    obtain ⟨r, -, e⟩ := hW i
    rw [e]; exact Real.exp_pos _⟩
  obtain ⟨g, -, hg, hgw, -⟩ := (gtwrFinish_report (x := ones 2) (y := ![0, 1]) (sS := true) (ex := .serial) h0 trivial h1).1 hdet
  refine ⟨pairR2_peak, hy, l, g, ?_, by rw [hgw]; exact unitPair_rsquare⟩
  have hl : gtwrLambda true (exST (1 / 2)) ⟨1, false, .Gaussian⟩ unitPair (List.ofFn fun _ : Fin 2 => 0) (ones 2) ![0, 1] = .ok l := by
    unfold gtwrLambda
    rw [if_pos rfl]
    exact Res.bind_eq_ok'.2 ⟨_, hs, rfl⟩
  have hset : (exST (1 / 2)).setLambda l = (exST l, .ok ()) := (C12_setLambda (exST (1 / 2)) l).1 hr
  obtain ⟨d0, hd0, -⟩ := st_distance_any (exST_config (1 / 2)) hc (pair_st (1 / 2))
  unfold gtwrRunEx gtwrFinishLambda
  simp only [hd0, hd', Res.bind, hl, if_true, hset, hg]

end Verif.Props

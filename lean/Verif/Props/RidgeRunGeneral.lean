import Verif.Model.RidgeRunGeneral
import Verif.Spec.RidgeRun
import Verif.Props.GWRRidgeRun
import Verif.Props.GWRBasicRun
import Verif.Props.SearchRange

/-! Whole runs of local ridge regression in any mode, for any kind of bandwidth and of coordinates (C103). -/

namespace Verif.Props
open Verif Verif.Model Verif.Spec Matrix Classical

variable {n k : ℕ}

theorem lcrOmp_complete {T : ℕ} {sv : Matrix (Fin n) (Fin k) ℝ → ℝ × ℝ} {cfg : LcrCfg} {x : Matrix (Fin n) (Fin k) ℝ} {y : Fin n → ℝ}
    {W : Fin n → Fin n → ℝ} {tr : Fin 2 → ℝ} {evs : List (OmpEv (Fin n) (Fin T))} (hs : Schedule (List.finRange n) evs)
    {p : (Matrix (Fin n) (Fin k) ℝ × (Fin 2 → ℝ)) × Bool} (h : lcrFitOmp sv cfg x y W NoStop evs tr = .ok p) :
    lcrFitSerial sv cfg x y W NoStop 0 = .ok p := by
  by_cases hall : ∀ i, ∃ r, lcrLocal sv cfg x y W i = .ok r
  · choose f hf using hall
    have h1 : lcrFitSerial sv cfg x y W NoStop 0 = .ok (_, false) := serialFor_ok f _ _ _ (fun _ _ => rfl) fun i _ => hf i
    rw [C39_lcr_parallel_repeatable sv cfg x y W h1 hs tr] at h
    rw [← Res.ok.inj h]
    exact h1
  · push Not at hall
    obtain ⟨i, hi⟩ := hall
    unfold lcrFitOmp at h
    simp only at h
    rw [omp_fail (fun _ => rfl) _ (List.nodup_finRange n) hs i (List.mem_finRange _) hi, if_neg (by simp)] at h
    cases h

/-- Fits of a new object: serial and multithreaded agree. -/
theorem lcrFitIn_iff {sv : Matrix (Fin n) (Fin k) ℝ → ℝ × ℝ} {cfg : LcrCfg} {x : Matrix (Fin n) (Fin k) ℝ} {y : Fin n → ℝ}
    {W : Fin n → Fin n → ℝ} {ex : Exec n} (hex : ex.Valid) {p : (Matrix (Fin n) (Fin k) ℝ × (Fin 2 → ℝ)) × Bool} :
    lcrFitIn sv cfg x y W 0 ex = .ok p ↔ lcrFitSerial sv cfg x y W NoStop 0 = .ok p := by
  cases ex with
  | serial => exact Iff.rfl
  | omp evs =>
    refine ⟨fun h => lcrOmp_complete (tr := 0) hex h, fun h => ?_⟩
    obtain ⟨q, t⟩ := p
    have ht : t = false := serialFor_nostop _ _ _ h
    subst ht
    exact C39_lcr_parallel_repeatable sv cfg x y W h hex 0

theorem lcrFit_congr {core core' : (Fin 2 → ℝ) → Res ((Matrix (Fin n) (Fin k) ℝ × (Fin 2 → ℝ)) × Bool)} (h : ∀ p, core 0 = .ok p ↔ core' 0 = .ok p)
    {x : Matrix (Fin n) (Fin k) ℝ} {y : Fin n → ℝ} {r : LcrResult n k} : lcrFit core x y 0 = .ok r ↔ lcrFit core' x y 0 = .ok r := by
  unfold lcrFit
  rw [Res.bind_eq_ok', Res.bind_eq_ok']
  exact ⟨fun ⟨p, h1, h2⟩ => ⟨p, (h p).1 h1, h2⟩, fun ⟨p, h1, h2⟩ => ⟨p, (h p).2 h1, h2⟩⟩

theorem lcrCV_iff {T : ℕ} {sv : Matrix (Fin n) (Fin k) ℝ → ℝ × ℝ} {cfg : LcrCfg} {x : Matrix (Fin n) (Fin k) ℝ} {y : Fin n → ℝ}
    {W : Fin n → Fin n → ℝ} {evs : List (OmpEv (Fin n) (Fin T))} (hs : Schedule (List.finRange n) evs) {v : ℝ} :
    lcrCriterionCVOmp sv cfg x y W NoStop evs = .ok v ↔ lcrCriterionCV sv cfg x y W NoStop = .ok v := by
  by_cases hall : ∀ i, ∃ r, lcrBeta sv cfg x y (cvWeight W i) = .ok r
  · choose f hf using hall
    obtain ⟨h1, h2, h3⟩ := omp_ok (upd := fun _ : Fin T => setRow) (stop := NoStop) (fun _ => rfl) f
      (0 : Matrix (Fin n) (Fin k) ℝ) hs fun i _ => hf i
    have e : (finishes evs).foldl (fun s ti => setRow ti.2 (f ti.2) s) (0 : Matrix (Fin n) (Fin k) ℝ) =
        (List.finRange n).foldl (fun s i => setRow i (f i) s) 0 := by
      ext i j
      have hmem : i ∈ List.finRange n := List.mem_finRange i
      have e1 : ((List.finRange n).foldl (fun s i => setRow i (f i) s) (0 : Matrix (Fin n) (Fin k) ℝ)) i = f i :=
        foldl_update (α := Fin k → ℝ) (fun i : Fin n => i) f _ _ (by simpa using List.nodup_finRange n) i hmem
      have hmem' : i ∈ (finishes evs).map Prod.snd := hs.finishes.mem_iff.2 hmem
      obtain ⟨⟨t, i'⟩, ht, rfl⟩ := List.mem_map.1 hmem'
      have e2 : ((finishes evs).foldl (fun s ti => setRow ti.2 (f ti.2) s) (0 : Matrix (Fin n) (Fin k) ℝ)) i' = f i' :=
        foldl_update (α := Fin k → ℝ) (fun ti : Fin T × Fin n => ti.2) (fun ti => f ti.2) _ _
          (hs.finishes.nodup_iff.2 (List.nodup_finRange n)) (t, i') ht
      rw [e1, e2]
    unfold lcrCriterionCVOmp lcrCriterionCV
    rw [serialFor_ok f _ _ _ (fun _ _ => rfl) fun i _ => hf i]
    simp only [h1, h2, h3, e, Res.bind, if_true, Bool.false_eq_true, if_false]
  · push Not at hall
    obtain ⟨i, hi⟩ := hall
    constructor
    · intro h
      unfold lcrCriterionCVOmp at h
      simp only at h
      rw [omp_fail (fun _ => rfl) _ (List.nodup_finRange n) hs i (List.mem_finRange _) hi, if_neg (by simp)] at h
      cases h
    · intro h
      unfold lcrCriterionCV at h
      obtain ⟨p, hp, -⟩ := Res.bind_eq_ok'.1 h
      obtain ⟨q, t⟩ := p
      have ht : t = false := serialFor_nostop _ _ _ hp
      subst ht
      obtain ⟨r, hr⟩ := serialFor_complete _ _ _ _ hp i (List.mem_finRange i)
      exact absurd hr (hi r)

theorem lcrCriterionIn_iff {sv : Matrix (Fin n) (Fin k) ℝ → ℝ × ℝ} {cfg : LcrCfg} {d' : CRSDistance} {x : Matrix (Fin n) (Fin k) ℝ}
    {y : Fin n → ℝ} {b : BandwidthWeight} {ex : Exec n} (hex : ex.Valid) {v : ℝ} :
    lcrCriterionIn sv cfg d' x y b ex = .ok v ↔ lcrCriterion sv cfg d' x y b = .ok v := by
  cases ex with
  | serial => exact Iff.rfl
  | omp evs =>
    unfold lcrCriterionIn lcrCriterion
    cases h : weightRows d' b n n with
    | ok W => exact lcrCV_iff hex
    | _ => simp [Res.bind]

theorem lcrScoreIn_eq {sv : Matrix (Fin n) (Fin k) ℝ → ℝ × ℝ} {cfg : LcrCfg} {d' : CRSDistance} {x : Matrix (Fin n) (Fin k) ℝ}
    {y : Fin n → ℝ} {b : BandwidthWeight} {ex : Exec n} (hex : ex.Valid) : lcrScoreIn sv cfg d' x y b ex = lcrScore sv cfg d' x y b := by
  unfold lcrScoreIn lcrScore
  have h := fun v => lcrCriterionIn_iff (sv := sv) (cfg := cfg) (d' := d') (x := x) (y := y) (b := b) hex (v := v)
  cases h1 : lcrCriterionIn sv cfg d' x y b ex with
  | ok v => rw [(h v).1 h1]
  | _ =>
    cases h2 : lcrCriterion sv cfg d' x y b with
    | ok v => rw [(h v).2 h2] at h1; cases h1
    | _ => rfl

theorem lcrSelectIn_eq {sv : Matrix (Fin n) (Fin k) ℝ → ℝ × ℝ} {cfg : LcrCfg} {sched : ℕ → Exec n} (hs : ∀ j, (sched j).Valid) {d' : CRSDistance}
    {b0 : BandwidthWeight} {x : Matrix (Fin n) (Fin k) ℝ} {y : Fin n → ℝ} :
    lcrSelectBandwidthIn sv cfg sched d' b0 x y = lcrSelectBandwidth sv cfg d' b0 x y := by
  unfold lcrSelectBandwidthIn lcrSelectBandwidth
  have e : (fun (j : ℕ) (b : BandwidthWeight) => (true, lcrScoreIn sv cfg d' x y b (sched j))) = fun _ b => (true, lcrScore sv cfg d' x y b) := by
    funext j b
    rw [lcrScoreIn_eq (hs j)]
  rw [e]
  have e2 : ∀ q, (∀ j, ∃ v, lcrCriterionIn sv cfg d' x y q (sched j) = .ok v) ↔ ∃ v, lcrCriterion sv cfg d' x y q = .ok v := fun q =>
    ⟨fun h => (h 0).imp fun v hv => (lcrCriterionIn_iff (hs 0)).1 hv, fun ⟨v, hv⟩ j => ⟨v, (lcrCriterionIn_iff (hs j)).2 hv⟩⟩
  simp only [e2]

theorem lcrFinishIn_iff {sv : Matrix (Fin n) (Fin k) ℝ → ℝ × ℝ} {cfg : LcrCfg} {ex : Exec n} (hex : ex.Valid) {d' : CRSDistance}
    {b : BandwidthWeight} {x : Matrix (Fin n) (Fin k) ℝ} {y : Fin n → ℝ} {r : LcrResult n k} :
    lcrFinishIn sv cfg ex d' b x y = .ok r ↔
      ∃ W, weightRows d' b n n = .ok W ∧ lcrFit (lcrFitSerial sv cfg x y W NoStop) x y 0 = .ok r := by
  unfold lcrFinishIn
  cases h : weightRows d' b n n with
  | ok W =>
    simp only
    rw [lcrFit_congr (core' := lcrFitSerial sv cfg x y W NoStop) fun p => lcrFitIn_iff hex]
    exact ⟨fun h => ⟨W, rfl, h⟩, fun ⟨W', h1, h2⟩ => by cases Res.ok.inj h1; exact h2⟩
  | _ => cases ex <;> simp [Res.bind]

/-- **C103 (modes).** A multithreaded run of the ridge regression of a new object, with a given or an automatically selected bandwidth, whatever the
schedules of its loops, returns exactly what the serial run returns. -/
theorem C103_modes_agree (sv : Matrix (Fin n) (Fin k) ℝ → ℝ × ℝ) (cfg : LcrCfg) (sched : ℕ → Exec n) (hs : ∀ j, (sched j).Valid) (ex : Exec n)
    (hex : ex.Valid) (d : CRSDistance) (b : BandwidthWeight) (coords : DynMat) (x : Matrix (Fin n) (Fin k) ℝ) (y : Fin n → ℝ) :
    (∀ r, lcrRunIn sv cfg ex d b coords x y = .ok r ↔ lcrRun sv cfg d b coords x y = .ok r) ∧
    ∀ r, lcrAutoRunIn sv cfg sched ex d b coords x y = .ok r ↔ lcrAutoRun sv cfg d b coords x y = .ok r := by
  constructor
  · intro r
    unfold lcrRunIn lcrRun
    simp only [Res.bind_eq_ok', lcrFinishIn_iff hex]
  · intro r
    unfold lcrAutoRunIn lcrAutoRun
    simp only [Res.bind_eq_ok', lcrFinishIn_iff hex, lcrSelectIn_eq hs]
    constructor
    · rintro ⟨d', h1, s, h2, q, h3, f, ⟨W, h4, h5⟩, h6⟩
      exact ⟨d', h1, s, h2, q, h3, W, h4, f, h5, h6⟩
    · rintro ⟨d', h1, s, h2, q, h3, W, h4, f, h5, h6⟩
      exact ⟨d', h1, s, h2, q, h3, f, ⟨W, h4, h5⟩, h6⟩

theorem ridge_report {sv : Matrix (Fin n) (Fin k) ℝ → ℝ × ℝ} (hsv : ExactSV sv) {cfg : LcrCfg} (hl : 0 ≤ cfg.lambda) (ht : 1 < cfg.thresh)
    {x : Matrix (Fin n) (Fin k) ℝ} {y : Fin n → ℝ} {W : Fin n → Fin n → ℝ} (hW : ∀ i, W i i = 1) {r : LcrResult n k}
    (h : lcrFit (lcrFitSerial sv cfg x y W NoStop) x y 0 = .ok r) : IsRidgeReport cfg.lambda cfg.adjust cfg.thresh x y W r := by
  obtain ⟨hb, H, hH, e⟩ := lcrFit_ok h
  have hS : ∀ i l, H i l = hatEntry x (W i) i l := by
    intro i l
    rw [(lcrHatRow_ok (hH i)).2 l, hW, one_mul]
    rfl
  refine ⟨fun i => lcrBeta_ridge hsv hl ht (hb i), _, e, ?_, ?_, ?_, ?_, ?_, ?_, ?_⟩
  · simp only [lcrDiagnostic, rss, fitted, residualSS, sq, mul_comm]
  · simp [lcrDiagnostic, hS]
  · simp [lcrDiagnostic]
  · intro v hv
    obtain ⟨l, hl, hv⟩ := Res.bind_eq_ok'.1 hv
    rw [lcrLog hl] at hv
    rw [← Res.ok.inj hv]; rfl
  · intro v hv
    obtain ⟨l, hl, h1⟩ := Res.bind_eq_ok'.1 hv
    obtain ⟨q1, hq1, h2⟩ := Res.bind_eq_ok'.1 h1
    obtain ⟨q2, hq2, h3⟩ := Res.bind_eq_ok'.1 h2
    obtain ⟨q, hq, h4⟩ := Res.bind_eq_ok'.1 h3
    rw [← Res.ok.inj h4, lcrLog hl, fdiv_ok hq, fdiv_ok hq1, fdiv_ok hq2]; rfl
  · intro v hv
    obtain ⟨q, hq, h1⟩ := Res.bind_eq_ok'.1 hv
    rw [← Res.ok.inj h1, fdiv_ok hq]
    simp only [lcrDiagnostic, meanVec, sq]
  · intro v hv
    obtain ⟨q, hq, h1⟩ := Res.bind_eq_ok'.1 hv
    obtain ⟨q', hq', h2⟩ := Res.bind_eq_ok'.1 hq
    obtain ⟨q3, hq3, h3⟩ := Res.bind_eq_ok'.1 h1
    rw [← Res.ok.inj h3, fdiv_ok hq3, ← Res.ok.inj h2, fdiv_ok hq']
    simp only [lcrDiagnostic, meanVec, sq, sub_sub_cancel]

theorem ownWeight_one {geo : Bool} {coords : DynMat} {b : BandwidthWeight} {dist w : Fin n → Fin n → ℝ} (hd : IsMapDistance geo coords coords dist)
    (hu : UsableRadius b dist) (hw : IsKernelWeight b dist w) (i : Fin n) : w i i = 1 := by
  obtain ⟨r, hr, e⟩ := hw i
  rw [e, selfDistance hd, kernel_zero _ (hu.2 i r hr)]

/-- **C103 (fit, every kind).** With a bandwidth that makes sense for the distances, fixed or adaptive, planar or geographic coordinates, serial or
multithreaded under any schedule: a fit that completes reports the local ridge estimates for the kernel weights of the distances, and the diagnostics
defined in `IsRidgeReport`. -/
theorem C103_any_fit (sv : Matrix (Fin n) (Fin k) ℝ → ℝ × ℝ) (hsv : ExactSV sv) (cfg : LcrCfg) (hl : 0 ≤ cfg.lambda) (ht : 1 < cfg.thresh)
    (ex : Exec n) (hex : ex.Valid) (geo : Bool) (p : Option (DynMat × DynMat)) (b : BandwidthWeight) (coords : DynMat) (hc : FitsData coords n)
    (dist w : Fin n → Fin n → ℝ) (hd : IsMapDistance geo coords coords dist) (hu : UsableRadius b dist) (hw : IsKernelWeight b dist w)
    (x : Matrix (Fin n) (Fin k) ℝ) (y : Fin n → ℝ) (r : LcrResult n k) (h : lcrRunIn sv cfg ex ⟨geo, p⟩ b coords x y = .ok r) :
    IsRidgeReport cfg.lambda cfg.adjust cfg.thresh x y w r := by
  unfold lcrRunIn at h
  obtain ⟨d', hd', h⟩ := Res.bind_eq_ok'.1 h
  obtain ⟨-, -, rfl⟩ := bindLocations_eq_ok.1 hd'
  obtain ⟨W, hW, h⟩ := (lcrFinishIn_iff hex).1 h
  obtain ⟨W', h1, h2, h3⟩ := kernelRows hc.2 hc.2 hd hu id
  cases Res.ok.inj (hW.symm.trans h1)
  obtain rfl := kernelWeight_unique h2 hw
  exact ridge_report hsv hl ht (ownWeight_one hd hu hw) h

/-- **C103 (bandwidth choice, every kind).** With automatic selection, in any mode and for planar or geographic coordinates: kernel and kind of the
bandwidth are the configured ones; the search starts from the default range; the reported bandwidth has the smallest value of all bandwidths tried, the
value of each that makes sense for the distances being its cross-validation score; and if the reported bandwidth makes sense for the distances, the
fit reports what `C103_any_fit` says for it. -/
theorem C103_any_choice (sv : Matrix (Fin n) (Fin k) ℝ → ℝ × ℝ) (hsv : ExactSV sv) (cfg : LcrCfg) (hl : 0 ≤ cfg.lambda) (ht : 1 < cfg.thresh)
    (sched : ℕ → Exec n) (hs : ∀ j, (sched j).Valid) (ex : Exec n) (hex : ex.Valid) (geo : Bool) (p : Option (DynMat × DynMat))
    (b0 b : BandwidthWeight) (coords : DynMat) (hc : FitsData coords n) (hn : 0 < n)
    (dist : Fin n → Fin n → ℝ) (hd : IsMapDistance geo coords coords dist)
    (x : Matrix (Fin n) (Fin k) ℝ) (y : Fin n → ℝ) (r : LcrResult n k) (h : lcrAutoRunIn sv cfg sched ex ⟨geo, p⟩ b0 coords x y = .ok (b, r)) :
    b.mKernel = b0.mKernel ∧ b.mAdaptive = b0.mAdaptive ∧
    (∃ tried : List (ℝ × ℝ), (∃ l u, DefaultRange b0.mAdaptive dist l u ∧ StartsInRange b0.mAdaptive l u (tried.map Prod.fst)) ∧
      (∃ v, (b.mBandwidth, v) ∈ tried ∧ ∀ q ∈ tried, v ≤ q.2) ∧
      ∀ q ∈ tried, UsableRadius { b0 with mBandwidth := q.1 } dist → ∀ w, IsKernelWeight { b0 with mBandwidth := q.1 } dist w →
        IsRidgeScore cfg.lambda cfg.adjust cfg.thresh x y w q.2) ∧
    (UsableRadius b dist → ∀ w, IsKernelWeight b dist w → IsRidgeReport cfg.lambda cfg.adjust cfg.thresh x y w r) := by
  unfold lcrAutoRunIn at h
  obtain ⟨d', hd', h⟩ := Res.bind_eq_ok'.1 h
  obtain ⟨-, -, rfl⟩ := bindLocations_eq_ok.1 hd'
  obtain ⟨sr, hsr, h⟩ := Res.bind_eq_ok'.1 h
  obtain ⟨b', hb', h⟩ := Res.bind_eq_ok'.1 h
  obtain ⟨f, hf, h⟩ := Res.bind_eq_ok'.1 h
  obtain ⟨rfl, rfl⟩ := Prod.mk.inj (Res.ok.inj h)
  rw [lcrSelectIn_eq hs] at hsr
  obtain ⟨l, u, hr1, hr2⟩ := C127_ridge_range sv cfg geo b0 coords hc hn dist hd x y sr hsr
  unfold lcrSelectBandwidth at hsr
  obtain ⟨M, -, hsr⟩ := Res.bind_eq_ok'.1 hsr
  dsimp only at hsr
  rw [ite_eq_iff] at hsr
  rcases hsr with ⟨hall, hsr⟩ | ⟨-, hsr⟩
  swap
  · cases hsr
  cases Res.ok.inj hsr
  have hkind := optimize_kind _ _ _ _ _ hb'
  have hev := optimize_evals b0 (if b0.mAdaptive then 20 else 0) M (fun b => lcrScore sv cfg ⟨geo, some (coords, coords)⟩ x y b) []
  obtain ⟨e, he, hx, hmin⟩ := C14_returns_best_evaluated _ _ _ _ _ _ hb' fun e he => (hev e he).1
  refine ⟨by rw [hkind], by rw [hkind], ⟨(optimize b0 (if b0.mAdaptive then 20 else 0) M
      (fun _ b => (true, lcrScore sv cfg ⟨geo, some (coords, coords)⟩ x y b)) []).evals.map fun e => (e.x, e.f), ⟨l, u, hr1, ?_⟩,
      ⟨e.f, List.mem_map.2 ⟨e, he, by rw [hx]⟩, fun q hq => ?_⟩, fun q hq hu w hw => ?_⟩, fun hu w hw => ?_⟩
  · rw [List.map_map]; exact hr2
  · obtain ⟨e', he', rfl⟩ := List.mem_map.1 hq
    exact hmin e' he'
  · obtain ⟨e', he', rfl⟩ := List.mem_map.1 hq
    obtain ⟨v, hv⟩ := hall e' he'
    have hfe := (hev e' he').2
    simp only [lcrScore, hv] at hfe
    unfold lcrCriterion at hv
    obtain ⟨W, hW, hv⟩ := Res.bind_eq_ok'.1 hv
    obtain ⟨W', h1, h2, h3⟩ := kernelRows hc.2 hc.2 hd hu id
    cases Res.ok.inj (hW.symm.trans h1)
    obtain rfl := kernelWeight_unique h2 hw
    obtain ⟨B, hB, hsc⟩ := C73_score sv cfg x y W hv
    refine ⟨B, fun i => ?_, by rw [← hsc]; exact hfe⟩
    have := lcrBeta_ridge hsv hl ht (hB i)
    rwa [cvWeight_fixed W i rfl] at this
  · obtain ⟨W, hW, hf⟩ := (lcrFinishIn_iff hex).1 hf
    obtain ⟨W', h1, h2, h3⟩ := kernelRows hc.2 hc.2 hd hu id
    cases Res.ok.inj (hW.symm.trans h1)
    obtain rfl := kernelWeight_unique h2 hw
    exact ridge_report hsv hl ht (ownWeight_one hd hu hw) hf

end Verif.Props
